import Verif.Proofs.Restart
/-! # C89: what survives a restart of the broker -/
namespace Paladin
namespace Restart
open Amqp

variable {N B V : Type} [DecidableEq N] {dec : B → Option V} {prefetch : Nat} {s s' : St N B} {ls : List (RLabel N B)}

theorem unsettled_mem {m i : Nat} {q : Queue N} (hq : s.base.queues[i]? = some q) (h : unsettled s.base m i) : m ∈ returned s.base.consumers i ++ q.ready := by
  rcases h with ⟨q', h1, h2⟩ | ⟨c, h1, h2, h3⟩
  · rw [hq] at h1; cases h1
    exact List.mem_append_right _ h2
  · exact List.mem_append_left _ (mem_returned.2 ⟨c, h1, h2, h3⟩)

/-- **C89.** Exactly the persistent messages of durable queues survive: such a message is ready in its queue after the restart, even if it had been delivered and was not settled; every other unsettled
message is lost. -/
theorem C89_restart (h : run dec prefetch init ls = some s) {m i : Nat} {q : Queue N} (hq : s.base.queues[i]? = some q) (hu : unsettled s.base m i) (conns : List Nat) :
    (q.present = true ∧ q.args.durable = true ∧ s.modes[m]? = some (some 2) →
      (∃ q', (restart s conns).base.queues[i]? = some q' ∧ q'.present = true ∧ q'.name = q.name ∧ m ∈ q'.ready) ∧ m ∉ (restart s conns).base.lost) ∧
    (¬ (q.present = true ∧ q.args.durable = true ∧ s.modes[m]? = some (some 2)) → m ∈ (restart s conns).base.lost ∧ ∀ j, ¬ unsettled (restart s conns).base m j) := by
  have hg := good_run h
  have hc := (data_restart hg.inv.names hg.inv.data conns).count m
  have hm := unsettled_mem hq hu
  have hle : (if m < (restart s conns).base.msgs.length then 1 else 0) ≤ 1 := by split <;> omega
  constructor
  · rintro ⟨h1, h2, h3⟩
    have hk : keeps q = true := by simp [keeps, h1, h2]
    have hr : m ∈ kept s i q := by
      simp only [kept, hk, if_true, List.mem_filter]
      exact ⟨hm, by simp [St.onDisk, h3]⟩
    refine ⟨⟨_, queue_restart hq, hk, rfl, hr⟩, fun hl => ?_⟩
    have h4 := List.count_pos_iff.2 hl
    have h5 : 0 < ((restart s conns).base.queues.flatMap Queue.ready).count m :=
      List.count_pos_iff.2 (List.mem_flatMap.2 ⟨_, List.mem_of_getElem? (queue_restart hq), hr⟩)
    omega
  · intro hn
    have hl : m ∈ (restart s conns).base.lost := by
      simp only [restart, List.mem_append, List.mem_flatten, List.mem_mapIdx]
      obtain ⟨hi, rfl⟩ := List.getElem?_eq_some_iff.1 hq
      refine .inr ⟨_, ⟨i, hi, rfl⟩, ?_⟩
      simp only [gone]
      split
      · rename_i hk
        simp only [keeps, Bool.and_eq_true] at hk
        refine List.mem_filter.2 ⟨hm, ?_⟩
        simp only [St.onDisk, Bool.not_eq_true', decide_eq_false_iff_not]
        exact fun h3 => hn ⟨hk.1, hk.2, h3⟩
      · exact hm
    refine ⟨hl, ?_⟩
    have h4 := List.count_pos_iff.2 hl
    rintro j (⟨p, hp, hr⟩ | ⟨c, hc', -, hr⟩)
    · have := List.count_pos_iff.2 (List.mem_flatMap.2 ⟨p, List.mem_of_getElem? hp, hr⟩)
      omega
    · have := List.count_pos_iff.2 (List.mem_flatMap.2 ⟨c, hc', hr⟩)
      omega

/-- **C89.** With restarts too, every published message is in exactly one place. -/
theorem C89_one_place (h : run dec prefetch init ls = some s) (m : Nat) : places s.base m = if m < s.base.msgs.length then 1 else 0 := (good_run h).inv.data.count m

/-- **C89.** With restarts too, a message is delivered at most once, and once more each time the broker takes it back. -/
theorem C89_at_most_once (h : run dec prefetch init ls = some s) (m : Nat) : (s.base.dlv.map Prod.fst).count m ≤ 1 + s.base.requeued.count m := by
  have := (good_run h).inv.data.once m
  split at this <;> omega

theorem safe_run (h : run dec prefetch init ls = some s) {name : N} (hd : DeclaredAs ls name .durable) (hp : PublishedAs ls name .persistent) (hn : NotDeleted ls name) : Safe name s := by
  refine Lts.run_induction (P := fun (ls : List (RLabel N B)) (s : St N B) => DeclaredAs ls name .durable → PublishedAs ls name .persistent → NotDeleted ls name → Safe name s)
    ?_ ?_ ls s h hd hp hn
  · intro _ _ _
    constructor <;> simp [init, Amqp.init]
  · intro ls l s s' hr ih hs hd hp hn
    have hd' : DeclaredAs ls name .durable := fun conn o h => hd conn o (List.mem_append_left _ h)
    have hp' : PublishedAs ls name .persistent := fun conn o b h => hp conn o b (List.mem_append_left _ h)
    have hn' : NotDeleted ls name := fun conn h => hn conn (List.mem_append_left _ h)
    exact safe_step (good_run hr) (durable_of (good_run hr).origin hd' hp' hn') (ih hd' hp' hn') hs

/-- **C89.** If everybody declares the queue durable and publishes persistent messages, and nobody deletes it, then however often the broker restarts, no message of the queue is lost: it has been
settled by a consumer, it was published before there was a queue, or it is still in the queue, which is there. -/
theorem C89_durable (h : run dec prefetch init ls = some s) {name : N} (hd : DeclaredAs ls name .durable) (hp : PublishedAs ls name .persistent) (hn : NotDeleted ls name)
    {m : Nat} {g : Msg N B} (hg : s.base.msgs[m]? = some g) (hname : g.name = name) :
    m ∉ s.base.lost ∧ (m ∈ s.base.acked ∨ m ∈ s.base.nacked ∨ m ∈ s.base.unroutable ∨
      ∃ i q, s.base.queues[i]? = some q ∧ q.present = true ∧ q.name = name ∧ unsettled s.base m i) := by
  have hs := safe_run h hd hp hn
  have good := good_run h
  have hl : m ∉ s.base.lost := fun hl => hs.lost m hl g hg hname
  refine ⟨hl, ?_⟩
  have hc := good.inv.data.count m
  rw [if_pos (List.getElem?_eq_some_iff.1 hg).1, List.count_eq_zero.2 hl] at hc
  have there : ∀ i, addressed s.base m i → unsettled s.base m i → ∃ i q, s.base.queues[i]? = some q ∧ q.present = true ∧ q.name = name ∧ unsettled s.base m i := by
    rintro i ⟨g', q, h1, h2, h3⟩ hu
    rw [hg] at h1; cases h1
    exact ⟨i, q, h2, hs.present i q h2 (h3.trans hname), h3.trans hname, hu⟩
  by_cases h1 : m ∈ s.base.acked
  · exact .inl h1
  by_cases h2 : m ∈ s.base.nacked
  · exact .inr (.inl h2)
  by_cases h3 : m ∈ s.base.unroutable
  · exact .inr (.inr (.inl h3))
  refine .inr (.inr (.inr ?_))
  rw [List.count_eq_zero.2 h1, List.count_eq_zero.2 h2, List.count_eq_zero.2 h3] at hc
  by_cases h4 : m ∈ s.base.queues.flatMap Queue.ready
  · obtain ⟨q, hq, hr⟩ := List.mem_flatMap.1 h4
    obtain ⟨i, hi⟩ := List.getElem?_of_mem hq
    exact there i (good.routed.ready i q hi m hr) (.inl ⟨q, hi, hr⟩)
  · rw [List.count_eq_zero.2 h4] at hc
    have h5 : m ∈ s.base.consumers.flatMap Consumer.unacked := List.count_pos_iff.1 (by omega)
    obtain ⟨c, hc, hr⟩ := List.mem_flatMap.1 h5
    exact there c.inst (good.routed.unacked c hc m hr) (.inr ⟨c, hc, rfl, hr⟩)

/-- **C89.** … and what is published to the name arrives in its queue after a restart as before, with both modes: the queue, the exchange and the binding are still there. -/
theorem C89_routes {ls' : List (RLabel N B)} (h : run dec prefetch init ls = some s) {mode : Syndication} {name : N} {i : Nat} (hr : routes s.base mode name i) (h' : run dec prefetch s ls' = some s')
    (hd : DeclaredAs (ls ++ ls') name .durable) (hp : PublishedAs (ls ++ ls') name .persistent) (hn : NotDeleted (ls ++ ls') name) : routes s'.base mode name i := by
  have key : There s.base name i → There s'.base name i ∧ (routes s.base .broadcast name i → routes s'.base .broadcast name i) := by
    refine Lts.run_induction (P := fun (ls' : List (RLabel N B)) (s' : St N B) => DeclaredAs (ls ++ ls') name .durable → PublishedAs (ls ++ ls') name .persistent → NotDeleted (ls ++ ls') name →
      There s.base name i → There s'.base name i ∧ (routes s.base .broadcast name i → routes s'.base .broadcast name i)) (fun _ _ _ h => ⟨h, fun h => h⟩) ?_ ls' s' h' hd hp hn
    intro ls1 l s1 s2 hr1 ih hs hd hp hn ht
    have hd1 : DeclaredAs (ls ++ ls1) name .durable := fun conn o h => hd conn o (by rw [← List.append_assoc]; exact List.mem_append_left _ h)
    have hp1 : PublishedAs (ls ++ ls1) name .persistent := fun conn o b h => hp conn o b (by rw [← List.append_assoc]; exact List.mem_append_left _ h)
    have hn1 : NotDeleted (ls ++ ls1) name := fun conn h => hn conn (by rw [← List.append_assoc]; exact List.mem_append_left _ h)
    obtain ⟨i1, i2⟩ := ih hd1 hp1 hn1 ht
    obtain ⟨k1, k2⟩ := keeps_durable (durable_of (good_run (Lts.run_append.2 ⟨s, h, hr1⟩)).origin hd1 hp1 hn1) hs i1
    exact ⟨k1, fun hb => k2 (i2 hb)⟩
  have hn' := (good_run (Lts.run_append.2 ⟨s, h, h'⟩)).inv.names
  cases mode with
  | exactlyOnce =>
    obtain ⟨⟨q, k1, k2, k3⟩, -⟩ := key (find_some hr)
    show s'.base.find name = some i
    cases hf : s'.base.find name with
    | none => exact absurd k3 (find_none hf i q k1 k2)
    | some j =>
      obtain ⟨p, p1, p2, p3⟩ := find_some hf
      rw [hn'.uniq j i p q p1 k1 p2 k2 (p3.trans k3.symm)]
  | broadcast => exact (key ((good_run h).inv.names.bind name i hr.2)).2 hr

/-- **C89.** After the restart a new process that consumes from the queue is given the message, if what is in the queue can be decoded: there is a way on in which the broker and the new consumer only
do their work. -/
theorem C89_delivered (h : run dec prefetch init ls = some s) {m i : Nat} {q : Queue N} (hq : s.base.queues[i]? = some q) (hu : unsettled s.base m i)
    (hp : q.present = true) (hdur : q.args.durable = true) (hmode : s.modes[m]? = some (some 2)) (hdec : ∀ x, unsettled s.base x i → decodable dec s.base x)
    (conns : List Nat) {conn : Nat} (ho : conn ∉ (restart s conns).base.closed) :
    ∃ (ls' : List (Label N B)) (s' : St N B), run dec prefetch s (.restart conns :: .base (.begin conn (.declareConsumer q.name)) :: .base (.exec s.base.calls.length) :: ls'.map .base) = some s' ∧
      (∀ l ∈ ls', l.serves s.base.consumers.length) ∧ (m, s.base.consumers.length) ∈ s'.base.yielded := by
  have hg := good_run h
  have hi := inv_restart hg.inv conns
  obtain ⟨⟨q', hq', hp', hn', hr'⟩, -⟩ := (C89_restart h hq hu conns).1 ⟨hp, hdur, hmode⟩
  generalize hx : (restart s conns).base = x at *
  have hlen : x.calls.length = s.base.calls.length := by rw [← hx]; rfl
  have hclen : x.consumers.length = s.base.consumers.length := by rw [← hx]; simp [restart]
  have hf : x.find q.name = some i := by
    cases hf : x.find q.name with
    | none => exact absurd hn' (find_none hf i q' hq' hp')
    | some j =>
      obtain ⟨p, p1, p2, p3⟩ := find_some hf
      rw [hi.names.uniq j i p q' p1 hq' p2 hp' (p3.trans hn'.symm)]
  have e1 : Amqp.step dec prefetch x (.begin conn (.declareConsumer q.name)) = some { x with calls := x.calls ++ [⟨conn, .declareConsumer q.name, [.consume q.name], none⟩] } := rfl
  have i1 := inv_step hi e1
  generalize hx1 : ({ x with calls := x.calls ++ [⟨conn, .declareConsumer q.name, [.consume q.name], none⟩] } : Amqp.St N B) = x1 at *
  have hm : method x1 conn (.consume q.name) = ({ x1 with consumers := x1.consumers ++ [⟨conn, i, false, [], [], [], [], false, false⟩] }, .ok) := by
    have : x1.find q.name = some i := by rw [← hx1]; exact hf
    simp only [method, this]
  have e2 := exec_ok (dec := dec) (prefetch := prefetch) (s := x1) (j := s.base.calls.length) (r := ⟨conn, .declareConsumer q.name, [.consume q.name], none⟩) (m := .consume q.name) (rest := [])
    (by rw [← hx1, ← hlen]; simp) rfl (by rw [← hx1]; exact ho) rfl (by rw [hm])
  rw [hm] at e2
  have i2 := inv_step i1 e2
  dsimp only at e2 i2
  generalize hx2 : ({ x1 with consumers := x1.consumers ++ [⟨conn, i, false, [], [], [], [], false, false⟩], calls := x1.calls.set s.base.calls.length ⟨conn, .declareConsumer q.name, [], none⟩ } : Amqp.St N B) = x2 at *
  obtain ⟨pre, post, hpp⟩ := List.append_of_mem hr'
  have hc2 : x2.consumers[s.base.consumers.length]? = some ⟨conn, i, false, [], [], [], [], false, false⟩ := by
    rw [← hx2, ← hx1, ← hclen]; simp
  have hq2 : x2.queues[i]? = some q' := by rw [← hx2, ← hx1]; exact hq'
  have hm2 : x2.msgs = s.base.msgs := by rw [← hx2, ← hx1, ← hx]; rfl
  obtain ⟨ls', s', hrun, hserves, hy⟩ := serve (k := s.base.consumers.length) pre i2 hc2 (by
      have : conn ∉ x2.closed := by rw [← hx2, ← hx1]; exact ho
      simp [St.canDeliver, this, hq2, hp'])
    (by by_cases h0 : prefetch = 0
        · exact .inl h0
        · exact .inr (Nat.pos_of_ne_zero h0)) hq2 hpp (by
      intro y hy
      have hy' : y ∈ q'.ready := by
        rw [hpp]
        rcases hy with hy | hy | rfl
        · simp at hy
        · simp [hy]
        · simp
      have hyu : unsettled s.base y i := by
        rw [← hx] at hq'
        obtain ⟨p, h1, rfl⟩ := restart_queue hq'
        rw [hq] at h1; cases h1
        have hk : keeps q = true := by simp [keeps, hp, hdur]
        simp only [kept, hk, if_true] at hy'
        rcases List.mem_append.1 (List.mem_filter.1 hy').1 with h2 | h2
        · obtain ⟨c, h3, h4, h5⟩ := mem_returned.1 h2
          exact .inr ⟨c, h3, h4, h5⟩
        · exact .inl ⟨q, hq, h2⟩
      obtain ⟨g, v, h1, h2⟩ := hdec y hyu
      exact ⟨g, v, by rw [hm2]; exact h1, h2⟩)
  have hall : Amqp.run dec prefetch (restart s conns).base (.begin conn (.declareConsumer q.name) :: .exec s.base.calls.length :: ls') = some s' := by
    rw [hx]
    exact Lts.run_cons.2 ⟨_, e1, Lts.run_cons.2 ⟨_, e2, hrun⟩⟩
  obtain ⟨ms, hms⟩ := run_base hall
  exact ⟨ls', ⟨s', ms⟩, Lts.run_cons.2 ⟨_, rfl, hms⟩, hserves, hy⟩

/-- **C89.** The queues of channels are not durable. So if all queues are those of channels, a restart leaves nothing: no queue, no exchange, no binding; every message that had not been
settled is lost, tasks and results alike. -/
theorem C89_channels (h : run dec prefetch init ls = some s) (hch : ∀ conn name o, .base (.begin conn (.declareQueue name o)) ∈ ls → ∃ t : ChannelType, o = t.options) (conns : List Nat) :
    (∀ q ∈ (restart s conns).base.queues, q.present = false) ∧ (restart s conns).base.exchanges = [] ∧ (restart s conns).base.bindings = [] ∧
    ∀ m i, unsettled s.base m i → m ∈ (restart s conns).base.lost := by
  have hg := good_run h
  have nd : ∀ t : ChannelType, t.options.args.durable = false := fun t => (C50_options t).2.2.1
  have hq : ∀ (i : Nat) (q : Queue N), s.base.queues[i]? = some q → q.args.durable = false := by
    intro i q hq
    obtain ⟨conn, o, h1, h2⟩ := hg.origin.queues i q hq
    obtain ⟨t, rfl⟩ := hch _ _ _ h1
    rw [h2, nd]
  refine ⟨?_, ?_, ?_, ?_⟩
  · intro q' hq'
    obtain ⟨i, hi⟩ := List.getElem?_of_mem hq'
    obtain ⟨p, hp, rfl⟩ := restart_queue hi
    simp [keeps, hq i p hp]
  · simp only [restart, List.filter_eq_nil_iff]
    intro e he
    obtain ⟨conn, o, h1, h2⟩ := hg.origin.exchanges e he
    obtain ⟨t, rfl⟩ := hch _ _ _ h1
    simp [h2, nd]
  · simp only [restart, List.filter_eq_nil_iff]
    intro b hb
    obtain ⟨q, h1, h2, h3⟩ := hg.inv.names.bind b.1 b.2 hb
    simp [h1, keeps, hq _ q h1]
  · intro m i hu
    have : ∃ q, s.base.queues[i]? = some q := by
      rcases hu with ⟨q, h1, -⟩ | ⟨c, h1, rfl, -⟩
      · exact ⟨q, h1⟩
      · exact ⟨_, List.getElem?_eq_getElem (hg.inv.names.cons c h1)⟩
    obtain ⟨q, h1⟩ := this
    exact ((C89_restart h h1 hu conns).2 fun h => by simp [hq i q h1] at h).1

theorem dlv_closed {x x' : Amqp.St N B} {l : Label N B} (hi : Amqp.Inv dec prefetch x) (h : Amqp.step dec prefetch x l = some x') {k : Nat} {c : Consumer} (hc : x.consumers[k]? = some c)
    (ho : c.conn ∈ x.closed) (m : Nat) (hm : (m, k) ∈ x'.dlv) : (m, k) ∈ x.dlv := by
  have he := eff_of_step hi.names h
  generalize x'.calls = cs at he
  generalize x'.closed = cl at he
  clear h
  cases he with
  | deliver k' c' q m' rest hc' hq hr hcan hpf =>
    simp only [List.mem_append, List.mem_singleton, Prod.mk.injEq] at hm
    rcases hm with hm | ⟨rfl, rfl⟩
    · exact hm
    · rw [hc] at hc'; cases hc'
      simp [St.canDeliver, ho] at hcan
  | _ => exact hm

theorem call_closed {x x' : Amqp.St N B} {l : Label N B} (h : Amqp.step dec prefetch x l = some x') {j : Nat} {r : Running N B} (hr : x.calls[j]? = some r) (ho : r.conn ∈ x.closed)
    (hn : r.result = none ∨ r.result = some none) : ∃ r' : Running N B, x'.calls[j]? = some r' ∧ r'.conn = r.conn ∧ (r'.result = none ∨ r'.result = some none) := by
  have hlt : j < x.calls.length := (List.getElem?_eq_some_iff.1 hr).1
  cases l with
  | «begin» conn c =>
    simp only [Amqp.step, Option.some.injEq] at h; subst h
    exact ⟨r, by dsimp only; rw [List.getElem?_append_left hlt]; exact hr, rfl, hn⟩
  | exec k =>
    simp only [Amqp.step] at h
    by_cases e : k = j
    · subst e
      simp only [hr] at h
      split at h
      · cases h
      · rw [if_pos (by simpa using ho)] at h
        cases h
        exact ⟨{ r with result := some none }, by dsimp only; rw [List.getElem?_set_self hlt], rfl, .inr rfl⟩
    · have key : ∀ r1 : Running N B, (x.calls.set k r1)[j]? = some r := fun r1 => by rw [List.getElem?_set_ne e]; exact hr
      split at h
      · cases h
      · split at h
        · cases h
        · split at h
          · cases h; exact ⟨r, key _, rfl, hn⟩
          · split at h
            · cases h; exact ⟨r, key _, rfl, hn⟩
            · split at h <;> cases h <;> exact ⟨r, key _, rfl, hn⟩
  | _ =>
    simp only [Amqp.step, remove] at h
    (repeat' split at h) <;> simp only [Option.some.injEq, reduceCtorEq] at h <;> subst h <;> exact ⟨r, hr, rfl, hn⟩

/-- **C89.** Nobody who was there before the restart is served after it: a consumer gets no further delivery, however long it waits, and a call that was under way does not succeed. -/
theorem C89_cut_off {ls' : List (RLabel N B)} (h : run dec prefetch init ls = some s) (conns : List Nat) (h' : run dec prefetch (restart s conns) ls' = some s') :
    (∀ k, k < s.base.consumers.length → ∀ m, (m, k) ∈ s'.base.dlv → (m, k) ∈ s.base.dlv) ∧
    ∀ (j : Nat) (r : Running N B), s.base.calls[j]? = some r → r.result = none → ∃ r' : Running N B, s'.base.calls[j]? = some r' ∧ (r'.result = none ∨ r'.result = some none) := by
  have base : ∀ c ∈ (restart s conns).base.consumers, c.conn ∈ (restart s conns).base.closed := by
    intro c hc
    simp only [restart, List.mem_map] at hc
    obtain ⟨c0, h0, rfl⟩ := hc
    have := restart_closed (s := s) (conns := conns) h0
    exact this
  have key : Amqp.Inv dec prefetch s'.base ∧ (∀ k, k < s.base.consumers.length → ∃ c, s'.base.consumers[k]? = some c ∧ c.conn ∈ s'.base.closed ∧ ∀ m, (m, k) ∈ s'.base.dlv → (m, k) ∈ s.base.dlv) ∧
      ∀ (j : Nat) (r : Running N B), s.base.calls[j]? = some r → r.result = none → ∃ r' : Running N B, s'.base.calls[j]? = some r' ∧ r'.conn ∈ s'.base.closed ∧ (r'.result = none ∨ r'.result = some none) := by
    refine Lts.run_inv (P := fun s' : St N B => Amqp.Inv dec prefetch s'.base ∧
      (∀ k, k < s.base.consumers.length → ∃ c, s'.base.consumers[k]? = some c ∧ c.conn ∈ s'.base.closed ∧ ∀ m, (m, k) ∈ s'.base.dlv → (m, k) ∈ s.base.dlv) ∧
      ∀ (j : Nat) (r : Running N B), s.base.calls[j]? = some r → r.result = none → ∃ r' : Running N B, s'.base.calls[j]? = some r' ∧ r'.conn ∈ s'.base.closed ∧ (r'.result = none ∨ r'.result = some none)) ?_ ?_ h'
    · refine ⟨inv_restart (good_run h).inv conns, fun k hk => ?_, fun j r hr hn => ⟨r, hr, ?_, .inl hn⟩⟩
      · have hk' : k < (restart s conns).base.consumers.length := by simpa [restart] using hk
        exact ⟨_, List.getElem?_eq_getElem hk', base _ (List.getElem_mem hk'), fun m hm => hm⟩
      · simp only [restart, List.mem_append, List.mem_map]
        exact .inl (.inl (.inr ⟨r, List.mem_of_getElem? hr, rfl⟩))
    · rintro s1 l s2 ⟨hi, ih1, ih2⟩ hs
      have hcl := closed_step hs
      cases l with
      | restart conns' =>
        simp only [step, Option.some.injEq] at hs
        subst hs
        refine ⟨inv_restart hi conns', fun k hk => ?_, fun j r hr hn => ?_⟩
        · obtain ⟨c, h1, h2, h3⟩ := ih1 k hk
          exact ⟨{ c with unacked := [] }, by simp [restart, h1], hcl _ h2, h3⟩
        · obtain ⟨r', h1, h2, h3⟩ := ih2 j r hr hn
          exact ⟨r', h1, hcl _ h2, h3⟩
      | base l =>
        simp only [step, Option.map_eq_some_iff] at hs
        obtain ⟨b, hb, rfl⟩ := hs
        refine ⟨inv_step hi hb, fun k hk => ?_, fun j r hr hn => ?_⟩
        · obtain ⟨c, h1, h2, h3⟩ := ih1 k hk
          obtain ⟨c', h4, -, h5⟩ := (grows_step hi.names hb).consumers k c h1
          exact ⟨c', h4, h5 ▸ hcl _ h2, fun m hm => h3 m (dlv_closed hi hb h1 h2 m hm)⟩
        · obtain ⟨r', h1, h2, h3⟩ := ih2 j r hr hn
          obtain ⟨r'', h4, h5, h6⟩ := call_closed hb h1 h2 h3
          exact ⟨r'', h4, h5 ▸ hcl _ h2, h6⟩
  exact ⟨fun k hk => (key.2.1 k hk).choose_spec.2.2, fun j r hr hn => by
    obtain ⟨r', h1, -, h2⟩ := key.2.2 j r hr hn
    exact ⟨r', h1, h2⟩⟩

/-! ## Concrete cases -/

/-- A durable queue with persistent messages. -/
def lasting : QueueOptions := ⟨.exactlyOnce, .persistent, .durable⟩

/-- Two messages are published to the durable queue 7, the second one ephemeral, and one to a channel, 8; the first one is delivered to a consumer of process 1, which does not settle it. -/
def exBefore : List (RLabel Nat Nat) :=
  [.base (.begin 0 (.declareQueue 7 lasting)), .base (.exec 0), .base (.begin 0 (.declareQueue 8 ChannelType.exactlyOnce.options)), .base (.exec 1),
   .base (.begin 0 (.publish 7 lasting 40)), .base (.exec 2), .base (.begin 0 (.publish 7 { lasting with delivery := .ephemeral } 41)), .base (.exec 3),
   .base (.begin 0 (.publish 8 ChannelType.exactlyOnce.options 42)), .base (.exec 4), .base (.begin 1 (.declareConsumer 7)), .base (.exec 5), .base (.deliver 0), .base (.poll 0)]

/-- Hypotheses and conclusions of `C89_restart`: message 0 survives, 1 (ephemeral) and 2 (of a channel) do not. Process 2 consumes from the queue and is given message 0, for the second time. -/
example : ∃ s s' : St Nat Nat, run (V := Nat) some 1 init exBefore = some s ∧ s.base.yielded = [(0, 0)] ∧ s.modes = [some 2, none, some 2] ∧ unsettled s.base 0 0 ∧ unsettled s.base 1 0 ∧ unsettled s.base 2 1 ∧
    run (V := Nat) some 1 s [.restart []] = some s' ∧ (s'.base.queues.map fun q => (q.name, q.present, q.ready)) = [(7, true, [0]), (8, false, [])] ∧ s'.base.lost = [1, 2] ∧
    (run (V := Nat) some 1 s' [.base (.begin 2 (.declareConsumer 7)), .base (.exec 6), .base (.deliver 1), .base (.poll 1), .base (.ack 1 0)]).map (fun s => (s.base.yielded, s.base.acked)) = some ([(0, 0), (0, 1)], [0]) :=
  ⟨_, _, rfl, rfl, rfl, .inr ⟨_, List.mem_singleton.2 rfl, rfl, by decide⟩, .inl ⟨_, rfl, by decide⟩, .inl ⟨_, rfl, by decide⟩, rfl, by decide +kernel, by decide +kernel, by decide +kernel⟩

/-- Hypotheses of `C89_durable` and `C89_routes`: a durable broadcast queue, a restart before and one after the message is published. -/
def exRoutes : List (RLabel Nat Nat) :=
  [.base (.begin 0 (.declareQueue 7 { lasting with mode := .broadcast })), .base (.exec 0), .base (.exec 0), .base (.exec 0), .restart [],
   .base (.begin 1 (.publish 7 { lasting with mode := .broadcast } 40)), .base (.exec 1), .restart []]

example : ∃ s : St Nat Nat, run (V := Nat) some 1 init exRoutes = some s ∧ DeclaredAs exRoutes 7 .durable ∧ PublishedAs exRoutes 7 .persistent ∧ NotDeleted exRoutes 7 ∧
    routes s.base .broadcast 7 0 ∧ (s.base.queues.map (·.ready)) = [[0]] :=
  ⟨_, rfl, by intro conn o h; simp [exRoutes] at h; rw [h.2]; rfl, by intro conn o b h; simp [exRoutes] at h; rw [h.2.1]; rfl, by intro conn h; simp [exRoutes] at h, by unfold routes; decide +kernel, by decide +kernel⟩

/-- Hypotheses of `C89_channels`: a task of a bus, delivered to a worker and not settled, and a broadcast. After the restart both are lost and neither the worker's consumer nor its call is served. -/
def exChannels : List (RLabel Nat Nat) :=
  [.base (.begin 0 (.declareQueue 8 ChannelType.exactlyOnce.options)), .base (.exec 0), .base (.begin 1 (.declareConsumer 8)), .base (.exec 1), .base (.begin 0 (.publish 8 ChannelType.exactlyOnce.options 42)), .base (.exec 2),
   .base (.deliver 0), .base (.begin 0 (.declareQueue 9 ChannelType.broadcast.options)), .base (.exec 3), .base (.exec 3), .base (.exec 3), .base (.begin 0 (.publish 9 ChannelType.broadcast.options 43)), .base (.exec 4),
   .base (.begin 1 (.publish 9 ChannelType.broadcast.options 44))]

example : (∀ conn name o, (.base (.begin conn (.declareQueue name o)) : RLabel Nat Nat) ∈ exChannels → ∃ t : ChannelType, o = t.options) ∧
    ∃ s s' : St Nat Nat, run (V := Nat) some 1 init exChannels = some s ∧ s.base.lost = [] ∧ run (V := Nat) some 1 s [.restart [], .base (.exec 5)] = some s' ∧ s'.base.lost = [0, 1] ∧
      (s'.base.calls[5]?.map (·.result)) = some (some none) ∧ step (V := Nat) some 1 s' (.base (.deliver 0)) = none := by
  refine ⟨?_, _, _, rfl, rfl, rfl, by decide +kernel, by decide +kernel, by decide +kernel⟩
  intro conn name o h
  simp [exChannels] at h
  rcases h with ⟨-, -, rfl⟩ | ⟨-, -, rfl⟩
  · exact ⟨_, rfl⟩
  · exact ⟨_, rfl⟩

end Restart
end Paladin
