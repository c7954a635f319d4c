import Verif.Model.Amqp
import Verif.Proofs.Lts
import Verif.Proofs.BroadcastInv
import Verif.Proofs.PubAll
/-! # Invariants of the AMQP model -/
namespace Paladin
namespace Amqp

variable {N B V : Type} [DecidableEq N] {dec : B → Option V} {prefetch : Nat} {s s' : St N B} {l : Label N B} {ls : List (Label N B)}

theorem find_some {name : N} {i : Nat} (h : s.find name = some i) : ∃ q, s.queues[i]? = some q ∧ q.present = true ∧ q.name = name := by
  unfold St.find at h
  rw [List.findIdx?_eq_some_iff_getElem] at h
  obtain ⟨hi, h1, -⟩ := h
  simp only [Bool.and_eq_true, decide_eq_true_eq] at h1
  exact ⟨_, List.getElem?_eq_getElem hi, h1.1, h1.2⟩

theorem find_none {name : N} (h : s.find name = none) : ∀ (i : Nat) (q : Queue N), s.queues[i]? = some q → q.present = true → q.name ≠ name := by
  unfold St.find at h
  rw [List.findIdx?_eq_none_iff] at h
  intro i q hq hp hn
  have := h q (List.mem_of_getElem? hq)
  simp [hp, hn] at this

/-- The broker's data: names are unique among the queues that exist, bindings lead to the queue of the same name. -/
structure Names (s : St N B) : Prop where
  uniq : ∀ (i j : Nat) (p q : Queue N), s.queues[i]? = some p → s.queues[j]? = some q → p.present = true → q.present = true → p.name = q.name → i = j
  bind : ∀ x i, (x, i) ∈ s.bindings → ∃ q, s.queues[i]? = some q ∧ q.present = true ∧ q.name = x
  cons : ∀ c ∈ s.consumers, c.inst < s.queues.length
  rest : ∀ r ∈ s.calls, ∀ q x, Method.queueBind q x ∈ r.rest → q = x

/-- What one step does to the broker's and the consumers' data. -/
inductive Eff (dec : B → Option V) (prefetch : Nat) (s : St N B) (cs : List (Running N B)) (cl : List Nat) : St N B → Prop where
  | other (es bs) (hb : ∀ b ∈ bs, b ∈ s.bindings) : Eff dec prefetch s cs cl { s with exchanges := es, bindings := bs, calls := cs, closed := cl }
  | newQueue (n a) (h : s.find n = none) : Eff dec prefetch s cs cl { s with queues := s.queues ++ [⟨n, a, true, []⟩], calls := cs, closed := cl }
  | bind (i q bs) (h : s.queues[i]? = some q) (hp : q.present = true) (hb : ∀ b ∈ bs, b ∈ s.bindings ∨ b = (q.name, i)) :
      Eff dec prefetch s cs cl { s with bindings := bs, calls := cs, closed := cl }
  | remove (i q) (h : s.queues[i]? = some q) : Eff dec prefetch s cs cl { remove s i q with calls := cs, closed := cl }
  | pub (i q b) (h : s.queues[i]? = some q) (hp : q.present = true) :
      Eff dec prefetch s cs cl
        { s with msgs := s.msgs ++ [⟨q.name, b⟩], queues := s.queues.set i { q with ready := q.ready ++ [s.msgs.length] }, calls := cs, closed := cl }
  | unr (n b) : Eff dec prefetch s cs cl { s with msgs := s.msgs ++ [⟨n, b⟩], unroutable := s.unroutable ++ [s.msgs.length], calls := cs, closed := cl }
  | consume (conn i q) (h : s.queues[i]? = some q) (hp : q.present = true) :
      Eff dec prefetch s cs cl { s with consumers := s.consumers ++ [⟨conn, i, false, [], [], [], [], false, false⟩], calls := cs, closed := cl }
  | deliver (k c q m rest) (hc : s.consumers[k]? = some c) (hq : s.queues[c.inst]? = some q) (hr : q.ready = m :: rest) (hcan : s.canDeliver c = true)
      (hpf : prefetch = 0 ∨ c.unacked.length < prefetch) :
      Eff dec prefetch s cs cl { s with
              queues := s.queues.set c.inst { q with ready := rest },
              consumers := s.consumers.set k { c with unacked := c.unacked ++ [m], buffer := c.buffer ++ [m], woken := c.woken || c.parked },
              dlv := s.dlv ++ [(m, k)], calls := cs, closed := cl }
  | touch (k c ca pa wo) (hc : s.consumers[k]? = some c) :
      Eff dec prefetch s cs cl { s with consumers := s.consumers.set k { c with cancelled := ca, parked := pa, woken := wo }, calls := cs, closed := cl }
  | yield (k c m rest pa wo) (hc : s.consumers[k]? = some c) (hb : c.buffer = m :: rest) (hd : ∃ g v, s.msgs[m]? = some g ∧ dec g.bytes = some v) :
      Eff dec prefetch s cs cl { s with
            consumers := s.consumers.set k { c with buffer := rest, held := c.held ++ [m], parked := pa, woken := wo }, yielded := s.yielded ++ [(m, k)], calls := cs, closed := cl }
  | skip (k c m rest pa wo) (hc : s.consumers[k]? = some c) (hb : c.buffer = m :: rest) (hd : ∀ g, s.msgs[m]? = some g → dec g.bytes = none) :
      Eff dec prefetch s cs cl { s with consumers := s.consumers.set k { c with buffer := rest, stuck := c.stuck ++ [m], parked := pa, woken := wo }, calls := cs, closed := cl }
  | ack (k c m) (hc : s.consumers[k]? = some c) (hm : m ∈ c.held) (hcl : c.conn ∉ s.closed) :
      Eff dec prefetch s cs cl { s with
        consumers := s.consumers.set k { c with held := c.held.erase m, unacked := c.unacked.erase m }, acked := s.acked ++ [m], calls := cs, closed := cl }
  | nack (k c m) (hc : s.consumers[k]? = some c) (hm : m ∈ c.held) (hcl : c.conn ∉ s.closed) :
      Eff dec prefetch s cs cl { s with
        consumers := s.consumers.set k { c with held := c.held.erase m, unacked := c.unacked.erase m }, nacked := s.nacked ++ [m], calls := cs, closed := cl }
  | requeue (k c m q rest) (hc : s.consumers[k]? = some c) (hm : c.unacked = rest ++ [m]) (hcl : c.conn ∈ s.closed) (hq : s.queues[c.inst]? = some q) (hp : q.present = true) :
      Eff dec prefetch s cs cl { s with
        consumers := s.consumers.set k { c with unacked := rest }, queues := s.queues.set c.inst { q with ready := m :: q.ready }, requeued := s.requeued ++ [m],
        calls := cs, closed := cl }
  | drop (k c m rest) (hc : s.consumers[k]? = some c) (hm : c.unacked = rest ++ [m]) (hcl : c.conn ∈ s.closed) :
      Eff dec prefetch s cs cl { s with consumers := s.consumers.set k { c with unacked := rest }, lost := s.lost ++ [m], calls := cs, closed := cl }

theorem mapIdx_eq_set {τ : Type} {qs : List τ} {i : Nat} {q : τ} {f : τ → τ} {P : Nat → Prop} [DecidablePred P] (hq : qs[i]? = some q) (hP : ∀ j, j < qs.length → (P j ↔ j = i)) :
    qs.mapIdx (fun j q => if P j then f q else q) = qs.set i (f q) := by
  apply List.ext_getElem?
  intro j
  simp only [List.getElem?_mapIdx, List.getElem?_set]
  have hi : i < qs.length := by rw [List.getElem?_eq_some_iff] at hq; exact hq.1
  by_cases hj : j < qs.length
  · by_cases hij : i = j
    · subst hij
      have : qs[i] = q := by rw [List.getElem?_eq_getElem hi] at hq; simpa using hq
      simp [hi, (hP i hi).2 rfl, this]
    · have : ¬ P j := fun h => hij ((hP j hj).1 h).symm
      simp [hij, this]
  · simp [List.getElem?_eq_none (Nat.le_of_not_lt hj)]
    intro h; omega

theorem modify_eq_set {τ : Type} {qs : List τ} {i : Nat} {q : τ} {f : τ → τ} (hq : qs[i]? = some q) : qs.modify i f = qs.set i (f q) := by
  apply List.ext_getElem?
  intro j
  simp only [List.getElem?_modify, List.getElem?_set]
  have hi : i < qs.length := by rw [List.getElem?_eq_some_iff] at hq; exact hq.1
  by_cases hij : i = j
  · subst hij
    have : qs[i] = q := by rw [List.getElem?_eq_getElem hi] at hq; simpa using hq
    simp [hi, this]
  · simp [hij]

theorem method_eff (hn : Names s) (cs : List (Running N B)) (cl : List Nat) (conn : Nat) (m : Method N B) (hm : ∀ q x, m = .queueBind q x → q = x) :
    Eff dec prefetch s cs cl { (method s conn m).1 with calls := cs, closed := cl } := by
  have same : Eff dec prefetch s cs cl { s with calls := cs, closed := cl } := Eff.other s.exchanges s.bindings (fun _ h => h)
  cases m with
  | exchangeDeclare x a =>
    simp only [method]
    split
    · exact same
    · exact Eff.other _ s.bindings (fun _ h => h)
  | queueDeclare q a =>
    simp only [method]
    split
    · exact same
    · exact Eff.newQueue q a (by assumption)
  | queueBind q x =>
    have hx := hm q x rfl
    subst hx
    simp only [method]
    split
    · rename_i i h1 hf
      obtain ⟨p, hp1, hp2, hp3⟩ := find_some hf
      subst hp3
      refine Eff.bind i p _ hp1 hp2 ?_
      intro b hb
      split at hb
      · exact .inl hb
      · simpa using hb
    · exact same
  | queueDelete q =>
    simp only [method]
    split
    · split
      · exact Eff.remove _ _ (by assumption)
      · exact same
    · exact same
  | exchangeDelete x => exact Eff.other _ _ (fun b h => (List.mem_filter.1 h).1)
  | publish d b mode =>
    cases d with
    | queue name =>
      simp only [method]
      split
      · rename_i i hf
        obtain ⟨p, hp1, hp2, hp3⟩ := find_some hf
        subst hp3
        dsimp only
        rw [modify_eq_set hp1]
        exact Eff.pub i p b hp1 hp2
      · exact Eff.unr name b
    | fanout x =>
      simp only [method]
      split
      · split
        · rename_i h
          rw [List.any_eq_true] at h
          obtain ⟨i, hi, hb⟩ := h
          simp only [decide_eq_true_eq] at hb
          obtain ⟨p, hp1, hp2, hp3⟩ := hn.bind x i hb
          subst hp3
          dsimp only
          rw [mapIdx_eq_set (i := i) (q := p) (P := fun j => (p.name, j) ∈ s.bindings) (f := fun q => { q with ready := q.ready ++ [s.msgs.length] }) hp1]
          · exact Eff.pub i p b hp1 hp2
          · intro j hj
            constructor
            · intro h
              obtain ⟨p', h1, h2, h3⟩ := hn.bind _ j h
              exact hn.uniq _ _ _ _ h1 hp1 h2 hp2 h3
            · rintro rfl; exact hb
        · exact Eff.unr x b
      · exact Eff.unr x b
  | consume q =>
    simp only [method]
    split
    · rename_i i hf
      obtain ⟨p, hp1, hp2, hp3⟩ := find_some hf
      exact Eff.consume conn i p hp1 hp2
    · exact same

theorem eff_of_step (hn : Names s) (h : step dec prefetch s l = some s') : Eff dec prefetch s s'.calls s'.closed s' := by
  have same : ∀ cs cl, Eff dec prefetch s cs cl { s with calls := cs, closed := cl } := fun cs cl => Eff.other s.exchanges s.bindings (fun _ h => h)
  cases l with
  | «begin» conn c => simp only [step, Option.some.injEq] at h; subst h; exact same _ _
  | exec k =>
    simp only [step] at h
    split at h
    · cases h
    · rename_i r hr
      split at h
      · cases h
      · split at h
        · simp only [Option.some.injEq] at h; subst h; exact same _ _
        · split at h
          · simp only [Option.some.injEq] at h; subst h; exact same _ _
          · rename_i m rest hrest
            have hm : ∀ q x, m = .queueBind q x → q = x := by
              rintro q x rfl
              exact hn.rest r (List.mem_of_getElem? hr) q x (by simp [hrest])
            split at h
            · simp only [Option.some.injEq] at h; subst h
              exact method_eff hn _ _ r.conn m hm
            · simp only [Option.some.injEq] at h; subst h
              exact method_eff hn _ _ r.conn m hm
  | deliver k =>
    simp only [step] at h
    (repeat' split at h) <;> simp only [Option.some.injEq, reduceCtorEq] at h <;> try subst h
    rename_i c hc hg _ q hq _ m rest hr
    simp only [Bool.and_eq_true, Bool.or_eq_true, decide_eq_true_eq] at hg
    exact Eff.deliver k c q m rest hc hq hr hg.1 hg.2
  | poll k =>
    simp only [step] at h
    (repeat' split at h) <;> simp only [Option.some.injEq, reduceCtorEq] at h <;> try subst h
    · rename_i c hc _ hb; exact Eff.touch k c c.cancelled true false hc
    · rename_i c hc _ m rest hb _ v hv
      rw [Option.bind_eq_some_iff] at hv
      obtain ⟨g, h1, h2⟩ := hv
      exact Eff.yield k c m rest _ _ hc hb ⟨g, v, h1, h2⟩
    · rename_i c hc _ m rest hb _ hv
      refine Eff.skip k c m rest _ _ hc hb ?_
      intro g hg
      simpa [hg] using hv
  | ack k m =>
    simp only [step] at h
    (repeat' split at h) <;> simp only [Option.some.injEq, reduceCtorEq] at h <;> try subst h
    rename_i c hc hg
    simp at hg
    exact Eff.ack k c m hc hg.1 hg.2
  | nack k m =>
    simp only [step] at h
    (repeat' split at h) <;> simp only [Option.some.injEq, reduceCtorEq] at h <;> try subst h
    rename_i c hc hg
    simp at hg
    exact Eff.nack k c m hc hg.1 hg.2
  | cancel k =>
    simp only [step] at h
    (repeat' split at h) <;> simp only [Option.some.injEq, reduceCtorEq] at h <;> try subst h
    rename_i c hc
    exact Eff.touch k c true c.parked c.woken hc
  | lose conn => simp only [step, Option.some.injEq] at h; subst h; exact same _ _
  | requeue k =>
    simp only [step] at h
    (repeat' split at h) <;> simp only [Option.some.injEq, reduceCtorEq] at h <;> try subst h
    · rename_i c hc _ m hm hg _ q hq hp
      refine Eff.requeue k c m q c.unacked.dropLast hc ?_ (by simpa using hg) hq hp
      have hne : c.unacked ≠ [] := by rintro h0; simp [h0] at hm
      rw [List.getLast?_eq_some_getLast hne, Option.some.injEq] at hm
      rw [← hm, List.dropLast_concat_getLast]
    · rename_i c hc _ m hm hg _ q hq hp
      refine Eff.drop k c m c.unacked.dropLast hc ?_ (by simpa using hg)
      have hne : c.unacked ≠ [] := by rintro h0; simp [h0] at hm
      rw [List.getLast?_eq_some_getLast hne, Option.some.injEq] at hm
      rw [← hm, List.dropLast_concat_getLast]
  | expire i =>
    simp only [step] at h
    (repeat' split at h) <;> simp only [Option.some.injEq, reduceCtorEq] at h <;> try subst h
    exact Eff.remove i _ (by assumption)

theorem method_calls (conn : Nat) (m : Method N B) : (method s conn m).1.calls = s.calls ∧ (method s conn m).1.closed = s.closed := by
  cases m <;> simp only [method] <;> (repeat' split) <;> simp [remove]

/-- Closed connections stay closed. -/
theorem closed_mono (h : step dec prefetch s l = some s') : ∀ x ∈ s.closed, x ∈ s'.closed := by
  intro x hx
  cases l with
  | exec k =>
    simp only [step] at h
    (repeat' split at h) <;> simp only [Option.some.injEq, reduceCtorEq] at h <;> subst h <;> simp [hx, method_calls]
  | _ =>
    simp only [step, remove] at h
    (repeat' split at h) <;> simp only [Option.some.injEq, reduceCtorEq] at h <;> subst h <;> simp [hx]

theorem rest_bind (c : Call N B) : ∀ q x, Method.queueBind q x ∈ c.methods → q = x := by
  intro q x h
  cases c with
  | declareQueue n o =>
    simp only [Call.methods, declareQueue] at h
    split at h <;> simp [declareSingle, declareBroadcast] at h
    obtain ⟨rfl, rfl⟩ := h; rfl
  | deleteQueue n => simp [Call.methods, deleteQueue, deleteBroadcast] at h
  | publish n o b =>
    simp only [Call.methods, publish] at h
    split at h <;> simp at h
  | declareConsumer n => simp [Call.methods] at h

/-- The calls of a state after a step: one new call, or one call that has lost methods. -/
theorem calls_step (h : step dec prefetch s l = some s') :
    ∀ r ∈ s'.calls, (∃ c : Call N B, ∃ conn, r = ⟨conn, c, c.methods, none⟩ ∧ l = .begin conn c) ∨ ∃ r0 ∈ s.calls, r.call = r0.call ∧ r.conn = r0.conn ∧ ∀ m ∈ r.rest, m ∈ r0.rest := by
  intro r hr
  have keep : r ∈ s.calls → (∃ c : Call N B, ∃ conn, r = ⟨conn, c, c.methods, none⟩ ∧ l = .begin conn c) ∨ ∃ r0 ∈ s.calls, r.call = r0.call ∧ r.conn = r0.conn ∧ ∀ m ∈ r.rest, m ∈ r0.rest :=
    fun h => .inr ⟨r, h, rfl, rfl, fun _ h => h⟩
  cases l with
  | «begin» conn c =>
    simp only [step, Option.some.injEq] at h; subst h
    simp only [List.mem_append, List.mem_singleton] at hr
    rcases hr with hr | rfl
    · exact keep hr
    · exact .inl ⟨c, conn, rfl, rfl⟩
  | exec k =>
    simp only [step] at h
    split at h
    · cases h
    · rename_i r0 hr0
      have hmem := List.mem_of_getElem? hr0
      have hset : ∀ r1 : Running N B, r1.call = r0.call → r1.conn = r0.conn → (∀ m ∈ r1.rest, m ∈ r0.rest) → r ∈ s.calls.set k r1 →
          ∃ r0 ∈ s.calls, r.call = r0.call ∧ r.conn = r0.conn ∧ ∀ m ∈ r.rest, m ∈ r0.rest := by
        intro r1 h1 h2 h3 hr
        rcases PubAll.mem_set_cases hr with rfl | hr
        · exact ⟨r0, hmem, h1, h2, h3⟩
        · exact ⟨r, hr, rfl, rfl, fun _ h => h⟩
      right
      split at h
      · cases h
      · split at h
        · simp only [Option.some.injEq] at h; subst h; refine hset _ ?_ ?_ ?_ hr <;> simp
        · split at h
          · simp only [Option.some.injEq] at h; subst h; refine hset _ ?_ ?_ ?_ hr <;> simp
          · rename_i m rest hrest
            split at h
            · simp only [Option.some.injEq] at h; subst h
              refine hset _ ?_ ?_ ?_ hr <;> simp [hrest] <;> exact fun _ h => .inr h
            · simp only [Option.some.injEq] at h; subst h
              refine hset _ ?_ ?_ ?_ hr <;> simp
  | _ =>
    simp only [step, remove] at h
    (repeat' split at h) <;> simp only [Option.some.injEq, reduceCtorEq] at h <;> subst h <;> exact keep hr

theorem getElem?_set' {τ : Type} {qs : List τ} {i j : Nat} {x y : τ} (h : (qs.set i x)[j]? = some y) : (i = j ∧ y = x) ∨ (i ≠ j ∧ qs[j]? = some y) := by
  rw [List.getElem?_set] at h
  split at h
  · split at h
    · simp at h; exact .inl ⟨by assumption, h.symm⟩
    · cases h
  · exact .inr ⟨by assumption, h⟩

theorem getElem?_snoc {τ : Type} {qs : List τ} {j : Nat} {x y : τ} (h : (qs ++ [x])[j]? = some y) : qs[j]? = some y ∨ (j = qs.length ∧ y = x) := by
  rw [List.getElem?_append] at h
  split at h
  · exact .inl h
  · rename_i hj
    rw [List.getElem?_eq_some_iff] at h
    obtain ⟨h1, h2⟩ := h
    simp at h1 h2
    exact .inr ⟨by omega, h2.symm⟩

theorem names_init : Names (init : St N B) := by constructor <;> simp [init]

theorem names_step (hi : Names s) (h : step dec prefetch s l = some s') : Names s' := by
  have hrest : ∀ r ∈ s'.calls, ∀ q x, Method.queueBind q x ∈ r.rest → q = x := by
    intro r hr q x hq
    rcases calls_step h r hr with ⟨c, conn, rfl, -⟩ | ⟨r0, h0, -, -, h1⟩
    · exact rest_bind c q x hq
    · exact hi.rest r0 h0 q x (h1 _ hq)
  suffices hs : (∀ (i j : Nat) (p q : Queue N), s'.queues[i]? = some p → s'.queues[j]? = some q → p.present = true → q.present = true → p.name = q.name → i = j) ∧
      (∀ x i, (x, i) ∈ s'.bindings → ∃ q, s'.queues[i]? = some q ∧ q.present = true ∧ q.name = x) ∧ ∀ c ∈ s'.consumers, c.inst < s'.queues.length from
    ⟨hs.1, hs.2.1, hs.2.2, hrest⟩
  have he := eff_of_step hi h
  generalize s'.calls = cs at he
  generalize s'.closed = cl at he
  clear h hrest
  -- an update of a queue that keeps its name and does not revive it
  have upd : ∀ (k : Nat) (p p' : Queue N), s.queues[k]? = some p → p'.name = p.name → (p'.present = true → p.present = true) →
      (∀ (i j : Nat) (p q : Queue N), (s.queues.set k p')[i]? = some p → (s.queues.set k p')[j]? = some q → p.present = true → q.present = true → p.name = q.name → i = j) := by
    intro k p p' hk hn hp i j a b ha hb pa pb hab
    have conv : ∀ (i : Nat) (a : Queue N), (s.queues.set k p')[i]? = some a → a.present = true → ∃ a0, s.queues[i]? = some a0 ∧ a0.present = true ∧ a0.name = a.name := by
      intro i a ha pa
      rcases getElem?_set' ha with ⟨rfl, rfl⟩ | ⟨_, ha⟩
      · exact ⟨p, hk, hp pa, hn.symm⟩
      · exact ⟨a, ha, pa, rfl⟩
    obtain ⟨a0, ha1, ha2, ha3⟩ := conv i a ha pa
    obtain ⟨b0, hb1, hb2, hb3⟩ := conv j b hb pb
    exact hi.uniq i j a0 b0 ha1 hb1 ha2 hb2 (by rw [ha3, hb3, hab])
  have bnd : ∀ (k : Nat) (p p' : Queue N), s.queues[k]? = some p → p'.name = p.name → (p.present = true → p'.present = true) →
      ∀ x i, (x, i) ∈ s.bindings → ∃ q, (s.queues.set k p')[i]? = some q ∧ q.present = true ∧ q.name = x := by
    intro k p p' hk hn hp x i hx
    obtain ⟨q, h1, h2, h3⟩ := hi.bind x i hx
    by_cases hki : k = i
    · subst hki
      rw [hk] at h1; cases h1
      exact ⟨p', by rw [List.getElem?_set_self (by rw [List.getElem?_eq_some_iff] at hk; exact hk.1)], hp h2, by rw [hn, h3]⟩
    · exact ⟨q, by rw [List.getElem?_set_ne hki]; exact h1, h2, h3⟩
  have csm : ∀ (k : Nat) (c c' : Consumer), s.consumers[k]? = some c → c'.inst = c.inst → ∀ d ∈ s.consumers.set k c', d.inst < s.queues.length := by
    intro k c c' hc he d hd
    rcases PubAll.mem_set_cases hd with rfl | hd
    · rw [he]; exact hi.cons c (List.mem_of_getElem? hc)
    · exact hi.cons d hd
  cases he with
  | other es bs hb => exact ⟨hi.uniq, fun x i h => hi.bind x i (hb _ h), hi.cons⟩
  | newQueue n a h =>
    have hnone := find_none h
    refine ⟨?_, ?_, ?_⟩
    · intro i j p q hp hq pp pq hpq
      rcases getElem?_snoc hp with hp | ⟨rfl, rfl⟩ <;> rcases getElem?_snoc hq with hq | ⟨rfl, rfl⟩
      · exact hi.uniq i j p q hp hq pp pq hpq
      · exact absurd hpq (hnone i p hp pp)
      · exact absurd hpq.symm (hnone j q hq pq)
      · rfl
    · intro x i hx
      obtain ⟨q, h1, h2, h3⟩ := hi.bind x i hx
      exact ⟨q, by rw [List.getElem?_append_left (by rw [List.getElem?_eq_some_iff] at h1; exact h1.1)]; exact h1, h2, h3⟩
    · intro c hc
      have := hi.cons c hc
      simp; omega
  | bind i q bs h hp hb =>
    refine ⟨hi.uniq, ?_, hi.cons⟩
    intro x j hx
    rcases hb _ hx with hx | hx
    · exact hi.bind x j hx
    · simp at hx; obtain ⟨rfl, rfl⟩ := hx; exact ⟨q, h, hp, rfl⟩
  | remove i q h =>
    simp only [remove]
    refine ⟨upd i q _ h rfl (by simp), ?_, by simpa using hi.cons⟩
    intro x j hx
    simp only [List.mem_filter, decide_eq_true_eq] at hx
    obtain ⟨p, h1, h2, h3⟩ := hi.bind x j hx.1
    exact ⟨p, by rw [List.getElem?_set_ne (Ne.symm hx.2)]; exact h1, h2, h3⟩
  | pub i q b h hp => exact ⟨upd i q _ h rfl (fun h => h), bnd i q _ h rfl (fun h => h), by simpa using hi.cons⟩
  | unr n b => exact ⟨hi.uniq, hi.bind, hi.cons⟩
  | consume conn i q h hp =>
    refine ⟨hi.uniq, hi.bind, ?_⟩
    intro c hc
    simp only [List.mem_append, List.mem_singleton] at hc
    rcases hc with hc | rfl
    · exact hi.cons c hc
    · rw [List.getElem?_eq_some_iff] at h; exact h.1
  | deliver k c q m rest hc hq hr hcan hpf =>
    refine ⟨upd _ q _ hq rfl (fun h => h), bnd _ q _ hq rfl (fun h => h), ?_⟩
    simp only [List.length_set]
    exact csm k c _ hc rfl
  | touch k c ca pa wo hc => exact ⟨hi.uniq, hi.bind, csm k c _ hc rfl⟩
  | yield k c m rest pa wo hc hb hd => exact ⟨hi.uniq, hi.bind, csm k c _ hc rfl⟩
  | skip k c m rest pa wo hc hb hd => exact ⟨hi.uniq, hi.bind, csm k c _ hc rfl⟩
  | ack k c m hc hm hcl => exact ⟨hi.uniq, hi.bind, csm k c _ hc rfl⟩
  | nack k c m hc hm hcl => exact ⟨hi.uniq, hi.bind, csm k c _ hc rfl⟩
  | requeue k c m q rest hc hm hcl hq hp =>
    refine ⟨upd _ q _ hq rfl (fun h => h), bnd _ q _ hq rfl (fun h => h), ?_⟩
    simp only [List.length_set]
    exact csm k c _ hc rfl
  | drop k c m rest hc hm hcl => exact ⟨hi.uniq, hi.bind, csm k c _ hc rfl⟩

theorem names_run (h : run dec prefetch init ls = some s) : Names s := Lts.run_inv names_init (fun _ _ _ hi hs => names_step hi hs) h

end Amqp
end Paladin
