import Verif.Proofs.SystemAmqp
import Verif.Proofs.SystemEnds
/-! # The whole system on an AMQP broker: the number of steps is bounded -/
namespace Paladin
namespace SystemAmqp
open Retry System

section
variable {κ : Type} {σ ℓ : κ → Type} {T O ε χ ω : Type} [DecidableEq κ] {cl : (j : κ) → Client (σ j) (ℓ j) T (Except ε O)} {listens : (j : κ) → σ j → Bool} {nt : Net κ} {cfg : Worker.Cfg κ}
  {exec : ω → T → Except (OpError χ) O} {text : OpError χ → ε}

/-- The messages that wait in a queue or in the buffer of a consumer. -/
def waiting (n : Broker κ T O ε) : List Nat := n.queues.flatMap Amqp.Queue.ready ++ n.consumers.flatMap Amqp.Consumer.buffer

def tasksLeft (n : Broker κ T O ε) : Nat := (waiting n).countP fun m => (taskOf n m).isSome

def resLeft (n : Broker κ T O ε) (j : κ) : Nat := (waiting n).countP fun m => (resOf n j m).isSome

/-- Steps of the broker, and acknowledgements of the leaders, still to come for what is there. -/
def toDo (n : Broker κ T O ε) : Nat := 2 * (n.queues.flatMap Amqp.Queue.ready).length + (n.consumers.flatMap Amqp.Consumer.buffer).length + (n.consumers.flatMap Amqp.Consumer.held).length

def total (W : Finset Nat) (K : Finset κ) (f : (j : κ) → σ j → Nat) (s : St κ σ T O ε χ) : Nat :=
  ∑ j ∈ K, (f j (s.lead j) + 31 * resLeft s.net j) + 58 * tasksLeft s.net + ∑ w ∈ W, rank (s.worker w).pc

theorem waiting_lt {pf : Nat} {n : Broker κ T O ε} (hs : Amqp.Sound (V := Payload κ T O ε) some pf n) {m : Nat} (h : m ∈ waiting n) : m < n.msgs.length := by
  rcases List.mem_append.1 h with h | h
  · obtain ⟨q, h1, h2⟩ := List.mem_flatMap.1 h
    obtain ⟨i, h3⟩ := List.getElem?_of_mem h1
    obtain ⟨g, _, h4, -⟩ := hs.routed.ready i q h3 m h2
    exact (List.getElem?_eq_some_iff.1 h4).1
  · obtain ⟨c, h1, h2⟩ := List.mem_flatMap.1 h
    obtain ⟨k, h3⟩ := List.getElem?_of_mem h1
    exact hs.inv.client.known m k (hs.inv.client.stuck_dlv h3 (.inr h2))

theorem taskOf_append {n n' : Broker κ T O ε} {xs : List (Amqp.Msg (Name κ) (Payload κ T O ε))} (h : n'.msgs = n.msgs ++ xs) {m : Nat} (hm : m < n.msgs.length) : taskOf n' m = taskOf n m := by
  simp only [taskOf, h, List.getElem?_append_left hm]

theorem resOf_append {n n' : Broker κ T O ε} {xs : List (Amqp.Msg (Name κ) (Payload κ T O ε))} (h : n'.msgs = n.msgs ++ xs) (j : κ) {m : Nat} (hm : m < n.msgs.length) : resOf n' j m = resOf n j m := by
  simp only [resOf, h, List.getElem?_append_left hm]

/-- What waits is permuted, and no message is new. -/
theorem left_perm {n n' : Broker κ T O ε} (hp : (waiting n').Perm (waiting n)) (hm : n'.msgs = n.msgs) : tasksLeft n' = tasksLeft n ∧ ∀ j, resLeft n' j = resLeft n j := by
  have h1 : taskOf n' = taskOf n := by funext m; simp only [taskOf, hm]
  have h2 : ∀ j, resOf n' j = resOf n j := by intro j; funext m; simp only [resOf, hm]
  constructor
  · unfold tasksLeft; rw [h1]; exact hp.countP_eq _
  · intro j; unfold resLeft; rw [h2]; exact hp.countP_eq _

/-- A message is published. -/
theorem publish_waiting {pf : Nat} {n n' : Broker κ T O ε} {conn : Nat} {name : Name κ} {b : Payload κ T O ε} (h : publish pf n conn name b = some n') :
    (∃ xs, (xs = [] ∨ xs = [n.msgs.length]) ∧ (waiting n').Perm (waiting n ++ xs)) ∧ n'.msgs = n.msgs ++ [⟨name, b⟩] ∧ toDo n' ≤ toDo n + 2 := by
  obtain ⟨hc, hp⟩ := publish_posts h
  rw [publish_eq hc, Option.some.injEq] at h
  subst h
  refine ⟨?_, by simpa using hp.msgs, ?_⟩
  · cases hn : n.find name with
    | none => exact ⟨[], .inl rfl, by simp [waiting, Amqp.method, hn]⟩
    | some i =>
      obtain ⟨q, hq, -⟩ := Amqp.find_some hn
      refine ⟨[n.msgs.length], .inr rfl, ?_⟩
      have hset : n.queues.modify i (fun q => { q with ready := q.ready ++ [n.msgs.length] }) = n.queues.set i { q with ready := q.ready ++ [n.msgs.length] } := by
        rw [List.modify_eq_set_getElem?, hq]; rfl
      simp only [waiting, Amqp.method, hn, hset]
      rw [List.perm_iff_count]
      intro m
      have := Amqp.count_set (f := Amqp.Queue.ready) { q with ready := q.ready ++ [n.msgs.length] } hq m
      simp only [List.count_append] at this ⊢
      omega
  · cases hn : n.find name with
    | none => simp [toDo, Amqp.method, hn]
    | some i =>
      obtain ⟨q, hq, -⟩ := Amqp.find_some hn
      have hset : n.queues.modify i (fun q => { q with ready := q.ready ++ [n.msgs.length] }) = n.queues.set i { q with ready := q.ready ++ [n.msgs.length] } := by
        rw [List.modify_eq_set_getElem?, hq]; rfl
      have := (InMem.flatMap_set (f := Amqp.Queue.ready) (x := { q with ready := q.ready ++ [n.msgs.length] }) hq).length_eq
      simp only [toDo, Amqp.method, hn, hset]
      simp only [List.length_append, List.length_singleton] at this
      omega

theorem countP_snoc_le {τ : Type} (p : τ → Bool) (xs : List τ) (x : τ) (h : xs = [] ∨ xs = [x]) : xs.countP p ≤ if p x then 1 else 0 := by
  rcases h with rfl | rfl
  · simp
  · rw [List.countP_singleton]

def newTask : Name κ → Payload κ T O ε → Nat
  | .bus, .task _ => 1
  | _, _ => 0

def newRes (j : κ) : Name κ → Payload κ T O ε → Nat
  | .job j', .result _ => if j' = j then 1 else 0
  | _, _ => 0

theorem publish_left {pf : Nat} {n n' : Broker κ T O ε} {conn : Nat} {name : Name κ} {b : Payload κ T O ε} (hs : Amqp.Sound (V := Payload κ T O ε) some pf n) (h : publish pf n conn name b = some n') :
    tasksLeft n' ≤ tasksLeft n + newTask name b ∧
      ∀ j, resLeft n' j ≤ resLeft n j + newRes j name b := by
  obtain ⟨⟨xs, hx, hp⟩, hm, -⟩ := publish_waiting h
  have old1 : (waiting n).countP (fun m => (taskOf n' m).isSome) = tasksLeft n := by
    unfold tasksLeft
    exact List.countP_congr fun m hm' => by rw [taskOf_append hm (waiting_lt hs hm')]
  have old2 : ∀ j, (waiting n).countP (fun m => (resOf n' j m).isSome) = resLeft n j := by
    intro j
    unfold resLeft
    exact List.countP_congr fun m hm' => by rw [resOf_append hm j (waiting_lt hs hm')]
  have k1 : tasksLeft n' = tasksLeft n + xs.countP fun m => (taskOf n' m).isSome := by rw [← old1, ← List.countP_append, ← hp.countP_eq]; rfl
  have k2 : ∀ j, resLeft n' j = resLeft n j + xs.countP fun m => (resOf n' j m).isSome := by intro j; rw [← old2 j, ← List.countP_append, ← hp.countP_eq]; rfl
  constructor
  · have := countP_snoc_le (fun m => (taskOf n' m).isSome) xs n.msgs.length hx
    rw [k1]
    refine Nat.add_le_add_left (Nat.le_trans this ?_) _
    simp only [taskOf, hm, List.getElem?_concat_length]
    clear this
    cases name <;> cases b <;> simp [newTask]
  · intro j
    have := countP_snoc_le (fun m => (resOf n' j m).isSome) xs n.msgs.length hx
    rw [k2]
    refine Nat.add_le_add_left (Nat.le_trans this ?_) _
    simp only [resOf, hm, List.getElem?_concat_length]
    clear this
    cases name <;> cases b <;> simp [newRes]

/-- Tasks are published. -/
theorem publishAll_left {pf : Nat} {conn : Nat} {j : κ} : ∀ {ts : List T} {n n' : Broker κ T O ε}, Amqp.Sound (V := Payload κ T O ε) some pf n →
    publishAll pf conn .bus n (ts.map fun t => Payload.task ⟨j, t⟩) = some n' → tasksLeft n' ≤ tasksLeft n + ts.length ∧ (∀ i, resLeft n' i ≤ resLeft n i) ∧ toDo n' ≤ toDo n + 2 * ts.length
  | [], n, n', hs, h => by simp only [List.map_nil, publishAll, Option.some.injEq] at h; subst h; simp
  | t :: ts, n, n', hs, h => by
    simp only [List.map_cons, publishAll, Option.bind_eq_some_iff] at h
    obtain ⟨n1, h1, h2⟩ := h
    obtain ⟨a1, a2⟩ := publish_left hs h1
    obtain ⟨-, -, a3⟩ := publish_waiting h1
    obtain ⟨b1, b2, b3⟩ := publishAll_left (publish_sound hs h1).1 h2
    refine ⟨?_, ?_, ?_⟩
    · simp only [newTask] at a1; simp only [List.length_cons]; omega
    · intro i; have := a2 i; have := b2 i; simp only [newRes] at *; omega
    · simp only [List.length_cons]; omega

/-- A message is polled. -/
theorem poll_left {n n' : Broker κ T O ε} {k m : Nat} {c c' : Amqp.Consumer} {rest : List Nat} (hc : n.consumers[k]? = some c) (hb : c.buffer = m :: rest) (hb' : c'.buffer = rest) (hh : c'.held = c.held ++ [m])
    (hn : n'.consumers = n.consumers.set k c') (hq : n'.queues = n.queues) (hm : n'.msgs = n.msgs) :
    tasksLeft n' + (if (taskOf n m).isSome then 1 else 0) = tasksLeft n ∧ (∀ j, resLeft n' j + (if (resOf n j m).isSome then 1 else 0) = resLeft n j) ∧ toDo n' = toDo n := by
  have h1 : taskOf n' = taskOf n := by funext m; simp only [taskOf, hm]
  have h2 : ∀ j, resOf n' j = resOf n j := by intro j; funext m; simp only [resOf, hm]
  have hp : (waiting n).Perm (m :: waiting n') := by
    rw [List.perm_iff_count]
    intro x
    have := Amqp.count_set (f := Amqp.Consumer.buffer) c' hc x
    rw [hb, hb'] at this
    simp only [waiting, hn, hq, List.count_append, List.count_cons] at this ⊢
    omega
  refine ⟨?_, ?_, ?_⟩
  · unfold tasksLeft; rw [hp.countP_eq, List.countP_cons, h1]
  · intro j; unfold resLeft; rw [hp.countP_eq, List.countP_cons, h2]
  · have e1 := (InMem.flatMap_set (f := Amqp.Consumer.buffer) (x := c') hc).length_eq
    have e2 := (InMem.flatMap_set (f := Amqp.Consumer.held) (x := c') hc).length_eq
    simp only [hb, hb', hh, List.length_append, List.length_cons, List.length_nil] at e1 e2
    unfold toDo
    rw [hn, hq]
    omega

/-- The broker delivers. -/
theorem deliver_left {pf : Nat} {n n' : Broker κ T O ε} {k : Nat} (h : Amqp.step (V := Payload κ T O ε) some pf n (.deliver k) = some n') :
    tasksLeft n' = tasksLeft n ∧ (∀ j, resLeft n' j = resLeft n j) ∧ toDo n' < toDo n := by
  simp only [Amqp.step] at h
  (repeat' split at h) <;> simp only [Option.some.injEq, reduceCtorEq] at h
  rename_i c hc _ _ q hq _ m rest hr
  subst h
  have hp := left_perm (n := n) (n' := { n with
    queues := n.queues.set c.inst { q with ready := rest },
    consumers := n.consumers.set k { c with unacked := c.unacked ++ [m], buffer := c.buffer ++ [m], woken := c.woken || c.parked },
    dlv := n.dlv ++ [(m, k)] }) ?_ rfl
  · refine ⟨hp.1, hp.2, ?_⟩
    have e1 := (InMem.flatMap_set (f := Amqp.Consumer.buffer) (x := { c with unacked := c.unacked ++ [m], buffer := c.buffer ++ [m], woken := c.woken || c.parked }) hc).length_eq
    have e2 := (InMem.flatMap_set (f := Amqp.Consumer.held) (x := { c with unacked := c.unacked ++ [m], buffer := c.buffer ++ [m], woken := c.woken || c.parked }) hc).length_eq
    have e3 := (InMem.flatMap_set (f := Amqp.Queue.ready) (x := { q with ready := rest }) hq).length_eq
    rw [hr] at e3
    simp only [List.length_append, List.length_cons, List.length_nil] at e1 e2 e3
    simp only [toDo]
    omega
  · rw [List.perm_iff_count]
    intro x
    have e1 := Amqp.count_set (f := Amqp.Consumer.buffer) { c with unacked := c.unacked ++ [m], buffer := c.buffer ++ [m], woken := c.woken || c.parked } hc x
    have e2 := Amqp.count_set (f := Amqp.Queue.ready) { q with ready := rest } hq x
    rw [hr] at e2
    simp only [waiting, List.count_append, List.count_cons, List.count_nil] at e1 e2 ⊢
    omega

/-- A message is settled. -/
theorem settles_left {n n' : Broker κ T O ε} {k m : Nat} (h : Settles k m n n') : tasksLeft n' = tasksLeft n ∧ (∀ j, resLeft n' j = resLeft n j) ∧ toDo n' < toDo n := by
  obtain ⟨c, hc, hm, -, hn⟩ := h.ex
  have hq := h.queues
  have hp := left_perm (n := n) (n' := n') ?_ h.msgs
  · refine ⟨hp.1, hp.2, ?_⟩
    have e1 := (InMem.flatMap_set (f := Amqp.Consumer.buffer) (x := { c with held := c.held.erase m, unacked := c.unacked.erase m }) hc).length_eq
    have e2 := (InMem.flatMap_set (f := Amqp.Consumer.held) (x := { c with held := c.held.erase m, unacked := c.unacked.erase m }) hc).length_eq
    have e3 := List.length_erase_of_mem hm
    have e4 := List.length_pos_of_mem hm
    simp only [List.length_append] at e1 e2
    unfold toDo
    rw [hn, hq]
    omega
  · rw [List.perm_iff_count]
    intro x
    have e1 := Amqp.count_set (f := Amqp.Consumer.buffer) { c with held := c.held.erase m, unacked := c.unacked.erase m } hc x
    simp only [waiting, hn, hq, List.count_append] at e1 ⊢
    omega

theorem sum_le_at {ι : Type} [DecidableEq ι] {S : Finset ι} {f g : ι → Nat} {i : ι} (hi : i ∈ S) (h : ∀ k, k ≠ i → g k ≤ f k) : S.sum g + f i ≤ S.sum f + g i := by
  have e1 : g i + (S.erase i).sum g = S.sum g := Finset.add_sum_erase S g hi
  have e2 : f i + (S.erase i).sum f = S.sum f := Finset.add_sum_erase S f hi
  have e3 : (S.erase i).sum g ≤ (S.erase i).sum f := Finset.sum_le_sum fun k hk => h k (Finset.ne_of_mem_erase hk)
  omega

theorem rank_sum' {W : Finset Nat} {g : Nat → Worker.St κ O χ} {w : Nat} {v : Worker.St κ O χ} (hw : w ∈ W) :
    W.sum (fun w' => rank (Function.update g w v w').pc) + rank (g w).pc = W.sum (fun w' => rank (g w').pc) + rank v.pc := by
  have := sum_update_lt (f := fun w' => rank (g w').pc) (g := fun w' => rank (Function.update g w v w').pc) hw
    (fun k hk => by simp only [Function.update_of_ne hk])
  simpa using this

/-- Every move either uses up work, or brings a message on its way. -/
theorem total_step {W : Finset Nat} {K : Finset κ} {f : (j : κ) → σ j → Nat} {int : (j : κ) → ℓ j → Bool} (hm : ∀ j, Measured (cl j) (int j) (f j))
    (hK : ∀ j l, int j l = true → j ∈ K) {s s' : St κ σ T O ε χ} {l : Label κ ℓ T O ε χ ω} (hwd : Wired nt s) (h : step cl listens nt cfg exec text s l = some s')
    (hl : l.moves (fun w => decide (w ∈ W)) (fun j => decide (j ∈ K)) int = true) :
    (total W K f s' < total W K f s ∧ toDo s'.net ≤ toDo s.net + 2 * total W K f s) ∨ (total W K f s' = total W K f s ∧ toDo s'.net < toDo s.net) := by
  have settled : ∀ {n n' : Broker κ T O ε}, tasksLeft n' = tasksLeft n → (∀ j, resLeft n' j = resLeft n j) → ∀ g : (j : κ) → σ j,
      ∑ j ∈ K, (f j (g j) + 31 * resLeft n' j) + 58 * tasksLeft n' = ∑ j ∈ K, (f j (g j) + 31 * resLeft n j) + 58 * tasksLeft n := by
    intro n n' h1 h2 g
    rw [h1]
    congr 1
    exact Finset.sum_congr rfl fun j _ => by rw [h2]
  cases l with
  | lead j l =>
    simp only [step] at h
    split at h <;> try simp only [reduceCtorEq] at h
    rename_i x ts rs hc
    split at h <;> simp only [Option.some.injEq, reduceCtorEq] at h
    rename_i n hn
    subst h
    have hj := hK j l hl
    have hd := hm j _ _ _ _ _ _ hl hc
    obtain ⟨p1, p2, p3⟩ := publishAll_left hwd.sound hn
    have e1 := sum_le_at (S := K) (f := fun k => f k (s.lead k) + 31 * resLeft s.net k)
      (g := fun k => f k (Function.update s.lead j x k) + 31 * resLeft n k) hj
      (fun k hk => by simp only [Function.update_of_ne hk]; have := p2 k; omega)
    have e2 := Finset.single_le_sum (f := fun k => f k (s.lead k) + 31 * resLeft s.net k) (fun _ _ => Nat.zero_le _) hj
    have := p2 j
    simp only [Function.update_self, List.length_nil] at e1 e2 hd
    left
    unfold total
    simp only
    omega
  | recv j l =>
    simp only [step] at h
    split at h
    · rename_i m r n hnx
      split at h
      · rename_i x ts hst
        split at h <;> simp only [Option.some.injEq, reduceCtorEq] at h
        rename_i n' hn
        subst h
        obtain ⟨k, c, g, rest, h1, h2, h3, h4, h5, h6, h7, h8⟩ := next_spec hnx
        obtain ⟨c0, q, hc0, hconn, hq, hname⟩ := hwd.tie _ _ h1
        rw [h2] at hc0; cases hc0
        obtain ⟨g', hg', hgn⟩ := hwd.sound.name_of h2 hq (.inl (by rw [h3]; simp) : m ∈ c.buffer ∨ _)
        rw [h4] at hg'; cases hg'
        have hres : resOf s.net j m = some r := by
          obtain ⟨gn, gb⟩ := g
          simp only at h5 hgn
          rw [hname] at hgn
          subst h5 hgn
          simp [resOf, h4, Owner.queue]
        have hj := hK j l hl
        have hd := hm j _ _ _ _ _ _ hl hst
        obtain ⟨q1, q2, q3⟩ := poll_left (n := s.net) (n' := n) (m := m) (rest := rest) h2 h3 rfl rfl (by rw [h8]) (by rw [h8]) (by rw [h8])
        obtain ⟨p1, p2, p3⟩ := publishAll_left (Amqp.sound_step hwd.sound h7) hn
        have e1 := sum_le_at (S := K) (f := fun k => f k (s.lead k) + 31 * resLeft s.net k)
          (g := fun k => f k (Function.update s.lead j x k) + 31 * resLeft n' k) hj
          (fun k hk => by simp only [Function.update_of_ne hk]; have := p2 k; have := q2 k; omega)
        have e2 := Finset.single_le_sum (f := fun k => f k (s.lead k) + 31 * resLeft s.net k) (fun _ _ => Nat.zero_le _) hj
        have a1 := p2 j
        have a2 := q2 j
        simp only [hres, Option.isSome_some, if_true] at a2
        simp only [Function.update_self, List.length_nil, List.length_singleton] at e1 e2 hd
        left
        unfold total
        simp only
        omega
      · cases h
    · cases h
  | sleep o => cases hl
  | ackRes j =>
    simp only [step] at h
    split at h
    · split at h
      · cases h
      · simp only [Option.map_eq_some_iff] at h
        obtain ⟨n, hn, rfl⟩ := h
        obtain ⟨a1, a2, a3⟩ := settles_left (settles_ack hn)
        have := settled a1 a2 s.lead
        right
        unfold total
        simp only
        omega
    · cases h
  | deliver w =>
    have hw : w ∈ W := by simpa [Label.moves] using hl
    simp only [step] at h
    split at h
    · rename_i m t n hnx
      split at h <;> simp only [Option.some.injEq, reduceCtorEq] at h
      rename_i v hv
      subst h
      obtain ⟨k, c, g, rest, h1, h2, h3, h4, h5, h6, h7, h8⟩ := next_spec hnx
      obtain ⟨c0, q, hc0, hconn, hq, hname⟩ := hwd.tie _ _ h1
      rw [h2] at hc0; cases hc0
      obtain ⟨g', hg', hgn⟩ := hwd.sound.name_of h2 hq (.inl (by rw [h3]; simp) : m ∈ c.buffer ∨ _)
      rw [h4] at hg'; cases hg'
      have hres : taskOf s.net m = some t := by
        obtain ⟨gn, gb⟩ := g
        simp only at h5 hgn
        rw [hname] at hgn
        subst h5 hgn
        simp [taskOf, h4, Owner.queue]
      obtain ⟨q1, q2, q3⟩ := poll_left (n := s.net) (n' := n) (m := m) (rest := rest) h2 h3 rfl rfl (by rw [h8]) (by rw [h8]) (by rw [h8])
      simp only [hres, Option.isSome_some, if_true] at q1
      have hr := rank_sum' (g := s.worker) (v := v) hw
      have hv' : rank v.pc = 57 ∧ rank (s.worker w).pc = 0 := by
        simp only [Worker.step] at hv
        split at hv <;> simp only [Option.some.injEq, reduceCtorEq] at hv
        subst hv; simp_all [rank]
      have hsum : ∑ j ∈ K, (f j (s.lead j) + 31 * resLeft n j) ≤ ∑ j ∈ K, (f j (s.lead j) + 31 * resLeft s.net j) :=
        Finset.sum_le_sum fun j _ => by have := q2 j; omega
      left
      unfold total
      simp only
      omega
    · cases h
  | finish w x =>
    have hw : w ∈ W := by simpa [Label.moves] using hl
    simp only [step] at h
    split at h
    · split at h <;> simp only [Option.some.injEq, reduceCtorEq] at h
      rename_i v hv
      subst h
      have hr := rank_sum' (g := s.worker) (v := v) hw
      have hv' : rank v.pc < rank (s.worker w).pc := by
        simp only [Worker.step] at hv
        split at hv <;> simp only [Option.some.injEq, reduceCtorEq] at hv
        subst hv; simp only; split <;> simp_all [rank]
      left
      unfold total
      simp only
      omega
    · cases h
  | work w l =>
    obtain ⟨hw, hrt⟩ : w ∈ W ∧ routine l = true := by simpa [Label.moves] using hl
    obtain ⟨v, n, hv, he, rfl⟩ : ∃ v n, Worker.step cfg (s.worker w) l = some v ∧ effect nt text s w l = some n ∧ s' = { s with worker := Function.update s.worker w v, net := n } := by
      cases l <;> simp only [routine, Bool.false_eq_true] at hrt <;> simp only [step] at h <;> split at h <;> simp only [Option.some.injEq, reduceCtorEq] at h <;>
        exact ⟨_, _, by assumption, by assumption, h.symm⟩
    have hr := rank_sum' (g := s.worker) (v := v) hw
    obtain ⟨r1, r2⟩ := rank_step hv hrt
    left
    have hpub : (∃ j r, publish nt.prefetch s.net (nt.wconn w) (.job j) (.result r) = some n ∧ (l = .pubOk ∨ l = .pubErr)) ∨ (tasksLeft n = tasksLeft s.net ∧ (∀ j, resLeft n j = resLeft s.net j) ∧ toDo n ≤ toDo s.net) := by
      unfold effect at he
      split at he
      · split at he
        · obtain ⟨a1, a2, a3⟩ := settles_left (settles_ack he)
          exact .inr ⟨a1, a2, Nat.le_of_lt a3⟩
        · cases he
      all_goals first
        | (split at he
           · obtain ⟨a1, a2, a3⟩ := settles_left (settles_nack he)
             exact .inr ⟨a1, a2, Nat.le_of_lt a3⟩
           · cases he)
        | skip
      · exact .inl ⟨_, _, he, .inl rfl⟩
      · exact .inl ⟨_, _, he, .inr rfl⟩
      · simp only [Option.some.injEq] at he
        subst he
        exact .inr ⟨rfl, fun _ => rfl, Nat.le_refl _⟩
    rcases hpub with ⟨j, r, hp, hlab⟩ | ⟨a1, a2, a3⟩
    · have r2 := r2 hlab
      obtain ⟨a1, a2⟩ := publish_left hwd.sound hp
      obtain ⟨-, -, a3⟩ := publish_waiting hp
      simp only [newTask] at a1
      have hle : ∑ i ∈ K, (f i (s.lead i) + 31 * resLeft n i) ≤ ∑ i ∈ K, (f i (s.lead i) + 31 * (if j = i then resLeft s.net i + 1 else resLeft s.net i)) :=
        Finset.sum_le_sum fun i _ => by have := a2 i; simp only [newRes] at this; split at this <;> simp_all <;> omega
      have hle' : ∑ i ∈ K, (f i (s.lead i) + 31 * (if j = i then resLeft s.net i + 1 else resLeft s.net i)) ≤ ∑ i ∈ K, (f i (s.lead i) + 31 * resLeft s.net i) + 31 :=
        sum_update_le (i := j) (fun k hk => by simp only [if_neg (Ne.symm hk)]) (by simp only [if_true]; omega)
      unfold total
      simp only
      omega
    · have := settled a1 a2 s.lead
      unfold total
      simp only
      omega
  | attach o k => cases hl
  | net l =>
    cases l <;> try cases hl
    simp only [step, others, if_true, Option.map_eq_some_iff] at h
    obtain ⟨n, hn, rfl⟩ := h
    obtain ⟨a1, a2, a3⟩ := deliver_left hn
    have := settled a1 a2 s.lead
    right
    unfold total
    simp only
    omega

/-- Time passes, or somebody polls in vain. -/
theorem idle_step {W : Finset Nat} {K : Finset κ} {f : (j : κ) → σ j → Nat} {s s' : St κ σ T O ε χ} {l : Label κ ℓ T O ε χ ω} (h : step cl listens nt cfg exec text s l = some s')
    (hl : l.idles = true) : total W K f s' = total W K f s ∧ toDo s'.net = toDo s.net := by
  have time : ∀ (w : Nat) (l : Worker.Label κ O χ), ((∃ d, l = .tick d) ∨ l = .reap) → step cl listens nt cfg exec text s (.work w l) = some s' → total W K f s' = total W K f s ∧ toDo s'.net = toDo s.net := by
    intro w l hl h
    obtain ⟨v, hv, rfl⟩ : ∃ v, Worker.step cfg (s.worker w) l = some v ∧ s' = { s with worker := Function.update s.worker w v } := by
      rcases hl with ⟨d, rfl⟩ | rfl <;> simp only [step, effect] at h <;> split at h <;> simp only [Option.some.injEq, reduceCtorEq] at h <;>
        exact ⟨_, by assumption, by simp_all⟩
    have hpc : v.pc = (s.worker w).pc := by
      rcases hl with ⟨d, rfl⟩ | rfl <;> simp only [Worker.step] at hv <;> (repeat' split at hv) <;> simp only [Option.some.injEq, reduceCtorEq] at hv <;> subst hv <;> rfl
    refine ⟨?_, rfl⟩
    unfold total
    simp only [pc_update hpc]
  unfold Label.idles at hl
  split at hl <;> simp only [Bool.false_eq_true] at hl
  · exact time _ _ (.inl ⟨_, rfl⟩) h
  · exact time _ _ (.inr rfl) h
  · simp only [step] at h
    split at h
    · rename_i k c hco
      obtain ⟨-, hc⟩ := consumer_spec.1 hco
      split at h
      · rename_i hcond
        simp only [Bool.and_eq_true, List.isEmpty_iff] at hcond
        simp only [Option.map_eq_some_iff] at h
        obtain ⟨n, hn, rfl⟩ := h
        obtain ⟨hn1, hn2, hn3⟩ : n.consumers = s.net.consumers.set k { c with parked := true, woken := false } ∧ n.queues = s.net.queues ∧ n.msgs = s.net.msgs := by
          simp only [Amqp.step, hc] at hn
          split at hn
          · simp only [Option.some.injEq] at hn; subst hn; exact ⟨rfl, rfl, rfl⟩
          · simp_all
        have e1 := (InMem.flatMap_set (f := Amqp.Consumer.buffer) (x := { c with parked := true, woken := false }) hc).length_eq
        have e2 := (InMem.flatMap_set (f := Amqp.Consumer.held) (x := { c with parked := true, woken := false }) hc).length_eq
        simp only [List.length_append] at e1 e2
        have hp := left_perm (n := s.net) (n' := n) ?_ hn3
        · constructor
          · unfold total
            simp only [hp.1, hp.2]
          · unfold toDo
            simp only [hn1, hn2]
            omega
        · rw [List.perm_iff_count]
          intro x
          have := Amqp.count_set (f := Amqp.Consumer.buffer) { c with parked := true, woken := false } hc x
          simp only [waiting, hn1, hn2, List.count_append] at this ⊢
          omega
      · cases h
    · cases h

/-- The number of moves is bounded. -/
theorem bound_run {W : Finset Nat} {K : Finset κ} {f : (j : κ) → σ j → Nat} {int : (j : κ) → ℓ j → Bool} (hm : ∀ j, Measured (cl j) (int j) (f j))
    (hK : ∀ j l, int j l = true → j ∈ K) {N : Nat} {s s' : St κ σ T O ε χ} {ls : List (Label κ ℓ T O ε χ ω)} (hi : Wired nt s) (hN : total W K f s ≤ N)
    (h : run cl listens nt cfg exec text s ls = some s')
    (hl : ∀ l ∈ ls, l.moves (fun w => decide (w ∈ W)) (fun j => decide (j ∈ K)) int = true ∨ l.idles = true) :
    (ls.filter fun l => l.moves (fun w => decide (w ∈ W)) (fun j => decide (j ∈ K)) int).length ≤ (2 * N + 1) * total W K f s + toDo s.net := by
  induction ls generalizing s with
  | nil => simp
  | cons l ls ih =>
    obtain ⟨s1, h1, h2⟩ := Lts.run_cons.1 h
    have hi1 := wired_step hi h1
    have hlt := hl l (by simp)
    have hrest := fun l hm => hl l (List.mem_cons_of_mem _ hm)
    by_cases hmv : l.moves (fun w => decide (w ∈ W)) (fun j => decide (j ∈ K)) int = true
    · simp only [List.filter_cons, hmv, if_true, List.length_cons]
      rcases total_step hm hK hi h1 hmv with ⟨a, b⟩ | ⟨a, b⟩
      · have := ih hi1 (by omega) h2 hrest
        have h5 : (2 * N + 1) * (total W K f s1 + 1) ≤ (2 * N + 1) * total W K f s := Nat.mul_le_mul_left _ a
        rw [Nat.mul_add, Nat.mul_one] at h5
        omega
      · have := ih hi1 (by omega) h2 hrest
        rw [a] at this
        omega
    · rw [List.filter_cons_of_neg hmv]
      obtain ⟨a, b⟩ := idle_step (W := W) (K := K) (f := f) h1 (hlt.resolve_left hmv)
      have := ih hi1 (by omega) h2 hrest
      rw [a, b] at this
      exact this

end
end SystemAmqp
end Paladin
