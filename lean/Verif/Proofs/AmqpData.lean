import Verif.Proofs.Amqp
import Verif.Proofs.Util
/-! # Where the messages are -/
namespace Paladin
namespace Amqp

variable {N B V : Type} [DecidableEq N] {dec : B → Option V} {prefetch : Nat} {s s' : St N B} {l : Label N B} {ls : List (Label N B)}

theorem count_set {α : Type} {f : α → List Nat} {l : List α} {i : Nat} {p : α} (x : α) (hp : l[i]? = some p) (m : Nat) :
    ((l.set i x).flatMap f).count m + (f p).count m = (l.flatMap f).count m + (f x).count m := by
  have := (InMem.flatMap_set (f := f) (x := x) hp).count_eq m
  simpa [List.count_append] using this

/-- Every message is in exactly one place; ids not given out are nowhere. -/
structure Data (s : St N B) : Prop where
  count : ∀ m, (s.queues.flatMap Queue.ready).count m + (s.consumers.flatMap Consumer.unacked).count m + s.acked.count m + s.nacked.count m + s.lost.count m +
    s.unroutable.count m = if m < s.msgs.length then 1 else 0
  once : ∀ m, (s.dlv.map Prod.fst).count m + (s.queues.flatMap Queue.ready).count m ≤ (if m < s.msgs.length then 1 else 0) + s.requeued.count m

theorem data_init : Data (init : St N B) := by constructor <;> simp [init]

theorem data_step (hn : Names s) (hu : ∀ (k : Nat) (c : Consumer), s.consumers[k]? = some c → c.conn ∉ s.closed → c.unacked.Perm (c.buffer ++ c.held ++ c.stuck)) (hi : Data s)
    (h : step dec prefetch s l = some s') : Data s' := by
  have he := eff_of_step hn h
  generalize s'.calls = cs at he
  generalize s'.closed = cl at he
  clear h
  obtain ⟨h1, h2⟩ := hi
  cases he with
  | other es bs hb => exact ⟨h1, h2⟩
  | newQueue n a h => constructor <;> simpa using by assumption
  | bind i q bs h hp hb => exact ⟨h1, h2⟩
  | remove i q h =>
    have e := fun m => count_set (f := Queue.ready) { q with present := false, ready := [] } h m
    refine ⟨fun m => ?_, fun m => ?_⟩
    · show _ + _ + _ + _ + (s.lost ++ q.ready).count m + _ = if m < s.msgs.length then 1 else 0
      have := h1 m; have := e m
      simp only [remove, List.count_append, List.count_nil] at *; omega
    · show _ ≤ (if m < s.msgs.length then 1 else 0) + s.requeued.count m
      have := h2 m; have := e m
      simp only [remove, List.count_nil] at *; omega
  | pub i q b h hp =>
    refine ⟨fun m => ?_, fun m => ?_⟩ <;> have e := count_set (f := Queue.ready) { q with ready := q.ready ++ [s.msgs.length] } h m <;> have := h1 m <;> have := h2 m <;>
      simp only [List.count_append, List.count_singleton, List.length_append, List.length_singleton, beq_iff_eq] at e ⊢ <;> grind
  | unr n b =>
    refine ⟨fun m => ?_, fun m => ?_⟩ <;> have := h1 m <;> have := h2 m <;>
      simp only [List.count_append, List.count_singleton, List.length_append, List.length_singleton, beq_iff_eq] <;> grind
  | consume conn i q h hp => constructor <;> simpa using by assumption
  | deliver k c q m rest hc hq hr hcan hpf =>
    refine ⟨fun x => ?_, fun x => ?_⟩ <;> have e := count_set (f := Queue.ready) { q with ready := rest } hq x <;>
      have e' := count_set (f := Consumer.unacked) { c with unacked := c.unacked ++ [m], buffer := c.buffer ++ [m], woken := c.woken || c.parked } hc x <;>
      have := h1 x <;> have := h2 x <;>
      simp only [hr, List.count_append, List.count_singleton, List.count_cons, List.count_nil, List.map_append, List.map_cons, List.map_nil] at e e' ⊢ <;> omega
  | touch k c ca pa wo hc =>
    refine ⟨fun x => ?_, h2⟩
    have e' := count_set (f := Consumer.unacked) { c with cancelled := ca, parked := pa, woken := wo } hc x
    have := h1 x
    simp only at e' ⊢; omega
  | yield k c m rest pa wo hc hb hd =>
    refine ⟨fun x => ?_, h2⟩
    have e' := count_set (f := Consumer.unacked) { c with buffer := rest, held := c.held ++ [m], parked := pa, woken := wo } hc x
    have := h1 x
    simp only at e' ⊢; omega
  | skip k c m rest pa wo hc hb hd =>
    refine ⟨fun x => ?_, h2⟩
    have e' := count_set (f := Consumer.unacked) { c with buffer := rest, stuck := c.stuck ++ [m], parked := pa, woken := wo } hc x
    have := h1 x
    simp only at e' ⊢; omega
  | ack k c m hc hm hcl =>
    refine ⟨fun x => ?_, h2⟩
    have e' := count_set (f := Consumer.unacked) { c with held := c.held.erase m, unacked := c.unacked.erase m } hc x
    have := h1 x
    have hmem : m ∈ c.unacked := (hu k c hc hcl).mem_iff.2 (by simp [hm])
    have hpos := List.count_pos_iff.2 hmem
    simp only [List.count_append, List.count_singleton, List.count_erase] at e' ⊢
    by_cases hx : m = x
    · subst hx; simp at e' ⊢; omega
    · simp [hx] at e' ⊢; omega
  | nack k c m hc hm hcl =>
    refine ⟨fun x => ?_, h2⟩
    have e' := count_set (f := Consumer.unacked) { c with held := c.held.erase m, unacked := c.unacked.erase m } hc x
    have := h1 x
    have hmem : m ∈ c.unacked := (hu k c hc hcl).mem_iff.2 (by simp [hm])
    have hpos := List.count_pos_iff.2 hmem
    simp only [List.count_append, List.count_singleton, List.count_erase] at e' ⊢
    by_cases hx : m = x
    · subst hx; simp at e' ⊢; omega
    · simp [hx] at e' ⊢; omega
  | requeue k c m q rest hc hm hcl hq hp =>
    refine ⟨fun x => ?_, fun x => ?_⟩ <;> have e := count_set (f := Queue.ready) { q with ready := m :: q.ready } hq x <;>
      have e' := count_set (f := Consumer.unacked) { c with unacked := rest } hc x <;>
      have := h1 x <;> have := h2 x <;>
      simp only [hm, List.count_append, List.count_singleton, List.count_cons, List.count_nil] at e e' ⊢ <;> omega
  | drop k c m rest hc hm hcl =>
    refine ⟨fun x => ?_, h2⟩
    have e' := count_set (f := Consumer.unacked) { c with unacked := rest } hc x
    have := h1 x
    simp only [hm, List.count_append, List.count_singleton] at e' ⊢; omega

/-- The client's side agrees with the broker's while the connection is open. -/
structure Client (dec : B → Option V) (prefetch : Nat) (s : St N B) : Prop where
  agree : ∀ (k : Nat) (c : Consumer), s.consumers[k]? = some c → c.conn ∉ s.closed → c.unacked.Perm (c.buffer ++ c.held ++ c.stuck)
  limit : prefetch ≠ 0 → ∀ c ∈ s.consumers, c.unacked.length ≤ prefetch
  bad : ∀ c ∈ s.consumers, ∀ m ∈ c.stuck, ∀ g, s.msgs[m]? = some g → dec g.bytes = none
  good : ∀ m k, (m, k) ∈ s.yielded → ∃ g v, s.msgs[m]? = some g ∧ dec g.bytes = some v
  log : ∀ (k : Nat) (c : Consumer), s.consumers[k]? = some c → ∀ m, s.yielded.count (m, k) + c.buffer.count m + c.stuck.count m = s.dlv.count (m, k)
  fresh : ∀ k, s.consumers.length ≤ k → ∀ m, (m, k) ∉ s.dlv ∧ (m, k) ∉ s.yielded
  known : ∀ m k, (m, k) ∈ s.dlv → m < s.msgs.length

theorem client_init : Client dec prefetch (init : St N B) := by constructor <;> simp [init]

theorem Client.stuck_dlv (hi : Client dec prefetch s) {k : Nat} {c : Consumer} (hc : s.consumers[k]? = some c) {m : Nat} (hm : m ∈ c.stuck ∨ m ∈ c.buffer) : (m, k) ∈ s.dlv := by
  have := hi.log k c hc m
  rw [← List.count_pos_iff, ← this]
  rcases hm with hm | hm <;> have := List.count_pos_iff.2 hm <;> omega

theorem getElem?_snoc_lt {τ : Type} {l : List τ} {x : τ} {m : Nat} (h : m < l.length) : (l ++ [x])[m]? = l[m]? := List.getElem?_append_left h

theorem client_step (hn : Names s) (hd : Data s) (hi : Client dec prefetch s) (h : step dec prefetch s l = some s') : Client dec prefetch s' := by
  have he := eff_of_step hn h
  have hcl : ∀ x, x ∉ s'.closed → x ∉ s.closed := fun x hx hx' => hx (closed_mono h x hx')
  generalize s'.calls = cs at he
  generalize s'.closed = cl at he hcl
  clear h
  have hst : ∀ (k : Nat) (c : Consumer), s.consumers[k]? = some c → ∀ m ∈ c.stuck, m < s.msgs.length := fun k c hc m hm => hi.known m k (hi.stuck_dlv hc (.inl hm))
  have hyl : ∀ m k, (m, k) ∈ s.yielded → m < s.msgs.length := by
    intro m k h
    obtain ⟨g, v, h1, -⟩ := hi.good m k h
    rw [List.getElem?_eq_some_iff] at h1; exact h1.1
  obtain ⟨h1, h2, h3, h4, h5, h6, h7⟩ := hi
  have msgs : ∀ x : Msg N B, Client dec prefetch { s with msgs := s.msgs ++ [x], calls := cs, closed := cl } := by
    intro x
    refine ⟨fun k c hc ho => h1 k c hc (hcl _ ho), h2, ?_, ?_, h5, h6, ?_⟩
    · intro c hc m hm g hg
      obtain ⟨k, hk⟩ := List.mem_iff_getElem?.1 hc
      dsimp only at hg
      rw [getElem?_snoc_lt (hst k c hk m hm)] at hg
      exact h3 c hc m hm g hg
    · intro m k h
      dsimp only
      rw [getElem?_snoc_lt (hyl m k h)]
      exact h4 m k h
    · intro m k h
      have := h7 m k h
      simp; omega
  -- a consumer is changed
  have upd : ∀ (k : Nat) (c c' : Consumer) (qs : List (Queue N)) (yl dl : List (Nat × Nat)) (ac na lo re : List Nat), s.consumers[k]? = some c → c'.conn = c.conn →
      (c.conn ∉ s.closed → c'.unacked.Perm (c'.buffer ++ c'.held ++ c'.stuck)) → (prefetch ≠ 0 → c'.unacked.length ≤ prefetch) →
      (∀ m ∈ c'.stuck, ∀ g, s.msgs[m]? = some g → dec g.bytes = none) → (∀ m, (∃ v, s.msgs[m]?.bind (fun g => dec g.bytes) = some v) ∨ (m, k) ∉ yl ∨ (m, k) ∈ s.yielded) →
      (∀ m, yl.count (m, k) + c'.buffer.count m + c'.stuck.count m = dl.count (m, k)) → (∀ m, (m, k) ∈ dl → m < s.msgs.length) →
      (∀ m j, j ≠ k → yl.count (m, j) = s.yielded.count (m, j) ∧ dl.count (m, j) = s.dlv.count (m, j)) →
      Client dec prefetch { s with
        consumers := s.consumers.set k c', queues := qs, yielded := yl, dlv := dl, acked := ac, nacked := na, lost := lo, requeued := re, calls := cs, closed := cl } := by
    intro k c c' qs yl dl ac na lo re hc hconn a1 a2 a3 a4 a5 a6 a7
    have hk : k < s.consumers.length := by rw [List.getElem?_eq_some_iff] at hc; exact hc.1
    have ylm : ∀ m j, j ≠ k → ((m, j) ∈ yl ↔ (m, j) ∈ s.yielded) := by
      intro m j hj
      rw [← List.count_pos_iff, ← List.count_pos_iff, (a7 m j hj).1]
    have dlm : ∀ m j, j ≠ k → ((m, j) ∈ dl ↔ (m, j) ∈ s.dlv) := by
      intro m j hj
      rw [← List.count_pos_iff, ← List.count_pos_iff, (a7 m j hj).2]
    refine ⟨?_, ?_, ?_, ?_, ?_, ?_, ?_⟩
    · intro j d hd ho
      rcases getElem?_set' hd with ⟨rfl, rfl⟩ | ⟨_, hd⟩
      · exact a1 (hconn ▸ hcl _ ho)
      · exact h1 j d hd (hcl _ ho)
    · intro hp d hd
      rcases PubAll.mem_set_cases hd with rfl | hd
      · exact a2 hp
      · exact h2 hp d hd
    · intro d hd
      rcases PubAll.mem_set_cases hd with rfl | hd
      · exact a3
      · exact h3 d hd
    · intro m j hm
      by_cases hj : j = k
      · subst hj
        rcases a4 m with ⟨v, hv⟩ | h | h
        · rw [Option.bind_eq_some_iff] at hv
          obtain ⟨g, hg⟩ := hv
          exact ⟨g, v, hg⟩
        · exact absurd hm h
        · exact h4 m j h
      · exact h4 m j ((ylm m j hj).1 hm)
    · intro j d hd m
      rcases getElem?_set' hd with ⟨rfl, rfl⟩ | ⟨hj, hd⟩
      · exact a5 m
      · have := a7 m j (Ne.symm hj)
        dsimp only
        rw [this.1, this.2]
        exact h5 j d hd m
    · intro j hj m
      simp only [List.length_set] at hj
      have hjk : j ≠ k := by omega
      dsimp only
      rw [ylm m j hjk, dlm m j hjk]
      exact h6 j hj m
    · intro m j hm
      by_cases hj : j = k
      · subst hj; exact a6 m hm
      · exact h7 m j ((dlm m j hj).1 hm)
  cases he with
  | other es bs hb => exact ⟨fun k c hc ho => h1 k c hc (hcl _ ho), h2, h3, h4, h5, h6, h7⟩
  | newQueue n a h => exact ⟨fun k c hc ho => h1 k c hc (hcl _ ho), h2, h3, h4, h5, h6, h7⟩
  | bind i q bs h hp hb => exact ⟨fun k c hc ho => h1 k c hc (hcl _ ho), h2, h3, h4, h5, h6, h7⟩
  | remove i q h => exact ⟨fun k c hc ho => h1 k c hc (hcl _ ho), h2, h3, h4, h5, h6, h7⟩
  | pub i q b h hp => exact ⟨(msgs ⟨q.name, b⟩).1, (msgs ⟨q.name, b⟩).2, (msgs ⟨q.name, b⟩).3, (msgs ⟨q.name, b⟩).4, (msgs ⟨q.name, b⟩).5, (msgs ⟨q.name, b⟩).6, (msgs ⟨q.name, b⟩).7⟩
  | unr n b => exact ⟨(msgs ⟨n, b⟩).1, (msgs ⟨n, b⟩).2, (msgs ⟨n, b⟩).3, (msgs ⟨n, b⟩).4, (msgs ⟨n, b⟩).5, (msgs ⟨n, b⟩).6, (msgs ⟨n, b⟩).7⟩
  | consume conn i q h hp =>
    refine ⟨?_, ?_, ?_, h4, ?_, ?_, h7⟩
    · intro k c hc ho
      rcases getElem?_snoc hc with hc | ⟨rfl, rfl⟩
      · exact h1 k c hc (hcl _ ho)
      · simp
    · intro hp c hc
      simp only [List.mem_append, List.mem_singleton] at hc
      rcases hc with hc | rfl
      · exact h2 hp c hc
      · simp
    · intro c hc
      simp only [List.mem_append, List.mem_singleton] at hc
      rcases hc with hc | rfl
      · exact h3 c hc
      · simp
    · intro k c hc m
      rcases getElem?_snoc hc with hc | ⟨rfl, rfl⟩
      · exact h5 k c hc m
      · have := h6 _ (Nat.le_refl _) m
        simp [List.count_eq_zero.2 this.1, List.count_eq_zero.2 this.2]
    · intro k hk m
      simp at hk
      exact h6 k (by omega) m
  | deliver k c q m rest hc hq hr hcan hpf =>
    have hmlt : m < s.msgs.length := by
      have h0 : m ∈ s.queues.flatMap Queue.ready := List.mem_flatMap.2 ⟨q, List.mem_of_getElem? hq, by simp [hr]⟩
      have := hd.count m
      have := List.count_pos_iff.2 h0
      by_cases hlt : m < s.msgs.length
      · exact hlt
      · rw [if_neg hlt] at *; omega
    refine upd k c _ _ s.yielded _ _ _ _ _ hc rfl ?_ ?_ ?_ ?_ ?_ ?_ ?_
    · intro ho; have := h1 k c hc ho
      perm_count [this.count_eq]
    · intro hp
      rcases hpf with h0 | h0
      · exact absurd h0 hp
      · simp; omega
    · exact h3 c (List.mem_of_getElem? hc)
    · intro x; by_cases hx : (x, k) ∈ s.yielded
      · exact .inr (.inr hx)
      · exact .inr (.inl hx)
    · intro x
      have := h5 k c hc x
      simp only [List.count_append, List.count_singleton]
      by_cases hx : m = x
      · subst hx; simp; omega
      · simp [hx]; omega
    · intro x hx
      simp at hx
      rcases hx with hx | rfl
      · exact h7 x k hx
      · exact hmlt
    · intro x j hj
      simp [List.count_append, List.count_singleton, Ne.symm hj]
  | touch k c ca pa wo hc =>
    refine upd k c _ _ s.yielded _ _ _ _ _ hc rfl (h1 k c hc) (fun hp => h2 hp c (List.mem_of_getElem? hc)) (h3 c (List.mem_of_getElem? hc)) ?_ (h5 k c hc) (fun m => h7 m k) (by simp)
    intro x; by_cases hx : (x, k) ∈ s.yielded
    · exact .inr (.inr hx)
    · exact .inr (.inl hx)
  | yield k c m rest pa wo hc hb hd =>
    refine upd k c _ _ _ s.dlv _ _ _ _ hc rfl ?_ (fun hp => h2 hp c (List.mem_of_getElem? hc)) (h3 c (List.mem_of_getElem? hc)) ?_ ?_ (fun m => h7 m k) ?_
    · intro ho; have := h1 k c hc ho
      rw [hb] at this
      perm_count [this.count_eq]
    · intro x
      by_cases hx : (x, k) ∈ s.yielded
      · exact .inr (.inr hx)
      · by_cases hxm : x = m
        · subst hxm
          obtain ⟨g, v, hg, hv⟩ := hd
          exact .inl ⟨v, by simp [hg, hv]⟩
        · exact .inr (.inl (by simp [hx, hxm]))
    · intro x
      have := h5 k c hc x
      simp only [List.count_append, List.count_singleton, hb, List.count_cons] at this ⊢
      by_cases hx : m = x
      · subst hx; simp at this ⊢; omega
      · simp [hx] at this ⊢; omega
    · intro x j hj
      simp [List.count_append, List.count_singleton, Ne.symm hj]
  | skip k c m rest pa wo hc hb hd =>
    refine upd k c _ _ s.yielded s.dlv _ _ _ _ hc rfl ?_ (fun hp => h2 hp c (List.mem_of_getElem? hc)) ?_ ?_ ?_ (fun m => h7 m k) (by simp)
    · intro ho; have := h1 k c hc ho
      rw [hb] at this
      perm_count [this.count_eq]
    · intro x hx g hg
      simp only [List.mem_append, List.mem_singleton] at hx
      rcases hx with hx | rfl
      · exact h3 c (List.mem_of_getElem? hc) x hx g hg
      · exact hd g hg
    · intro x; by_cases hx : (x, k) ∈ s.yielded
      · exact .inr (.inr hx)
      · exact .inr (.inl hx)
    · intro x
      have := h5 k c hc x
      simp only [List.count_append, hb, List.count_cons, List.count_nil] at this ⊢
      omega
  | ack k c m hc hm ho =>
    refine upd k c _ _ s.yielded s.dlv _ _ _ _ hc rfl ?_ ?_ (h3 c (List.mem_of_getElem? hc)) ?_ (h5 k c hc) (fun m => h7 m k) (by simp)
    · intro ho; have := h1 k c hc ho
      classical
      rw [List.perm_iff_count]
      intro x
      have e := this.count_eq x
      simp only [List.count_append, List.count_erase] at e ⊢
      have := List.count_pos_iff.2 hm
      by_cases hx : m = x
      · subst hx; simp; omega
      · simp [hx]; omega
    · intro hp
      exact Nat.le_trans (List.length_erase_le ..) (h2 hp c (List.mem_of_getElem? hc))
    · intro x; by_cases hx : (x, k) ∈ s.yielded
      · exact .inr (.inr hx)
      · exact .inr (.inl hx)
  | nack k c m hc hm ho =>
    refine upd k c _ _ s.yielded s.dlv _ _ _ _ hc rfl ?_ ?_ (h3 c (List.mem_of_getElem? hc)) ?_ (h5 k c hc) (fun m => h7 m k) (by simp)
    · intro ho; have := h1 k c hc ho
      classical
      rw [List.perm_iff_count]
      intro x
      have e := this.count_eq x
      simp only [List.count_append, List.count_erase] at e ⊢
      have := List.count_pos_iff.2 hm
      by_cases hx : m = x
      · subst hx; simp; omega
      · simp [hx]; omega
    · intro hp
      exact Nat.le_trans (List.length_erase_le ..) (h2 hp c (List.mem_of_getElem? hc))
    · intro x; by_cases hx : (x, k) ∈ s.yielded
      · exact .inr (.inr hx)
      · exact .inr (.inl hx)
  | requeue k c m q rest hc hm ho hq hp =>
    refine upd k c _ _ s.yielded s.dlv _ _ _ _ hc rfl (fun h => absurd ho h) ?_ (h3 c (List.mem_of_getElem? hc)) ?_ (h5 k c hc) (fun m => h7 m k) (by simp)
    · intro hp
      have := h2 hp c (List.mem_of_getElem? hc)
      simp [hm] at this; simp; omega
    · intro x; by_cases hx : (x, k) ∈ s.yielded
      · exact .inr (.inr hx)
      · exact .inr (.inl hx)
  | drop k c m rest hc hm ho =>
    refine upd k c _ _ s.yielded s.dlv _ _ _ _ hc rfl (fun h => absurd ho h) ?_ (h3 c (List.mem_of_getElem? hc)) ?_ (h5 k c hc) (fun m => h7 m k) (by simp)
    · intro hp
      have := h2 hp c (List.mem_of_getElem? hc)
      simp [hm] at this; simp; omega
    · intro x; by_cases hx : (x, k) ∈ s.yielded
      · exact .inr (.inr hx)
      · exact .inr (.inl hx)

/-- All the invariants. -/
structure Inv (dec : B → Option V) (prefetch : Nat) (s : St N B) : Prop where
  names : Names s
  data : Data s
  client : Client dec prefetch s

theorem inv_step (hi : Inv dec prefetch s) (h : step dec prefetch s l = some s') : Inv dec prefetch s' :=
  ⟨names_step hi.names h, data_step hi.names hi.client.agree hi.data h, client_step hi.names hi.data hi.client h⟩

theorem inv_run (h : run dec prefetch init ls = some s) : Inv dec prefetch s :=
  Lts.run_inv ⟨names_init, data_init, client_init⟩ (fun _ _ _ hi hs => inv_step hi hs) h

end Amqp
end Paladin
