import Verif.Props.AmqpMore
import Verif.Props.AmqpLasts
/-!
# Property C84: closing a runtime

`Runtime::close` (runtime/mod.rs:197-199) closes the connection of the process (channel/queue.rs:152-156, queue/amqp.rs:278-283): the label `lose`. In memory it does nothing
(queue/in_memory.rs:86-88).
-/
namespace Paladin
namespace Amqp

/-- The connection that a label is a piece of. An expiry is of none. -/
def Label.conn? (s : St N B) : Label N B → Option Nat
  | .begin conn _ => some conn
  | .exec k => s.calls[k]?.map (·.conn)
  | .deliver k => s.consumers[k]?.map (·.conn)
  | .poll k => s.consumers[k]?.map (·.conn)
  | .ack k _ => s.consumers[k]?.map (·.conn)
  | .nack k _ => s.consumers[k]?.map (·.conn)
  | .cancel k => s.consumers[k]?.map (·.conn)
  | .lose conn => some conn
  | .requeue k => s.consumers[k]?.map (·.conn)
  | .expire _ => none

section
variable {N B V : Type} [DecidableEq N] {dec : B → Option V} {prefetch : Nat} {s s' : St N B} {ls : List (Label N B)}

/-- An execution without any piece of `conn`. -/
def Foreign (dec : B → Option V) (prefetch : Nat) (conn : Nat) : St N B → List (Label N B) → Prop
  | _, [] => True
  | s, l :: ls => l.conn? s ≠ some conn ∧ ∀ s1, step dec prefetch s l = some s1 → Foreign dec prefetch conn s1 ls

/-! ## The calls of a closed connection -/

/-- A step of a closed connection's call gives it its error, and nothing else changes. -/
theorem exec_closed {k : Nat} {r : Running N B} (hr : s.calls[k]? = some r) (hc : r.conn ∈ s.closed) (h : step dec prefetch s (.exec k) = some s') :
    r.result = none ∧ s' = { s with calls := s.calls.set k { r with result := some none } } := by
  simp only [step, hr] at h
  split at h
  · cases h
  · rename_i hres
    rw [if_pos (by simpa using hc)] at h
    simp only [Option.some.injEq] at h
    exact ⟨by simpa using hres, h.symm⟩

/-- A call of a closed connection: as it was when the connection was closed, or failed, or begun later and without effect. -/
def CallOk (s : St N B) (k : Nat) (r' : Running N B) : Prop :=
  match s.calls[k]? with
  | some r => r'.conn = r.conn ∧ r'.call = r.call ∧ r'.rest = r.rest ∧ (r'.result = r.result ∨ r.result = none ∧ r'.result = some none)
  | none => r'.rest = r'.call.methods ∧ (r'.result = none ∨ r'.result = some none)

theorem callOk_fail {k : Nat} {r : Running N B} (h : CallOk s k r) (hn : r.result = none) : CallOk s k { r with result := some none } := by
  unfold CallOk at h ⊢
  split
  · rename_i r0 e
    rw [e] at h
    obtain ⟨h1, h2, h3, h4⟩ := h
    refine ⟨h1, h2, h3, .inr ⟨?_, rfl⟩⟩
    rcases h4 with h4 | ⟨h4, -⟩
    · rw [← h4, hn]
    · exact h4
  · rename_i e
    rw [e] at h
    exact ⟨h.1, .inr rfl⟩

/-- The length and the connections of the calls. -/
theorem calls_keep {l : Label N B} (h : step dec prefetch s l = some s') (k : Nat) (r : Running N B) (hr : s.calls[k]? = some r) : ∃ r', s'.calls[k]? = some r' ∧ r'.conn = r.conn := by
  have hlt := (List.getElem?_eq_some_iff.1 hr).1
  have key : ∀ (j : Nat) (r0 r1 : Running N B), s.calls[j]? = some r0 → r1.conn = r0.conn → ∃ r', (s.calls.set j r1)[k]? = some r' ∧ r'.conn = r.conn := by
    intro j r0 r1 h0 h1
    by_cases e : j = k
    · subst e
      rw [hr] at h0; cases h0
      exact ⟨r1, by simp [hlt], h1⟩
    · exact ⟨r, by simp [e, hr], rfl⟩
  cases l with
  | «begin» c x =>
    simp only [step, Option.some.injEq] at h; subst h
    exact ⟨r, by simp only [List.getElem?_append_left hlt, hr], rfl⟩
  | exec j =>
    simp only [step] at h
    (repeat' split at h) <;> simp only [Option.some.injEq, reduceCtorEq] at h <;> subst h
    all_goals exact key j ‹Running N B› _ ‹_› rfl
  | _ =>
    simp only [step, remove] at h
    (repeat' split at h) <;> simp only [Option.some.injEq, reduceCtorEq] at h <;> subst h <;> exact ⟨r, hr, rfl⟩

theorem callOk_step {conn : Nat} {s0 : St N B} {l : Label N B} (hc : conn ∈ s.closed) (hlen : s0.calls.length ≤ s.calls.length)
    (hi : ∀ k r, s.calls[k]? = some r → r.conn = conn → CallOk s0 k r) (h : step dec prefetch s l = some s') : ∀ k r, s'.calls[k]? = some r → r.conn = conn → CallOk s0 k r := by
  intro k r hr hrc
  cases l with
  | «begin» c x =>
    simp only [step, Option.some.injEq] at h; subst h
    rcases getElem?_snoc hr with hr | ⟨rfl, rfl⟩
    · exact hi k r hr hrc
    · unfold CallOk
      rw [List.getElem?_eq_none hlen]
      exact ⟨rfl, .inl rfl⟩
  | exec j =>
    cases hj : s.calls[j]? with
    | none => simp [step, hj] at h
    | some r0 =>
      by_cases e : r0.conn ∈ s.closed
      · obtain ⟨h1, rfl⟩ := exec_closed hj e h
        rcases getElem?_set' hr with ⟨rfl, rfl⟩ | ⟨_, hr⟩
        · exact callOk_fail (hi j r0 hj hrc) h1
        · exact hi k r hr hrc
      · have hne : r0.conn ≠ conn := fun e' => e (e' ▸ hc)
        have key : ∀ r1 : Running N B, r1.conn = r0.conn → (s.calls.set j r1)[k]? = some r → CallOk s0 k r := by
          intro r1 h1 hr
          rcases getElem?_set' hr with ⟨rfl, rfl⟩ | ⟨_, hr⟩
          · exact absurd (h1 ▸ hrc) hne
          · exact hi k r hr hrc
        simp only [step, hj] at h
        (repeat' split at h) <;> simp only [Option.some.injEq, reduceCtorEq] at h <;> subst h
        all_goals exact key _ (by rfl) hr
  | _ =>
    simp only [step, remove] at h
    (repeat' split at h) <;> simp only [Option.some.injEq, reduceCtorEq] at h <;> subst h <;> exact hi k r hr hrc

theorem closed_run {conn : Nat} (hc : conn ∈ s.closed) (h : run dec prefetch s ls = some s') : conn ∈ s'.closed :=
  Lts.run_inv (P := fun s : St N B => conn ∈ s.closed) hc (fun _ _ _ hi hs => closed_mono hs _ hi) h

theorem calls_keep_run (h : run dec prefetch s ls = some s') (k : Nat) (r : Running N B) (hr : s.calls[k]? = some r) : ∃ r', s'.calls[k]? = some r' ∧ r'.conn = r.conn := by
  refine Lts.run_inv (P := fun s' : St N B => ∃ r', s'.calls[k]? = some r' ∧ r'.conn = r.conn) ⟨r, hr, rfl⟩ ?_ h
  rintro a l b ⟨r', h1, h2⟩ hs
  obtain ⟨r'', h3, h4⟩ := calls_keep hs k r' h1
  exact ⟨r'', h3, h4.trans h2⟩

theorem length_run (h : run dec prefetch s ls = some s') : s.calls.length ≤ s'.calls.length := by
  cases hl : s.calls.length with
  | zero => exact Nat.zero_le _
  | succ n =>
    obtain ⟨r', h1, -⟩ := calls_keep_run h n (s.calls[n]'(by omega)) (List.getElem?_eq_getElem _)
    exact (List.getElem?_eq_some_iff.1 h1).1

theorem callOk_run {conn : Nat} (hc : conn ∈ s.closed) (h : run dec prefetch s ls = some s') : ∀ k r, s'.calls[k]? = some r → r.conn = conn → CallOk s k r := by
  refine Lts.run_induction (P := fun _ s' => ∀ k r, s'.calls[k]? = some r → r.conn = conn → CallOk s k r) ?_ ?_ ls s' h
  · intro k r hr _
    simp [CallOk, hr]
  · intro ls1 l s1 s2 h1 ih hs
    exact callOk_step (closed_run hc h1) (length_run h1) ih hs

/-- **C84, calls.** Once the connection of a process is closed, a call in progress performs no further method and can only end with an error; a call begun later performs none at all and can only
end with an error; and nothing but the call's own result changes when it does. -/
theorem C84_calls {conn : Nat} (hc : conn ∈ s.closed) (h : run dec prefetch s ls = some s') :
    (∀ (k : Nat) (r : Running N B), s.calls[k]? = some r → r.conn = conn → r.result = none →
      ∃ r', s'.calls[k]? = some r' ∧ r'.call = r.call ∧ r'.rest = r.rest ∧ (r'.result = none ∨ r'.result = some none)) ∧
    (∀ (k : Nat) (r : Running N B), s'.calls[k]? = some r → r.conn = conn → s.calls.length ≤ k → r.rest = r.call.methods ∧ (r.result = none ∨ r.result = some none)) ∧
    ∀ (k : Nat) (r : Running N B) (s1 : St N B), s'.calls[k]? = some r → r.conn = conn → step dec prefetch s' (.exec k) = some s1 →
      s1 = { s' with calls := s'.calls.set k { r with result := some none } } := by
  refine ⟨?_, ?_, ?_⟩
  · intro k r hr hrc hn
    obtain ⟨r', h1, h2⟩ := calls_keep_run h k r hr
    have := callOk_run hc h k r' h1 (h2.trans hrc)
    unfold CallOk at this
    rw [hr] at this
    obtain ⟨-, h3, h4, h5⟩ := this
    refine ⟨r', h1, h3, h4, ?_⟩
    rcases h5 with h5 | ⟨-, h5⟩
    · exact .inl (h5.trans hn)
    · exact .inr h5
  · intro k r hr hrc hk
    have := callOk_run hc h k r hr hrc
    unfold CallOk at this
    rwa [List.getElem?_eq_none hk] at this
  · intro k r s1 hr hrc hs
    exact (exec_closed hr (hrc ▸ closed_run hc h) hs).2

/-! ## Its receivers -/

/-- A consumer of a closed connection, compared with what it was when the connection was closed. -/
structure Rest (s0 : St N B) (k : Nat) (c0 : Consumer) (s : St N B) (c : Consumer) : Prop where
  conn : c.conn = c0.conn
  inst : c.inst = c0.inst
  yields : ∃ ys, yieldedBy s k = yieldedBy s0 k ++ ys ∧ (ys ++ c.buffer).Sublist c0.buffer
  dlv : s.dlv.filter (fun p => p.2 = k) = s0.dlv.filter (fun p => p.2 = k)
  unacked : c.unacked <+: c0.unacked

theorem Rest.of {s0 : St N B} {k : Nat} {c0 c c' : Consumer} (h : Rest s0 k c0 s c) (h1 : c'.conn = c.conn) (h2 : c'.inst = c.inst) (h3 : c'.buffer = c.buffer) (h4 : c'.unacked <+: c.unacked)
    (h5 : s'.yielded = s.yielded) (h6 : s'.dlv = s.dlv) : Rest s0 k c0 s' c' := by
  refine ⟨h1.trans h.conn, h2.trans h.inst, ?_, by rw [h6, h.dlv], h4.trans h.unacked⟩
  obtain ⟨ys, e1, e2⟩ := h.yields
  exact ⟨ys, by rw [← e1]; simp [yieldedBy, h5], by rw [h3]; exact e2⟩

theorem Rest.same {s0 : St N B} {k : Nat} {c0 c : Consumer} (h : Rest s0 k c0 s c) (h5 : s'.yielded = s.yielded) (h6 : s'.dlv = s.dlv) : Rest s0 k c0 s' c :=
  h.of rfl rfl rfl List.prefix_rfl h5 h6

theorem method_log (conn : Nat) (m : Method N B) : (method s conn m).1.yielded = s.yielded ∧ (method s conn m).1.dlv = s.dlv ∧
    ∀ (k : Nat) (c : Consumer), s.consumers[k]? = some c → (method s conn m).1.consumers[k]? = some c := by
  rcases m with _ | _ | _ | _ | _ | ⟨_ | _⟩ | _ <;> simp only [method, remove] <;> (repeat' split)
  all_goals first
    | exact ⟨trivial, trivial, fun k c h => h⟩
    | exact ⟨rfl, rfl, fun k c h => h⟩
    | skip
  refine ⟨by trivial, by trivial, fun k c h => ?_⟩
  show (s.consumers ++ _)[k]? = _
  rw [List.getElem?_append_left (List.getElem?_eq_some_iff.1 h).1, h]

theorem rest_step {s0 : St N B} {k : Nat} {c0 c : Consumer} {l : Label N B} (hc : c0.conn ∈ s.closed) (hk : s.consumers[k]? = some c) (hi : Rest s0 k c0 s c) (h : step dec prefetch s l = some s') :
    (∃ c', s'.consumers[k]? = some c' ∧ Rest s0 k c0 s' c') ∧ ∀ m, l ≠ .ack k m ∧ l ≠ .nack k m := by
  have hcl : c.conn ∈ s.closed := hi.conn ▸ hc
  have hlt := (List.getElem?_eq_some_iff.1 hk).1
  -- another consumer changes
  have other : ∀ (j : Nat) (d : Consumer), j ≠ k → (s.consumers.set j d)[k]? = some c := fun j d e => by simp [e, hk]
  cases l with
  | «begin» a x =>
    refine ⟨?_, by simp⟩
    simp only [step, Option.some.injEq] at h; subst h
    exact ⟨c, hk, hi.same rfl rfl⟩
  | exec j =>
    refine ⟨?_, by simp⟩
    simp only [step] at h
    (repeat' split at h) <;> simp only [Option.some.injEq, reduceCtorEq] at h <;> subst h
    · exact ⟨c, hk, hi.same rfl rfl⟩
    · exact ⟨c, hk, hi.same rfl rfl⟩
    · exact ⟨c, (method_log _ _).2.2 k c hk, hi.same (method_log _ _).1 (method_log _ _).2.1⟩
    · exact ⟨c, (method_log _ _).2.2 k c hk, hi.same (method_log _ _).1 (method_log _ _).2.1⟩
  | deliver j =>
    refine ⟨?_, by simp⟩
    simp only [step] at h
    (repeat' split at h) <;> simp only [Option.some.injEq, reduceCtorEq] at h <;> subst h
    rename_i d hd hcan _ q hq _ m rest hr
    have e : j ≠ k := by
      rintro rfl
      rw [hk] at hd; cases hd
      simp [St.canDeliver, hcl] at hcan
    exact ⟨c, other _ _ e, ⟨hi.conn, hi.inst, hi.yields, by simp [List.filter_append, e, hi.dlv], hi.unacked⟩⟩
  | poll j =>
    refine ⟨?_, by simp⟩
    simp only [step] at h
    split at h
    · cases h
    · rename_i d hd
      by_cases e : j = k
      · subst e
        rw [hk] at hd; cases hd
        split at h
        · simp only [Option.some.injEq] at h; subst h
          exact ⟨_, List.getElem?_set_self hlt, hi.of rfl rfl rfl List.prefix_rfl rfl rfl⟩
        · rename_i m rest hb
          split at h <;> simp only [Option.some.injEq] at h <;> subst h
          · refine ⟨_, List.getElem?_set_self hlt, ⟨hi.conn, hi.inst, ?_, hi.dlv, hi.unacked⟩⟩
            obtain ⟨ys, e1, e2⟩ := hi.yields
            rw [hb] at e2
            refine ⟨ys ++ [m], ?_, by simpa using e2⟩
            simp [yieldedBy, List.filter_append] at e1 ⊢
            rw [e1]; simp
          · refine ⟨_, List.getElem?_set_self hlt, ⟨hi.conn, hi.inst, ?_, hi.dlv, hi.unacked⟩⟩
            obtain ⟨ys, e1, e2⟩ := hi.yields
            rw [hb] at e2
            exact ⟨ys, e1, ((List.Sublist.refl ys).append (List.sublist_cons_self m rest)).trans e2⟩
      · split at h
        · simp only [Option.some.injEq] at h; subst h
          exact ⟨c, other _ _ e, hi.same rfl rfl⟩
        · split at h <;> simp only [Option.some.injEq] at h <;> subst h
          · refine ⟨c, other _ _ e, ⟨hi.conn, hi.inst, ?_, hi.dlv, hi.unacked⟩⟩
            obtain ⟨ys, e1, e2⟩ := hi.yields
            exact ⟨ys, by rw [← e1]; simp [yieldedBy, List.filter_append, e], e2⟩
          · exact ⟨c, other _ _ e, hi.same rfl rfl⟩
  | ack j m =>
    simp only [step] at h
    (repeat' split at h) <;> simp only [Option.some.injEq, reduceCtorEq] at h <;> subst h
    rename_i d hd hcan
    have e : j ≠ k := by
      rintro rfl
      rw [hk] at hd; cases hd
      simp [hcl] at hcan
    exact ⟨⟨c, other _ _ e, hi.same rfl rfl⟩, fun m' => ⟨by simp [e], by simp⟩⟩
  | nack j m =>
    simp only [step] at h
    (repeat' split at h) <;> simp only [Option.some.injEq, reduceCtorEq] at h <;> subst h
    rename_i d hd hcan
    have e : j ≠ k := by
      rintro rfl
      rw [hk] at hd; cases hd
      simp [hcl] at hcan
    exact ⟨⟨c, other _ _ e, hi.same rfl rfl⟩, fun m' => ⟨by simp, by simp [e]⟩⟩
  | cancel j =>
    refine ⟨?_, by simp⟩
    simp only [step] at h
    (repeat' split at h) <;> simp only [Option.some.injEq, reduceCtorEq] at h <;> subst h
    rename_i d hd
    by_cases e : j = k
    · subst e
      rw [hk] at hd; cases hd
      exact ⟨_, List.getElem?_set_self hlt, hi.of rfl rfl rfl List.prefix_rfl rfl rfl⟩
    · exact ⟨c, other _ _ e, hi.same rfl rfl⟩
  | lose x =>
    refine ⟨?_, by simp⟩
    simp only [step, Option.some.injEq] at h; subst h
    exact ⟨c, hk, hi.same rfl rfl⟩
  | requeue j =>
    refine ⟨?_, by simp⟩
    simp only [step] at h
    split at h
    · cases h
    · rename_i d hd
      by_cases e : j = k
      · subst e
        rw [hk] at hd; cases hd
        (repeat' split at h) <;> simp only [Option.some.injEq, reduceCtorEq] at h <;> subst h <;>
          exact ⟨_, List.getElem?_set_self hlt, hi.of rfl rfl rfl (List.dropLast_prefix _) rfl rfl⟩
      · (repeat' split at h) <;> simp only [Option.some.injEq, reduceCtorEq] at h <;> subst h <;> exact ⟨c, other _ _ e, hi.same rfl rfl⟩
  | expire j =>
    refine ⟨?_, by simp⟩
    simp only [step, remove] at h
    (repeat' split at h) <;> simp only [Option.some.injEq, reduceCtorEq] at h <;> subst h
    exact ⟨c, hk, hi.same rfl rfl⟩

/-- **C84, receivers.** Once the connection of a process is closed, its receivers are delivered nothing more, nothing they yielded can be acknowledged, negatively or not, and what they still
yield had arrived before and comes in the order it had. -/
theorem C84_receivers {conn : Nat} (hc : conn ∈ s.closed) (h : run dec prefetch s ls = some s') {k : Nat} {c : Consumer} (hk : s.consumers[k]? = some c) (hkc : c.conn = conn) :
    s'.dlv.filter (fun p => p.2 = k) = s.dlv.filter (fun p => p.2 = k) ∧ (∃ ys, yieldedBy s' k = yieldedBy s k ++ ys ∧ ys.Sublist c.buffer) ∧ ∀ m, .ack k m ∉ ls ∧ .nack k m ∉ ls := by
  have key : (∃ c', s'.consumers[k]? = some c' ∧ Rest s k c s' c') ∧ ∀ m, .ack k m ∉ ls ∧ .nack k m ∉ ls := by
    refine Lts.run_induction (P := fun ls s' => (∃ c', s'.consumers[k]? = some c' ∧ Rest s k c s' c') ∧ ∀ m, .ack k m ∉ ls ∧ .nack k m ∉ ls) ?_ ?_ ls s' h
    · exact ⟨⟨c, hk, rfl, rfl, ⟨[], by simp, by simp⟩, rfl, List.prefix_rfl⟩, by simp⟩
    · rintro ls1 l s1 s2 h1 ⟨⟨c1, i1, i2⟩, i3⟩ hs
      obtain ⟨g1, g2⟩ := rest_step (hkc ▸ closed_run hc h1) i1 i2 hs
      refine ⟨g1, fun m => ⟨?_, ?_⟩⟩
      · simp only [List.mem_append, List.mem_singleton, not_or]
        exact ⟨(i3 m).1, Ne.symm (g2 m).1⟩
      · simp only [List.mem_append, List.mem_singleton, not_or]
        exact ⟨(i3 m).2, Ne.symm (g2 m).2⟩
  obtain ⟨⟨c', -, hr⟩, h3⟩ := key
  obtain ⟨ys, e1, e2⟩ := hr.yields
  exact ⟨hr.dlv, ⟨ys, e1, (List.sublist_append_left ys c'.buffer).trans e2⟩, h3⟩

/-! ## What they had not acknowledged -/

/-- **C84, returned.** What a receiver of a closed connection had not acknowledged can go back to the front of its queue, all of it and in its old order. -/
theorem C84_returned {k : Nat} {c : Consumer} {q : Queue N} (hk : s.consumers[k]? = some c) (hc : c.conn ∈ s.closed) (hq : s.queues[c.inst]? = some q) (hp : q.present = true) :
    ∃ s', run dec prefetch s (List.replicate c.unacked.length (.requeue k)) = some s' ∧ s'.queues[c.inst]? = some { q with ready := c.unacked ++ q.ready } ∧
      s'.consumers[k]? = some { c with unacked := [] } := by
  obtain ⟨n, hn⟩ : ∃ n, c.unacked.length = n := ⟨_, rfl⟩
  induction n generalizing s c q with
  | zero =>
    have : c.unacked = [] := List.eq_nil_of_length_eq_zero hn
    refine ⟨s, by rw [hn]; rfl, by rw [this]; simpa using hq, ?_⟩
    rw [hk, ← this]
  | succ n ih =>
    have hne : c.unacked ≠ [] := by intro e; simp [e] at hn
    have hlast : c.unacked.getLast? = some (c.unacked.getLast hne) := List.getLast?_eq_some_getLast hne
    have hklt := (List.getElem?_eq_some_iff.1 hk).1
    have hqlt := (List.getElem?_eq_some_iff.1 hq).1
    let s1 : St N B := { s with
      consumers := s.consumers.set k { c with unacked := c.unacked.dropLast }, queues := s.queues.set c.inst { q with ready := c.unacked.getLast hne :: q.ready },
      requeued := s.requeued ++ [c.unacked.getLast hne] }
    have hs : step dec prefetch s (.requeue k) = some s1 := by
      simp only [step, hk, hlast, hq]
      rw [if_pos (by simpa using hc), if_pos hp]
    obtain ⟨s', h1, h2, h3⟩ := ih (s := s1) (c := { c with unacked := c.unacked.dropLast }) (q := { q with ready := c.unacked.getLast hne :: q.ready })
      (by simp [s1, hklt]) hc (by simp [s1, hqlt]) hp (by simp [hn])
    refine ⟨s', ?_, ?_, h3⟩
    · rw [hn, List.replicate_succ]
      simp only [List.length_dropLast, hn, Nat.add_sub_cancel] at h1
      exact Lts.run_cons.2 ⟨s1, hs, h1⟩
    · rw [h2]
      simp only [Option.some.injEq, Queue.mk.injEq, true_and]
      have := List.dropLast_concat_getLast hne
      calc c.unacked.dropLast ++ c.unacked.getLast hne :: q.ready = (c.unacked.dropLast ++ [c.unacked.getLast hne]) ++ q.ready := by simp
        _ = _ := by rw [this]

/-! ## The other processes -/

theorem method_closed (cl : List Nat) (conn : Nat) (m : Method N B) :
    method { s with closed := cl } conn m = ({ (method s conn m).1 with closed := cl }, (method s conn m).2) := by
  have hf : ∀ n, St.find { s with closed := cl } n = s.find n := fun _ => rfl
  rcases m with _ | _ | _ | _ | _ | ⟨_ | _⟩ | _ <;> simp only [method, hf, remove] <;> (repeat' split) <;> simp_all

/-- A step of another process, with and without the closing. -/
theorem step_closed {conn : Nat} {l : Label N B} {cl : List Nat} (hcl : ∀ x, x ∈ cl ↔ x = conn ∨ x ∈ s.closed) (hl : l.conn? s ≠ some conn) (h : step dec prefetch s l = some s') :
    ∃ cl', step dec prefetch { s with closed := cl } l = some { s' with closed := cl' } ∧ ∀ x, x ∈ cl' ↔ x = conn ∨ x ∈ s'.closed := by
  have hne : ∀ x, x ≠ conn → cl.contains x = s.closed.contains x := by
    intro x hx
    have := hcl x
    by_cases e : x ∈ s.closed
    · simp [e, this]
    · simp [e, this, hx]
  cases l with
  | «begin» a x =>
    simp only [step, Option.some.injEq] at h; subst h
    exact ⟨cl, rfl, hcl⟩
  | exec k =>
    simp only [step] at h
    split at h
    · cases h
    · rename_i r hr
      have hrc : r.conn ≠ conn := by simpa [Label.conn?, hr] using hl
      simp only [step, hr, hne _ hrc, method_closed]
      split at h
      · cases h
      · rename_i e1
        rw [if_neg e1]
        split at h
        · rename_i e2
          rw [if_pos e2]
          simp only [Option.some.injEq] at h; subst h
          exact ⟨cl, rfl, hcl⟩
        · rename_i e2
          rw [if_neg e2]
          split at h
          · simp only [Option.some.injEq] at h; subst h
            exact ⟨cl, rfl, hcl⟩
          · split at h
            · rename_i e3
              simp only [e3, if_true]
              simp only [Option.some.injEq] at h; subst h
              refine ⟨cl, rfl, ?_⟩
              simpa [method_calls] using hcl
            · rename_i e3
              simp only [e3, if_false]
              simp only [Option.some.injEq] at h; subst h
              refine ⟨r.conn :: cl, rfl, fun x => ?_⟩
              simp only [List.mem_cons, hcl]
              constructor <;> (rintro (h | h | h) <;> simp [h])
  | deliver k =>
    simp only [step] at h
    split at h
    · cases h
    · rename_i c hc
      have hrc : c.conn ≠ conn := by simpa [Label.conn?, hc] using hl
      have hcan : St.canDeliver { s with closed := cl } c = s.canDeliver c := by
        unfold St.canDeliver
        simp only [hne _ hrc]
      simp only [step, hc, hcan]
      (repeat' split at h) <;> simp only [Option.some.injEq, reduceCtorEq] at h <;> subst h
      exact ⟨cl, by simp_all, hcl⟩
  | poll k =>
    simp only [step] at h ⊢
    (repeat' split at h) <;> simp only [Option.some.injEq, reduceCtorEq] at h <;> subst h <;> exact ⟨cl, by simp_all, hcl⟩
  | ack k m =>
    simp only [step] at h
    split at h
    · cases h
    · rename_i c hc
      have hrc : c.conn ≠ conn := by simpa [Label.conn?, hc] using hl
      simp only [step, hc, hne _ hrc]
      split at h
      · rename_i e
        rw [if_pos e]
        simp only [Option.some.injEq] at h; subst h
        exact ⟨cl, rfl, hcl⟩
      · cases h
  | nack k m =>
    simp only [step] at h
    split at h
    · cases h
    · rename_i c hc
      have hrc : c.conn ≠ conn := by simpa [Label.conn?, hc] using hl
      simp only [step, hc, hne _ hrc]
      split at h
      · rename_i e
        rw [if_pos e]
        simp only [Option.some.injEq] at h; subst h
        exact ⟨cl, rfl, hcl⟩
      · cases h
  | cancel k =>
    simp only [step] at h ⊢
    split at h
    · cases h
    · simp only [Option.some.injEq] at h; subst h
      exact ⟨cl, by simp_all, hcl⟩
  | lose x =>
    simp only [step, Option.some.injEq] at h; subst h
    refine ⟨x :: cl, rfl, fun y => ?_⟩
    simp only [List.mem_cons, hcl]
    constructor <;> (rintro (h | h | h) <;> simp [h])
  | requeue k =>
    simp only [step] at h
    split at h
    · cases h
    · rename_i c hc
      have hrc : c.conn ≠ conn := by simpa [Label.conn?, hc] using hl
      simp only [step, hc, hne _ hrc]
      (repeat' split at h) <;> simp only [Option.some.injEq, reduceCtorEq] at h <;> subst h <;> exact ⟨cl, by simp_all, hcl⟩
  | expire i =>
    simp only [step] at h ⊢
    split at h
    · cases h
    · rename_i q hq
      split at h
      · rename_i e
        simp only [Option.some.injEq] at h; subst h
        refine ⟨cl, ?_, hcl⟩
        have hall : (s.consumers.all fun c => decide (c.inst ≠ i) || !St.canDeliver { s with closed := cl } c) = true := by
          simp only [Bool.and_eq_true, List.all_eq_true] at e
          rw [List.all_eq_true]
          intro c hc
          have := e.2 c hc
          by_cases e' : c.inst = i
          · simp only [e', ne_eq, not_true_eq_false, decide_false, Bool.false_or, Bool.not_eq_true'] at this ⊢
            simp only [St.canDeliver, Bool.and_eq_false_iff, Bool.not_eq_false'] at this ⊢
            rcases this with (h | h) | h
            · exact .inl (.inl h)
            · refine .inl (.inr ?_)
              simp only [List.contains_iff_mem] at h ⊢
              exact (hcl _).2 (.inr h)
            · exact .inr h
          · simp [e']
        simp only [Bool.and_eq_true] at e
        rw [if_pos (by rw [Bool.and_eq_true, Bool.and_eq_true]; exact ⟨e.1, hall⟩)]
        rfl
      · cases h

/-- **C84, the others.** Whatever the other processes could have done had the process not been closed, they can do after it has been closed, with the same effects. -/
theorem C84_others {conn : Nat} (hf : Foreign dec prefetch conn s ls) (h : run dec prefetch s ls = some s') :
    ∃ cl, run dec prefetch s (.lose conn :: ls) = some { s' with closed := cl } ∧ ∀ x, x ∈ cl ↔ x = conn ∨ x ∈ s'.closed := by
  have key : ∀ (ls : List (Label N B)) (s : St N B) (cl : List Nat), Foreign dec prefetch conn s ls → run dec prefetch s ls = some s' → (∀ x, x ∈ cl ↔ x = conn ∨ x ∈ s.closed) →
      ∃ cl', run dec prefetch { s with closed := cl } ls = some { s' with closed := cl' } ∧ ∀ x, x ∈ cl' ↔ x = conn ∨ x ∈ s'.closed := by
    intro ls
    induction ls with
    | nil =>
      intro s cl _ h hcl
      simp only [Lts.run_nil, Option.some.injEq] at h; subst h
      exact ⟨cl, rfl, hcl⟩
    | cons l ls ih =>
      intro s cl hf h hcl
      obtain ⟨s1, h1, h2⟩ := Lts.run_cons.1 h
      obtain ⟨cl1, g1, g2⟩ := step_closed hcl hf.1 h1
      obtain ⟨cl2, g3, g4⟩ := ih s1 cl1 (hf.2 s1 h1) h2 g2
      exact ⟨cl2, Lts.run_cons.2 ⟨_, g1, g3⟩, g4⟩
  obtain ⟨cl, h1, h2⟩ := key ls s (conn :: s.closed) hf h (by simp)
  exact ⟨cl, Lts.run_cons.2 ⟨_, rfl, h1⟩, h2⟩

/-! ## Releases -/

/-- **C84, releases**, as far as it holds: a release that has been performed when its process is closed has removed the queue. Missing: one that has not; see `C84_leak`. -/
theorem C84_released_partial (hrun : run dec prefetch init ls = some s) {k : Nat} {r : Running N B} {name : N} {rest : List (Method N B)} (hr : s.calls[k]? = some r) (hn : r.result = none) (ho : r.conn ∉ s.closed)
    (hm : r.rest = .queueDelete name :: rest) (h : step dec prefetch s (.exec k) = some s') : s'.find name = none := by
  have hu := names_run hrun
  cases hf' : s'.find name with
  | none => rfl
  | some i =>
    exfalso
    obtain ⟨q, h1, h2, h3⟩ := find_some hf'
    have ho' : ¬ (s.closed.contains r.conn = true) := by simpa using ho
    simp only [step, hr, hn, Option.isSome_none, Bool.false_eq_true, if_false, hm, ho'] at h
    cases hf : s.find name with
    | none =>
      simp only [method, hf, if_true, Option.some.injEq] at h; subst h
      exact find_none hf i q h1 h2 h3
    | some j =>
      obtain ⟨p, p1, p2, p3⟩ := find_some hf
      simp only [method, hf, p1, if_true, Option.some.injEq] at h; subst h
      rcases getElem?_set' h1 with ⟨rfl, rfl⟩ | ⟨e, h1⟩
      · cases h2
      · exact e (hu.uniq j i p q p1 h1 p2 h2 (p3.trans h3.symm))

/-- **C84, a release that came too late.** If nobody else deletes the queue, then after the closing of the process it stays, with or without the process having asked for its release, until it
expires. -/
theorem C84_leak {ls' : List (Label N B)} (h : run dec prefetch init ls = some s) {conn : Nat} (hc : conn ∈ s.closed) {mode : Syndication} {name : N} {i : Nat} (hr : routes s mode name i)
    (hp : ∀ r ∈ s.calls, r.conn ≠ conn → r.call ≠ .deleteQueue name) (h' : run dec prefetch s ls' = some s') (hd : ∀ c, c ≠ conn → .begin c (.deleteQueue name) ∉ ls') (he : .expire i ∉ ls') :
    routes s' mode name i := by
  have hcall : ∀ (c : Call N B), c ≠ .deleteQueue name → Method.queueDelete name ∉ c.methods ∧ Method.exchangeDelete name ∉ c.methods := by
    intro c hne
    cases c with
    | declareQueue n o => simp only [Call.methods, declareQueue]; split <;> simp [declareSingle, declareBroadcast]
    | deleteQueue n =>
      have : name ≠ n := fun e => hne (by rw [e])
      simp [Call.methods, deleteQueue, deleteBroadcast, this]
    | publish n o b => simp only [Call.methods, publish]; split <;> simp
    | declareConsumer n => simp [Call.methods]
  have hsub : ∀ r ∈ s.calls, ∀ m ∈ r.rest, m ∈ r.call.methods := by
    refine Lts.run_inv (P := fun s : St N B => ∀ r ∈ s.calls, ∀ m ∈ r.rest, m ∈ r.call.methods) (by simp [init]) ?_ h
    intro a l b ha hs r hr m hm
    rcases calls_step hs r hr with ⟨c, conn, rfl, -⟩ | ⟨r0, h0, h1, -, h2⟩
    · exact hm
    · rw [h1]; exact ha r0 h0 m (h2 m hm)
  have hcalls : ∀ (ls' : List (Label N B)) (s' : St N B), run dec prefetch s ls' = some s' → (∀ c, c ≠ conn → .begin c (.deleteQueue name) ∉ ls') →
      ∀ r ∈ s'.calls, r.conn ≠ conn → Method.queueDelete name ∉ r.rest ∧ Method.exchangeDelete name ∉ r.rest := by
    intro ls' s' h'
    refine Lts.run_induction (P := fun (ls' : List (Label N B)) (s' : St N B) => (∀ c, c ≠ conn → .begin c (.deleteQueue name) ∉ ls') →
      ∀ r ∈ s'.calls, r.conn ≠ conn → Method.queueDelete name ∉ r.rest ∧ Method.exchangeDelete name ∉ r.rest) ?_ ?_ ls' s' h'
    · intro _ r hr hrc
      have := hcall r.call (hp r hr hrc)
      exact ⟨fun hm => this.1 (hsub r hr _ hm), fun hm => this.2 (hsub r hr _ hm)⟩
    · intro ls1 l s1 s2 _ ih hs hd r hr hrc
      have ih := ih fun c hne hm => hd c hne (List.mem_append_left _ hm)
      by_cases hb : ∃ c x, l = .begin c x
      · obtain ⟨c, x, rfl⟩ := hb
        simp only [step, Option.some.injEq] at hs; subst hs
        simp only [List.mem_append, List.mem_singleton] at hr
        rcases hr with hr | rfl
        · exact ih r hr hrc
        · refine hcall x fun e => hd c hrc ?_
          subst e
          exact List.mem_append_right _ (List.mem_singleton.2 rfl)
      · have key : ∃ r0 ∈ s1.calls, r.conn = r0.conn ∧ ∀ m ∈ r.rest, m ∈ r0.rest := by
          cases l with
          | «begin» c x => exact absurd ⟨c, x, rfl⟩ hb
          | exec k =>
            simp only [step] at hs
            split at hs
            · cases hs
            · rename_i r0 hr0
              have hset : ∀ r1 : Running N B, r1.conn = r0.conn → (∀ m ∈ r1.rest, m ∈ r0.rest) → r ∈ s1.calls.set k r1 → ∃ r0 ∈ s1.calls, r.conn = r0.conn ∧ ∀ m ∈ r.rest, m ∈ r0.rest := by
                intro r1 g1 g2 hr
                rcases PubAll.mem_set_cases hr with rfl | hr
                · exact ⟨r0, List.mem_of_getElem? hr0, g1, g2⟩
                · exact ⟨r, hr, rfl, fun _ h => h⟩
              (repeat' split at hs) <;> simp only [Option.some.injEq, reduceCtorEq] at hs <;> subst hs
              · exact hset { r0 with result := some none } rfl (fun _ h => h) hr
              · exact hset { r0 with result := some (some .ok) } rfl (fun _ h => h) hr
              · rename_i hrest _
                exact hset _ (by rfl) (fun _ h => by rw [hrest]; exact List.mem_cons_of_mem _ h) hr
              · exact hset { r0 with result := some (some _) } rfl (fun _ h => h) hr
          | _ =>
            simp only [step, remove] at hs
            (repeat' split at hs) <;> simp only [Option.some.injEq, reduceCtorEq] at hs <;> subst hs <;> exact ⟨r, hr, rfl, fun _ h => h⟩
        obtain ⟨r0, g1, g2, g3⟩ := key
        have := ih r0 g1 (g2 ▸ hrc)
        exact ⟨fun hm => this.1 (g3 _ hm), fun hm => this.2 (g3 _ hm)⟩
  have key : ∀ (ls' : List (Label N B)) (s' : St N B), run dec prefetch s ls' = some s' → (∀ c, c ≠ conn → .begin c (.deleteQueue name) ∉ ls') → .expire i ∉ ls' →
      There s name i → There s' name i ∧ ((s.exchanges.lookup name).isSome → (s'.exchanges.lookup name).isSome) ∧ ((name, i) ∈ s.bindings → (name, i) ∈ s'.bindings) := by
    intro ls' s' h'
    refine Lts.run_induction (P := fun (ls' : List (Label N B)) (s' : St N B) => (∀ c, c ≠ conn → .begin c (.deleteQueue name) ∉ ls') → .expire i ∉ ls' →
      There s name i → There s' name i ∧ ((s.exchanges.lookup name).isSome → (s'.exchanges.lookup name).isSome) ∧ ((name, i) ∈ s.bindings → (name, i) ∈ s'.bindings))
      (fun _ _ h => ⟨h, fun h => h, fun h => h⟩) ?_ ls' s' h'
    intro ls1 l s1 s2 hr1 ih hs hd he ht
    have hd1 : ∀ c, c ≠ conn → .begin c (.deleteQueue name) ∉ ls1 := fun c hne hm => hd c hne (List.mem_append_left _ hm)
    obtain ⟨i1, i2, i3⟩ := ih hd1 (fun hc => he (List.mem_append_left _ hc)) ht
    have k := keeps_step hs (fun e => he (e ▸ List.mem_append_right _ (List.mem_singleton.2 rfl)))
      (fun r hr _ hno => hcalls ls1 s1 hr1 hd1 r hr fun e => hno (e ▸ closed_run hc hr1))
    exact ⟨k.queue i1, fun hx => k.exchange (i2 hx), fun hx => k.binding i1 (i3 hx)⟩
  have hn' := (inv_run (Lts.run_append.2 ⟨s, h, h'⟩)).names
  cases mode with
  | exactlyOnce =>
    obtain ⟨⟨q, k1, k2, k3⟩, -, -⟩ := key ls' s' h' hd he (find_some hr)
    show s'.find name = some i
    cases hf : s'.find name with
    | none => exact absurd k3 (find_none hf i q k1 k2)
    | some j =>
      obtain ⟨p, p1, p2, p3⟩ := find_some hf
      rw [hn'.uniq j i p q p1 k1 p2 k2 (p3.trans k3.symm)]
  | broadcast =>
    obtain ⟨h1, h2⟩ := hr
    obtain ⟨-, k2, k3⟩ := key ls' s' h' hd he ((inv_run h).names.bind name i h2)
    exact ⟨k2 h1, k3 h2⟩

end

/-! ## A case -/
namespace CloseDemo

/-- Process 0 receives from 7 (prefetch 2), process 1 publishes three messages to it; 0 has taken the first and has the second waiting; it begins to publish to 8. -/
def before : List (Label Nat Nat) :=
  [.begin 0 (.declareQueue 7 ChannelType.exactlyOnce.options), .exec 0, .exec 0, .begin 0 (.declareConsumer 7), .exec 1, .exec 1,
   .begin 1 (.publish 7 ChannelType.exactlyOnce.options 40), .exec 2, .exec 2, .begin 1 (.publish 7 ChannelType.exactlyOnce.options 41), .exec 3, .exec 3,
   .begin 1 (.publish 7 ChannelType.exactlyOnce.options 42), .exec 4, .exec 4,
   .deliver 0, .deliver 0, .poll 0, .begin 0 (.publish 7 ChannelType.exactlyOnce.options 43), .lose 0]

/-- After that 0 polls its receiver, its publish and a declaration fail; and 1 consumes from the queue: it gets all three. -/
def after : List (Label Nat Nat) :=
  [.poll 0, .exec 5, .begin 0 (.declareQueue 8 ChannelType.exactlyOnce.options), .exec 6, .requeue 0, .requeue 0, .begin 1 (.declareConsumer 7), .exec 7, .exec 7,
   .deliver 1, .poll 1, .ack 1 0, .deliver 1, .poll 1, .ack 1 1, .deliver 1, .poll 1, .ack 1 2]

example : ∃ s s' : St Nat Nat, run (V := Nat) some 2 init before = some s ∧ 0 ∈ s.closed ∧ (s.consumers.map fun c => (c.conn, c.unacked, c.buffer)) = [(0, [0, 1], [1])] ∧
    s.queues.map (·.ready) = [[2]] ∧ run (V := Nat) some 2 s after = some s' ∧ yieldedBy s 0 = [0] ∧ yieldedBy s' 0 = [0, 1] ∧ yieldedBy s' 1 = [0, 1, 2] ∧ s'.acked = [0, 1, 2] ∧
    (s'.calls.map (·.result)).drop 5 = [some none, some none, some (some .ok)] ∧ s'.queues.length = 1 :=
  ⟨_, _, rfl, by decide +kernel, by decide +kernel, by decide +kernel, rfl, by decide +kernel, by decide +kernel, by decide +kernel, by decide +kernel, by decide +kernel, by decide +kernel⟩

/-- **C84, witness.** What the leader of the example does (examples/hello-world-rabbitmq/leader/src/main.rs): the result stream is dropped, which asks for the release in a task of its own
(channel/queue.rs:186-188), and the runtime is closed before that task has got anywhere. The release fails, nobody sees it, and the queue stays. -/
def late : List (Label Nat Nat) :=
  [.begin 0 (.declareQueue 7 ChannelType.exactlyOnce.options), .exec 0, .exec 0, .begin 0 (.declareConsumer 7), .exec 1, .exec 1, .cancel 0, .begin 0 (.deleteQueue 7), .lose 0, .exec 2]

theorem C84_leak_witness : ∃ s : St Nat Nat, run (V := Nat) some 1 init late = some s ∧ s.calls[2]?.map (fun r => (r.call, r.result)) = some (.deleteQueue 7, some none) ∧ routes s .exactlyOnce 7 0 :=
  ⟨_, rfl, by decide +kernel, by unfold routes; decide +kernel⟩

/-- Hypotheses of `C84_leak`: the same before its last step; process 1 goes on publishing. -/
example : ∃ s s' : St Nat Nat, run (V := Nat) some 1 init (late.take 9) = some s ∧ 0 ∈ s.closed ∧ routes s .exactlyOnce 7 0 ∧ (∀ r ∈ s.calls, r.conn ≠ 0 → r.call ≠ .deleteQueue 7) ∧
    run (V := Nat) some 1 s [.exec 2, .begin 0 (.deleteQueue 7), .exec 3, .begin 1 (.publish 7 ChannelType.exactlyOnce.options 5), .exec 4] = some s' ∧ s'.queues.map (·.ready) = [[0]] :=
  ⟨_, _, rfl, by decide +kernel, by unfold routes; decide +kernel, by decide +kernel, rfl, by decide +kernel⟩

/-- Hypotheses of `C84_released_partial`: the release gets there first. -/
example : ∃ s s' : St Nat Nat, run (V := Nat) some 1 init (late.take 8) = some s ∧ s.calls[2]?.map (fun r => (r.conn, r.rest, r.result)) = some (0, [.queueDelete 7, .exchangeDelete 7], none) ∧ s.closed = [] ∧
    step (V := Nat) some 1 s (.exec 2) = some s' ∧ s'.find 7 = none ∧ s.find 7 = some 0 :=
  ⟨_, _, rfl, by decide +kernel, by decide +kernel, rfl, by decide +kernel, by decide +kernel⟩

/-- Hypotheses of `C84_others`: process 1 consumes from the queue, next to process 0 or after it was closed. -/
def work : List (Label Nat Nat) := [.begin 1 (.declareConsumer 7), .exec 6, .exec 6, .deliver 1, .poll 1, .ack 1 2]

example : ∃ s s' : St Nat Nat, run (V := Nat) some 2 init (before.dropLast) = some s ∧ 0 ∉ s.closed ∧ run (V := Nat) some 2 s work = some s' ∧ s'.acked = [2] := ⟨_, _, rfl, by decide +kernel, rfl, by decide +kernel⟩

example {s : St Nat Nat} (h : run (V := Nat) some 2 init (before.dropLast) = some s) : Foreign (V := Nat) some 2 0 s work := by
  cases Option.some.inj (h.symm.trans (rfl : run (V := Nat) some 2 init (before.dropLast) = some _))
  refine ⟨by decide +kernel, fun _ h => ?_⟩; cases Option.some.inj h
  refine ⟨by decide +kernel, fun _ h => ?_⟩; cases Option.some.inj h
  refine ⟨by decide +kernel, fun _ h => ?_⟩; cases Option.some.inj h
  refine ⟨by decide +kernel, fun _ h => ?_⟩; cases Option.some.inj h
  refine ⟨by decide +kernel, fun _ h => ?_⟩; cases Option.some.inj h
  exact ⟨by decide +kernel, fun _ _ => trivial⟩

end CloseDemo
end Amqp
end Paladin
