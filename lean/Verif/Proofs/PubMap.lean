import Verif.Model.MapS
import Verif.Spec.MapTrace
import Verif.Spec.PubMap
import Verif.Proofs.PubAll
import Verif.Proofs.MapS
/-! # The sending side of a map is `publish_all`: proofs -/
namespace Paladin
namespace PubAll

variable {α β ε ω : Type} {op : ω → α → Except ε β}

/-- The item of a publish that has not handed over its message. -/
def unsent (items : List (Nat × α)) (f : Fut ε) : Option (Nat × α) := if f.sent then none else items[f.idx]?

/-- The state of the map's sending side that belongs to a state of `publish_all`. -/
structure Sends (s : St (Nat × α) ε) (m : MapS.St α β ε) : Prop where
  infl : m.inflight = s.futs.filterMap (unsent s.items)
  unc : m.unconf = s.futs.countP (·.sent)
  tasks : m.tasks = s.sent.filterMap (s.items[·]?)
  ended : m.ended = false
  done : m.sendDone = decide (s.pc = .returned)
  rets : s.pc ≠ .returned → s.ret = none
  outs : m.outs = forwarded s.ret
  closed : m.closed = s.ret.isSome

/-- The future is dropped. -/
def dropped : Label α ε → Bool
  | .drop => true
  | _ => false

theorem takeAt_mid {γ : Type} (a b : List γ) (x : γ) : Fold.takeAt (a ++ x :: b) a.length = some (x, a ++ b) := by
  simp [Fold.takeAt, List.eraseIdx_append_of_length_le]

theorem split_at {γ : Type} {l : List γ} {k : Nat} {x : γ} (h : l[k]? = some x) : ∃ a b, l = a ++ x :: b ∧ a.length = k := by
  obtain ⟨hk, rfl⟩ := List.getElem?_eq_some_iff.1 h
  exact ⟨l.take k, l.drop (k + 1), by simp, by simp; omega⟩

theorem grow_items (hi : Inv s) (a : Nat × α) : s.futs.filterMap (unsent (ε := ε) (s.items ++ [a])) = s.futs.filterMap (unsent s.items) ∧
    s.sent.filterMap ((s.items ++ [a])[·]?) = s.sent.filterMap (s.items[·]?) := by
  constructor
  · apply List.filterMap_congr
    intro f hf
    unfold unsent
    rw [List.getElem?_append_left (hi.bound f hf)]
  · apply List.filterMap_congr
    intro i hm
    exact List.getElem?_append_left (hi.boundS i hm)

theorem lens (items : List (Nat × α)) (fs : List (Fut ε)) : (fs.filterMap (unsent items)).length + fs.countP (·.sent) ≤ fs.length := by
  induction fs with
  | nil => simp
  | cons f fs ih =>
    have hf : (∃ a, unsent items f = some a ∧ f.sent = false) ∨ unsent items f = none := by
      unfold unsent
      cases f.sent with
      | true => simp
      | false => cases items[f.idx]? <;> simp
    simp only [List.filterMap_cons, List.countP_cons, List.length_cons]
    rcases hf with ⟨a, h1, h2⟩ | h1
    · simp only [h1, h2, List.length_cons, Bool.false_eq_true, if_false]; omega
    · simp only [h1]; split <;> omega

theorem run_single {m m' : MapS.St α β ε} {l : MapS.Label α ε ω} (h : MapS.step op m l = some m') : MapS.run op m [l] = some m' := by simp [MapS.run, h]

theorem sends_step {s s' : St (Nat × α) ε} {l : Label (Nat × α) ε} {m : MapS.St α β ε} (hi : Inv s) (hs : Sends s m) (hd : dropped l = false) (h : step (some MapS.limit) s l = some s') :
    ∃ ms m', MapS.run op m ms = some m' ∧ Sends s' m' ∧ s'.items = s.items ++ MapS.inputs ms ∧ (∀ l ∈ ms, sending l = true) ∧ ∀ k, .send k ∈ ms → k < s.futs.length := by
  obtain ⟨h1, h2, h3, h4, h5, h6, h7, h8⟩ := hs
  cases l <;> simp only [step] at h
  case answer a =>
    split at h <;> simp only [Option.some.injEq, reduceCtorEq] at h
    subst h
    exact ⟨[], m, rfl, ⟨h1, h2, h3, h4, h5, h6, h7, h8⟩, by simp [MapS.inputs], by simp [sending], by simp⟩
  case send k =>
    split at h <;> try simp only [reduceCtorEq] at h
    rename_i f hf
    split at h <;> simp only [Option.some.injEq, reduceCtorEq] at h
    rename_i hc
    subst h
    simp only [Bool.or_eq_true, not_or, Bool.not_eq_true] at hc
    obtain ⟨a, b, hab, hlen⟩ := split_at hf
    have hidx := hi.bound f (hab ▸ by simp)
    have hun : unsent s.items f = some s.items[f.idx] := by simp [unsent, hc.1]
    rw [hab, List.filterMap_append, List.filterMap_cons, hun] at h1
    simp only at h1
    have hst : MapS.step op m (.send (a.filterMap (unsent s.items)).length) = some { m with inflight := a.filterMap (unsent s.items) ++ b.filterMap (unsent s.items), unconf := m.unconf + 1, tasks := m.tasks ++ [s.items[f.idx]] } := by
      simp only [MapS.step, h4, h1, takeAt_mid]
      rfl
    refine ⟨[.send (a.filterMap (unsent s.items)).length], _, run_single hst, ⟨?_, ?_, ?_, h4, h5, h6, h7, h8⟩, by simp [MapS.inputs], by simp [sending], ?_⟩
    · simp only [hab, ← hlen, List.set_append_right _ _ (Nat.le_refl _), Nat.sub_self, List.set_cons_zero, List.filterMap_append, List.filterMap_cons]
      rfl
    · simp only [hab, ← hlen, List.set_append_right _ _ (Nat.le_refl _), Nat.sub_self, List.set_cons_zero, List.countP_append, List.countP_cons, h2, hc.1]
      simp; omega
    · simp [h3, List.filterMap_append, List.getElem?_eq_getElem hidx]
    · intro k' hk'
      simp only [List.mem_singleton, MapS.Label.send.injEq] at hk'
      subst hk'
      have := List.length_filterMap_le (unsent s.items) a
      rw [hab]; simp; omega
  case resolve k r =>
    split at h <;> try simp only [reduceCtorEq] at h
    rename_i f hf
    split at h <;> simp only [Option.some.injEq, reduceCtorEq] at h
    subst h
    obtain ⟨a, b, hab, hlen⟩ := split_at hf
    refine ⟨[], m, rfl, ⟨?_, ?_, h3, h4, h5, h6, h7, h8⟩, by simp [MapS.inputs], by simp [sending], by simp⟩
    · simp only [h1, hab, ← hlen, List.set_append_right _ _ (Nat.le_refl _), Nat.sub_self, List.set_cons_zero, List.filterMap_append, List.filterMap_cons]
      rfl
    · simp only [h2, hab, ← hlen, List.set_append_right _ _ (Nat.le_refl _), Nat.sub_self, List.set_cons_zero, List.countP_append, List.countP_cons]
  case poll =>
    split at h <;> simp only [Option.some.injEq, reduceCtorEq] at h
    rename_i hpc
    subst h
    exact ⟨[], m, rfl, ⟨h1, h2, h3, h4, by rw [h5, hpc]; rfl, fun _ => h6 (by simp [hpc]), h7, h8⟩, by simp [MapS.inputs], by simp [sending], by simp⟩
  case stream =>
    split at h <;> try simp only [reduceCtorEq] at h
    rename_i hpc
    rw [hpc] at h5
    have hr : s.ret = none := h6 (by simp [hpc])
    have h5 : m.sendDone = false := h5
    have quiet : ∀ {p o r k}, ∃ (ms : List (MapS.Label α ε ω)) (m' : MapS.St α β ε), MapS.run op m ms = some m' ∧ Sends { s with pc := .futures p, opened := o, ready := r, parked := k } m' ∧ s.items = s.items ++ MapS.inputs ms ∧ (∀ l ∈ ms, sending l = true) ∧ ∀ k, .send k ∈ ms → k < s.futs.length := fun {p o r k} =>
      ⟨[], m, rfl, ⟨h1, h2, h3, h4, h5, fun _ => hr, h7, h8⟩, by simp [MapS.inputs], by simp [sending], by simp⟩
    split at h
    · rename_i hroom
      split at h
      · split at h <;> simp only [Option.some.injEq] at h <;> subst h
        · rename_i a _
          obtain ⟨g1, g2⟩ := grow_items hi a
          have hlim : decide (m.inflight.length + m.unconf < MapS.limit) = true := by
            have := lens s.items s.futs
            rw [← h1] at this
            have hr : s.futs.length < MapS.limit := of_decide_eq_true hroom
            refine decide_eq_true ?_
            rw [h2]
            exact Nat.lt_of_le_of_lt this hr
          have hst : MapS.step op m (.item a.1 a.2) = some { m with inflight := m.inflight ++ [a], pending := m.pending + 1 } := by
            simp [MapS.step, h4, h5, hlim]
          refine ⟨[.item a.1 a.2], _, run_single hst, ⟨?_, ?_, by rw [g2]; exact h3, h4, h5, fun _ => hr, h7, h8⟩, by simp [MapS.inputs], by simp [sending], by simp⟩
          · rw [List.filterMap_append, g1, ← h1]
            simp [unsent]
          · simp [h2]
        · rename_i e _
          have hst : MapS.step op m (.inputErr e) = some (MapS.sendFail m e) := by simp [MapS.step, h4, h5]
          exact ⟨[.inputErr e], _, run_single hst, ⟨rfl, rfl, h3, h4, rfl, by simp, by simp [MapS.sendFail, h7, hr, forwarded], rfl⟩, by simp [MapS.inputs], by simp [sending], by simp⟩
        · exact quiet
        · exact quiet
      · simp only [Option.some.injEq] at h
        subst h
        exact quiet
    · simp only [Option.some.injEq] at h
      subst h
      exact quiet
  case fut k =>
    split at h <;> try simp only [reduceCtorEq] at h
    rename_i p f hpc hf
    rw [hpc] at h5
    have hr : s.ret = none := h6 (by simp [hpc])
    have h5 : m.sendDone = false := h5
    obtain ⟨a, b, hab, hlen⟩ := split_at hf
    split at h <;> simp only [Option.some.injEq, reduceCtorEq] at h <;> subst h
    · rename_i u hres
      have hsent := hi.good f (hab ▸ by simp) _ hres
      have hpos : 0 < m.unconf := by rw [h2]; exact List.countP_pos_iff.2 ⟨f, hab ▸ by simp, hsent⟩
      have hst : MapS.step op m .confirm = some { m with unconf := m.unconf - 1 } := by simp [MapS.step, h4, hpos]
      have her : s.futs.eraseIdx k = a ++ b := by rw [hab, ← hlen, List.eraseIdx_append_of_length_le (Nat.le_refl _)]; simp
      refine ⟨[.confirm], _, run_single hst, ⟨?_, ?_, h3, h4, h5, fun _ => hr, h7, h8⟩, by simp [MapS.inputs], by simp [sending], by simp⟩
      · have hun : unsent s.items f = none := by simp [unsent, hsent]
        show m.inflight = (s.futs.eraseIdx k).filterMap (unsent s.items)
        rw [her, h1, hab, List.filterMap_append, List.filterMap_cons, hun, List.filterMap_append]
      · show m.unconf - 1 = (s.futs.eraseIdx k).countP (·.sent)
        rw [her, h2, hab, List.countP_append, List.countP_cons, List.countP_append, if_pos hsent]
        omega
    · rename_i e hres
      by_cases hsent : f.sent = true
      · have hpos : 0 < m.unconf := by rw [h2]; exact List.countP_pos_iff.2 ⟨f, hab ▸ by simp, hsent⟩
        have hst : MapS.step op m (.confirmErr e) = some (MapS.sendFail m e) := by simp [MapS.step, h4, hpos]
        exact ⟨[.confirmErr e], _, run_single hst, ⟨rfl, rfl, h3, h4, rfl, by simp, by simp [MapS.sendFail, h7, hr, forwarded], rfl⟩, by simp [MapS.inputs], by simp [sending], by simp⟩
      · have hidx := hi.bound f (hab ▸ by simp)
        have hun : unsent s.items f = some s.items[f.idx] := by simp [unsent, hsent]
        rw [hab, List.filterMap_append, List.filterMap_cons, hun] at h1
        simp only at h1
        have hst : MapS.step op m (.publishErr (a.filterMap (unsent s.items)).length e) = some (MapS.sendFail m e) := by
          simp only [MapS.step, h4, h1, takeAt_mid]
          rfl
        exact ⟨[.publishErr _ e], _, run_single hst, ⟨rfl, rfl, h3, h4, rfl, by simp, by simp [MapS.sendFail, h7, hr, forwarded], rfl⟩, by simp [MapS.inputs], by simp [sending], by simp⟩
  case futNone =>
    split at h <;> try simp only [reduceCtorEq] at h
    rename_i p hpc
    rw [hpc] at h5
    have hr : s.ret = none := h6 (by simp [hpc])
    have h5 : m.sendDone = false := h5
    split at h <;> try simp only [reduceCtorEq] at h
    rename_i hem
    have he : s.futs = [] := by simpa using hem
    split at h <;> simp only [Option.some.injEq] at h <;> subst h
    · exact ⟨[], m, rfl, ⟨h1, h2, h3, h4, by rw [h5]; cases p <;> rfl, fun _ => hr, h7, h8⟩, by simp [MapS.inputs, again], by simp [sending], by simp⟩
    · rw [he] at h1 h2
      have hst : MapS.step op m .inputEnd = some { m with closed := true, sendDone := true } := by
        simp at h1 h2
        simp [MapS.step, h4, h5, h1, h2]
      exact ⟨[.inputEnd], _, run_single hst, ⟨by rw [he]; exact h1, by rw [he]; exact h2, h3, h4, rfl, by simp, by simp [h7, hr, forwarded], rfl⟩, by simp [MapS.inputs], by simp [sending], by simp⟩
  case futPending =>
    split at h <;> try simp only [reduceCtorEq] at h
    rename_i p hpc
    rw [hpc] at h5
    have hr : s.ret = none := h6 (by simp [hpc])
    split at h <;> simp only [Option.some.injEq, reduceCtorEq] at h
    subst h
    exact ⟨[], m, rfl, ⟨h1, h2, h3, h4, by rw [h5]; cases p <;> rfl, fun _ => hr, h7, h8⟩, by simp [MapS.inputs, again], by simp [sending], by simp⟩
  case futYield =>
    split at h <;> try simp only [reduceCtorEq] at h
    rename_i p hpc
    rw [hpc] at h5
    have hr : s.ret = none := h6 (by simp [hpc])
    split at h <;> simp only [Option.some.injEq, reduceCtorEq] at h
    subst h
    exact ⟨[], m, rfl, ⟨h1, h2, h3, h4, by rw [h5]; cases p <;> rfl, fun _ => hr, h7, h8⟩, by simp [MapS.inputs, again], by simp [sending], by simp⟩
  case drop => simp [dropped] at hd

end PubAll
end Paladin
