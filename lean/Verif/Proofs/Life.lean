import Verif.Spec.Life
import Verif.Proofs.Lts
/-! # Invariants of a worker's loop and what it started -/
namespace Paladin
namespace Life

def fresh : W := ⟨.opening, false, false, false, 0⟩

theorem actsOf_append (w : Nat) (xs ys : List Label) : actsOf w (xs ++ ys) = actsOf w xs ++ actsOf w ys := by simp [actsOf]

/-- What happens to a loop depends on nothing else. -/
theorem project {ls : List Label} {s : St} (h : run init ls = some s) : ∀ w,
    (s.ws[w]? = none → actsOf w ls = []) ∧ ∀ x, s.ws[w]? = some x → Lts.run W.act fresh (actsOf w ls) = some x := by
  refine Lts.run_induction (step := step) (P := fun ls s => ∀ w, (s.ws[w]? = none → actsOf w ls = []) ∧
    ∀ x, s.ws[w]? = some x → Lts.run W.act fresh (actsOf w ls) = some x) ?_ ?_ ls s h
  · intro w; simp [init, actsOf]
  · intro ls l s s' _ ih hs w
    rw [actsOf_append]
    cases l with
    | spawn =>
      simp only [step, Option.some.injEq] at hs
      subst hs
      have e : actsOf w [Label.spawn] = [] := rfl
      rw [e, List.append_nil]
      rcases Nat.lt_trichotomy w s.ws.length with hw | hw | hw
      · simp only [List.getElem?_append_left hw]; exact ih w
      · subst hw
        have h0 := (ih s.ws.length).1 (by simp)
        rw [h0]
        simp only [List.getElem?_append_right (Nat.le_refl _), Nat.sub_self, List.getElem?_cons_zero, reduceCtorEq, false_implies, true_and, Option.some.injEq, Lts.run_nil]
        exact fun x hx => hx
      · have : s.ws[w]? = none := by simp; omega
        refine ⟨fun _ => (ih w).1 this, fun x hx => ?_⟩
        rw [List.getElem?_eq_none (by simp; omega)] at hx
        exact absurd hx (by simp)
    | act v a =>
      simp only [step, Option.bind_eq_bind, Option.bind_eq_some_iff, Option.some.injEq] at hs
      obtain ⟨x, hx, y, hy, rfl⟩ := hs
      by_cases hv : v = w
      · subst hv
        have e : actsOf v [Label.act v a] = [a] := by simp [actsOf]
        have hlt : v < s.ws.length := by
          rcases Nat.lt_or_ge v s.ws.length with h | h
          · exact h
          · rw [List.getElem?_eq_none h] at hx; simp at hx
        rw [e]
        simp only [List.getElem?_set_self hlt, reduceCtorEq, false_implies, true_and, Option.some.injEq]
        rintro z rfl
        exact Lts.run_snoc.2 ⟨x, (ih v).2 x hx, hy⟩
      · have e : actsOf w [Label.act v a] = [] := by simp [actsOf, hv]
        rw [e, List.append_nil]
        simp only [List.getElem?_set_ne hv]
        exact ih w
    | publish c =>
      simp only [step, Option.some.injEq] at hs
      subst hs
      simpa [actsOf] using ih w
    | command v =>
      simp only [step] at hs
      split at hs <;> try simp only [reduceCtorEq] at hs
      split at hs <;> try simp only [reduceCtorEq] at hs
      simp only [Option.some.injEq] at hs
      subst hs
      simpa [actsOf] using ih w

/-- The invariant of one loop. -/
structure Inv (as : List Act) (x : W) : Prop where
  ended : (as.filter Act.ends).length = if x.phase = .ended then 1 else 0
  opening : x.phase = .opening → .opened ∉ as ∧ .cmdOpened ∉ as
  half : x.phase = .half → .cmdOpened ∉ as ∧ .opened ∈ as
  late : x.phase ≠ .opening → x.phase ≠ .half → x.phase ≠ .ended → .cmdOpened ∈ as ∧ .opened ∈ as
  reaper : x.reaper = true ↔ .opened ∈ as ∧ ∀ a ∈ as, a.normal = false
  handler : x.handler = true ↔ .cmdOpened ∈ as ∧ (∀ a ∈ as, a.normal = false) ∧ .handlerEnd ∉ as
  hend : .handlerEnd ∈ as → .cmdOpened ∈ as
  co : .cmdOpened ∈ as → .opened ∈ as
  stray : 0 < x.stray → .interrupt ∈ as ∨ x.phase = .ended ∧ ∀ a ∈ as, a.normal = false
  ops : x.stray + (if x.phase = .executing true then 1 else 0) + (as.count .opReturn + as.count .opEnd) = as.count .opStart

theorem inv_run {as : List Act} {x : W} (h : Lts.run W.act fresh as = some x) : Inv as x := by
  refine Lts.run_induction (P := Inv) ?_ ?_ as x h
  · constructor <;> simp [fresh]
  · intro as a x y _ hi hs
    have hnorm : x.phase ≠ .ended → ∀ b ∈ as, b.normal = false := by
      intro hne b hb
      have h0 := hi.ended
      rw [if_neg hne, List.length_eq_zero_iff, List.filter_eq_nil_iff] at h0
      have := h0 b hb
      cases b <;> simp_all [Act.ends, Act.normal]
    obtain ⟨h1, h2, h3, h4, h5, h6, h6', h6'', h8, h7⟩ := hi
    obtain ⟨ph, ab, re, ha, st⟩ := x
    generalize e1 : Act.ends a = b1
    generalize e2 : Act.normal a = b2
    cases a <;> simp only [W.act] at hs <;> (try split at hs) <;> first
      | (simp only [reduceCtorEq] at hs; done)
      | (simp only [Option.some.injEq] at hs
         subst hs
         have e1' := e1
         have e2' := e2
         simp only [Act.ends] at e1'
         simp only [Act.normal] at e2'
         subst e1' e2'
         simp only at *
         subst_vars
         constructor <;> simp_all [W.gone, W.finished, List.filter_cons, or_imp, forall_and] <;> first | omega | (split at h8 <;> simp_all <;> done) | (split at h7 <;> simp_all <;> omega))

/-- An ended loop stays ended. -/
theorem ended_final {x y : W} {as : List Act} (h : Lts.run W.act x as = some y) (hx : x.phase = .ended) : y.phase = .ended ∧ .interrupt ∉ as := by
  induction as generalizing x with
  | nil => cases h; exact ⟨hx, by simp⟩
  | cons a as ih =>
    obtain ⟨z, hz, h⟩ := Lts.run_cons.1 h
    have : z.phase = .ended ∧ a ≠ .interrupt := by
      cases a <;> simp only [W.act, hx] at hz <;> (try split at hz) <;> simp_all <;> (subst hz; simp_all)
    obtain ⟨h1, h2⟩ := ih h this.1
    exact ⟨h1, by simp [h2, Ne.symm this.2]⟩

end Life
end Paladin
