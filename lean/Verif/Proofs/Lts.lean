import Verif.Model.Lts
/-! # Lemmas about executions -/
namespace Paladin
namespace Lts
variable {step : σ → ℓ → Option σ}

@[simp] theorem run_nil (s : σ) : run step s [] = some s := rfl

theorem run_cons {s s' : σ} {l : ℓ} {ls : List ℓ} : run step s (l :: ls) = some s' ↔ ∃ s1, step s l = some s1 ∧ run step s1 ls = some s' := by
  simp [run, Option.bind_eq_some_iff]

theorem run_append {s s' : σ} {xs ys : List ℓ} : run step s (xs ++ ys) = some s' ↔ ∃ s1, run step s xs = some s1 ∧ run step s1 ys = some s' := by
  induction xs generalizing s with
  | nil => simp
  | cons x xs ih =>
    simp only [List.cons_append, run_cons, ih]
    constructor
    · rintro ⟨s1, h1, s2, h2, h3⟩; exact ⟨s2, ⟨s1, h1, h2⟩, h3⟩
    · rintro ⟨s2, ⟨s1, h1, h2⟩, h3⟩; exact ⟨s1, h1, s2, h2, h3⟩

theorem run_one {s s' : σ} {l : ℓ} : run step s [l] = some s' ↔ step s l = some s' := by simp [run_cons]

theorem run_snoc {s s' : σ} {xs : List ℓ} {l : ℓ} : run step s (xs ++ [l]) = some s' ↔ ∃ s1, run step s xs = some s1 ∧ step s1 l = some s' := by
  simp [run_append, run_one]

theorem run_induction {P : List ℓ → σ → Prop} {s0 : σ} (h0 : P [] s0)
    (hstep : ∀ ls l s s', run step s0 ls = some s → P ls s → step s l = some s' → P (ls ++ [l]) s') :
    ∀ ls s, run step s0 ls = some s → P ls s := by
  intro ls
  obtain ⟨n, hn⟩ : ∃ n, ls.length = n := ⟨_, rfl⟩
  induction n generalizing ls with
  | zero =>
    intro s h
    have : ls = [] := List.eq_nil_of_length_eq_zero hn
    subst this; simp [run] at h; subst h; exact h0
  | succ n ih =>
    intro s h
    have hne : ls ≠ [] := by rintro rfl; simp at hn
    obtain ⟨ls', l, rfl⟩ : ∃ ls' l, ls = ls' ++ [l] := ⟨_, _, (List.dropLast_concat_getLast hne).symm⟩
    obtain ⟨s1, h1, h2⟩ := run_snoc.1 h
    exact hstep ls' l s1 s h1 (ih ls' (by simp at hn; omega) s1 h1) h2

/-- An invariant holds after every execution. -/
theorem run_inv {P : σ → Prop} {s0 s : σ} {ls : List ℓ} (h0 : P s0) (hstep : ∀ s l s', P s → step s l = some s' → P s') (h : run step s0 ls = some s) : P s :=
  run_induction (P := fun _ s => P s) h0 (fun _ l s s' _ ih hs => hstep s l s' ih hs) ls s h

/-- A relation that every step keeps, reflexive and transitive, holds between the ends of an execution. -/
theorem run_rel {R : σ → σ → Prop} (hr : ∀ s, R s s) (ht : ∀ a b c, R a b → R b c → R a c) (hstep : ∀ s l s', step s l = some s' → R s s')
    {s s' : σ} {ls : List ℓ} (h : run step s ls = some s') : R s s' := by
  induction ls generalizing s with
  | nil => simp at h; subst h; exact hr s
  | cons l ls ih =>
    obtain ⟨s1, h1, h2⟩ := run_cons.1 h
    exact ht _ _ _ (hstep _ _ _ h1) (ih h2)

end Lts
end Paladin
