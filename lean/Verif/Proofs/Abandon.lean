import Verif.Spec.Abandon
import Verif.Proofs.SystemEnds
/-! # Lemmas about a job that is given up -/
namespace Paladin
namespace System
open Retry

section
variable {κ : Type} {σ ℓ : κ → Type} {T O ε χ ω : Type} [DecidableEq κ] {cl : (j : κ) → Client (σ j) (ℓ j) T (Except ε O)} {cfg : Worker.Cfg κ} {exec : ω → T → Except (OpError χ) O}
  {text : OpError χ → ε}

/-- Deliveries of job `j` that were not returned. -/
def kept (j : κ) (dels : List (Del κ T)) : List T := (dels.filter fun d => d.msg.key = j ∧ d.fate ≠ .returned).map (·.msg.task)

def waits (j : κ) (q : List (Msg κ T)) : List T := (q.filter fun m => m.key = j).map (·.task)

theorem owned_eq (j : κ) (s : St κ σ T O ε χ) : owned j s = waits j s.queue ++ kept j s.dels := rfl

theorem kept_modify (j : κ) (dels : List (Del κ T)) (n : Nat) (f : Del κ T → Del κ T) (h1 : ∀ d, (f d).msg = d.msg) (h2 : ∀ d, (f d).fate = .returned ↔ d.fate = .returned) :
    kept j (dels.modify n f) = kept j dels := by
  induction dels generalizing n with
  | nil => simp [kept]
  | cons d r ih =>
    cases n with
    | zero =>
      simp only [kept, List.modify_zero_cons, List.filter_cons, h1, ne_eq, h2]
      split <;> simp [h1]
    | succ n =>
      have := ih n
      simp only [kept, List.modify_succ_cons, List.filter_cons] at this ⊢
      split
      · rw [List.map_cons, List.map_cons, this]
      · exact this

theorem kept_settle (j : κ) (dels : List (Del κ T)) (n : Nat) : kept j (settle dels n) = kept j dels :=
  kept_modify j dels n _ (fun _ => rfl) fun d => by cases h : d.fate <;> simp [Fate.settle, h]

theorem kept_answer (j : κ) (dels : List (Del κ T)) (n : Nat) : kept j (answer dels n) = kept j dels := kept_modify j dels n _ (fun _ => rfl) fun _ => Iff.rfl

theorem kept_giveBack (j : κ) (dels : List (Del κ T)) (n : Nat) (d : Del κ T) (hd : dels[n]? = some d) (hf : d.fate = .held) :
    (kept j dels).Perm ((if d.msg.key = j then [d.msg.task] else []) ++ kept j (giveBack dels n)) := by
  induction dels generalizing n with
  | nil => simp at hd
  | cons e r ih =>
    cases n with
    | zero =>
      simp only [List.getElem?_cons_zero, Option.some.injEq] at hd
      subst hd
      by_cases hk : e.msg.key = j <;> simp [kept, giveBack, List.filter_cons, hk, hf]
    | succ n =>
      have := ih n (by simpa using hd)
      simp only [kept, giveBack, List.modify_succ_cons, List.filter_cons] at this ⊢
      split
      · simp only [List.map_cons]
        exact (this.cons _).trans List.perm_middle.symm
      · exact this

theorem waits_append (j : κ) (a b : List (Msg κ T)) : waits j (a ++ b) = waits j a ++ waits j b := by simp [waits]

theorem waits_cons (j : κ) (m : Msg κ T) (b : List (Msg κ T)) : waits j (m :: b) = (if m.key = j then [m.task] else []) ++ waits j b := by
  by_cases h : m.key = j <;> simp [waits, List.filter_cons, h]

theorem waits_own (i j : κ) (ts : List T) : waits j (ts.map fun t => (⟨i, t⟩ : Msg κ T)) = if i = j then ts else [] := by
  by_cases h : i = j <;> simp [waits, List.filter_map, Function.comp_def, h]

/-- What a step does to the tasks of a job. -/
theorem owned_step {s s' : St κ σ T O ε χ} {l : Label κ ℓ O χ ω} (hi : Inv exec s) (h : step cl cfg exec text s l = some s') (j : κ) :
    (∃ x y ts rs, l = .lead j x ∧ (cl j).step (s.lead j) x (s.results j) = some (y, ts, rs) ∧ (owned j s').Perm (owned j s ++ ts)) ∨ ((∀ x, l ≠ .lead j x) ∧ (owned j s').Perm (owned j s)) := by
  have e := eff_of_step hi h
  cases e with
  | lead i l x ts rs hc =>
    by_cases hj : i = j
    · subst hj
      refine .inl ⟨l, x, ts, rs, rfl, hc, ?_⟩
      simp only [owned_eq, waits_append, waits_own, if_true, List.append_assoc]
      exact List.Perm.append_left _ List.perm_append_comm
    · refine .inr ⟨fun y hy => hj (by cases hy; rfl), ?_⟩
      simp only [owned_eq, waits_append, waits_own, if_neg hj, List.append_nil]
      exact List.Perm.refl _
  | deliver w k m a b i v hq hpc hv =>
    refine .inr ⟨by simp, ?_⟩
    simp only [owned_eq, hq, waits_append, waits_cons]
    have : kept j (s.dels ++ [⟨w, m, .held, false⟩]) = kept j s.dels ++ (if m.key = j then [m.task] else []) := by
      by_cases h : m.key = j <;> simp [kept, List.filter_append, h]
    rw [this]
    generalize (if m.key = j then [m.task] else []) = x
    simp only [List.append_assoc]
    refine List.Perm.append_left _ ?_
    rw [← List.append_assoc]
    exact List.perm_append_comm
  | finish w x d i k n v h1 h2 h3 => exact .inr ⟨by simp, List.Perm.refl _⟩
  | quiet w l v b h1 h2 h3 =>
    refine .inr ⟨by simp, ?_⟩
    simp only [owned_eq]
    cases b
    · exact List.Perm.refl _
    · simp only [if_true, kept_settle]; exact List.Perm.refl _
  | answer w l v d r =>
    refine .inr ⟨by simp, ?_⟩
    simp only [owned_eq, kept_answer]; exact List.Perm.refl _
  | requeue n d hd hf =>
    refine .inr ⟨by simp, ?_⟩
    simp only [owned_eq, waits_cons]
    refine List.Perm.trans ?_ (List.Perm.append_left _ (kept_giveBack j s.dels n d hd hf).symm)
    rw [← List.append_assoc]
    exact List.Perm.append_right _ List.perm_append_comm

theorem inv_from {s s' : St κ σ T O ε χ} {ls : List (Label κ ℓ O χ ω)} (hi : Inv exec s) (h : run cl cfg exec text s ls = some s') : Inv exec s' :=
  Lts.run_inv (P := Inv exec) hi (fun _ _ _ hi hs => inv_eff hi (eff_of_step hi hs)) h

theorem owned_run {s s' : St κ σ T O ε χ} {ls : List (Label κ ℓ O χ ω)} {j : κ} (hi : Inv exec s) (h : run cl cfg exec text s ls = some s') (hg : GivenUp j ls) :
    (owned j s').Perm (owned j s) := by
  induction ls generalizing s with
  | nil => cases h; exact List.Perm.refl _
  | cons l ls ih =>
    obtain ⟨s1, h1, h2⟩ := Lts.run_cons.1 h
    refine (ih (inv_eff hi (eff_of_step hi h1)) h2 fun x hx => hg x (List.mem_cons_of_mem _ hx)).trans ?_
    rcases owned_step hi h1 j with ⟨x, _, _, _, rfl, _⟩ | ⟨_, hp⟩
    · exact (hg x (by simp)).elim
    · exact hp

/-- Workers without new tasks come to rest. -/
theorem settles_down (W : Finset Nat) (s : St κ σ T O ε χ) : ∃ ls s', run cl cfg exec text s ls = some s' ∧ (∀ l ∈ ls, l.serves (fun w => decide (w ∈ W)) = true) ∧
    ∀ l : Label κ ℓ O χ ω, l.serves (fun w => decide (w ∈ W)) = true → step cl cfg exec text s' l = none := by
  generalize hn : total W ∅ (fun _ _ => 0) s = n
  induction n using Nat.strong_induction_on generalizing s with
  | _ n ih =>
    by_cases hs : ∀ l : Label κ ℓ O χ ω, l.serves (fun w => decide (w ∈ W)) = true → step cl cfg exec text s l = none
    · exact ⟨[], s, rfl, by simp, hs⟩
    · simp only [not_forall] at hs
      obtain ⟨l, hl, h⟩ := hs
      obtain ⟨s1, h1⟩ := Option.ne_none_iff_exists'.1 h
      have hlt := total_step (W := W) (K := ∅) (f := fun _ _ => 0) (int := fun _ _ => false) (fun j => by intro _ _ _ _ _ _ h; simp at h) (fun _ _ h => by simp at h) h1 (by
        cases l <;> simp_all [Label.moves, Label.serves])
      obtain ⟨ls, s', e1, e2, e3⟩ := ih _ (by omega) s1 rfl
      exact ⟨l :: ls, s', Lts.run_cons.2 ⟨s1, h1, e1⟩, fun x hx => by rcases List.mem_cons.1 hx with rfl | hx; exacts [hl, e2 x hx], e3⟩

end
end System
end Paladin
