import Verif.Proofs.FoldSafe
import Verif.Proofs.FoldTree
/-!
# Properties C05, C06, C10, C11: what a successful fold returns

Vocabulary: `Tree`, `indexed`, `seqFold`, `Assoc` (Verif/Spec/Fold.lean) and `inputs`, `Returns` (Verif/Spec/FoldTrace.lean).
-/
namespace Paladin
namespace Fold

variable {comb : ω → α → α → Except ε α} {empty : α} {dupErr : ε}

/-- **C05, C10, C11.** In every execution — any arrival order, any worker order, any interleaving, with messages lost or delivered
several times, with any indices at all — if fold returns `Ok(v)` then either there was no input and `v = empty()`,
or the items received form one contiguous block of indices, each exactly once, and `v` is a tree of combines
over them in index order. -/
theorem C05_fold_ok (ls : List (Label α ε ω)) (s : St α ε) (v : α)
    (h : run comb empty dupErr init ls = some s) (hv : s.outcome = some (.ok v)) :
    (inputs ls = [] ∧ v = empty) ∨
    ∃ start xs, (inputs ls).Perm (indexed start xs) ∧ Tree (Returns comb) xs v := by
  have hs := (safe_run ls s h).1
  rcases hs.out v hv with h1 | h1
  · exact .inl h1
  · obtain ⟨st, xs, hp, ht, _⟩ := h1.block
    exact .inr ⟨st, xs, hp, ht⟩

/-- **C05.** For a stream whose items are `xs` numbered from `start` (in any arrival order) an `Ok` value is a tree of
combines over exactly `xs`, in order. -/
theorem C05_fold_in_order (ls : List (Label α ε ω)) (s : St α ε) (v : α) (start : Nat) (xs : List α)
    (h : run comb empty dupErr init ls = some s) (hv : s.outcome = some (.ok v))
    (hin : (inputs ls).Perm (indexed start xs)) (hne : xs ≠ []) : Tree (Returns comb) xs v := by
  rcases C05_fold_ok ls s v h hv with ⟨h1, _⟩ | ⟨st, ys, hp, ht⟩
  · rw [h1] at hin
    have := hin.length_eq
    rw [length_indexed] at this
    simp at this
    exact absurd (List.eq_nil_of_length_eq_zero this.symm) hne
  · have := (indexed_perm_eq (hin.symm.trans hp)).1
    rw [this]; exact ht

/-- **C06, non-empty input.** If every successful combine of `a` and `b` returns `f a b` and `f` is associative (it may fail and need not
commute), an `Ok` value is the left-to-right fold of the inputs. -/
theorem C06_fold_eq_sequential (f : α → α → Option α) (hassoc : Assoc f)
    (hcomb : ∀ w a b c, comb w a b = .ok c → f a b = some c)
    (ls : List (Label α ε ω)) (s : St α ε) (v : α) (start : Nat) (x : α) (xs : List α)
    (h : run comb empty dupErr init ls = some s) (hv : s.outcome = some (.ok v))
    (hin : (inputs ls).Perm (indexed start (x :: xs))) : seqFold f x xs = some v := by
  have ht := C05_fold_in_order ls s v start (x :: xs) h hv hin (by simp)
  have ht' := ht.mono (S := fun a b c => f a b = some c) (fun a b c ⟨w, hw⟩ => hcomb w a b c hw)
  obtain ⟨y, ys, he, hf⟩ := ht'.seqFold hassoc
  simp at he; obtain ⟨rfl, rfl⟩ := he
  exact hf

/-- **C06, monoid form.** For a monoid `(g, empty)`, on any input block including the empty one, an `Ok` value is
`xs.foldl g empty`. -/
theorem C06_fold_monoid (g : α → α → α) (hassoc : ∀ a b c, g (g a b) c = g a (g b c)) (hid : ∀ a, g empty a = a)
    (hcomb : ∀ w a b c, comb w a b = .ok c → c = g a b)
    (ls : List (Label α ε ω)) (s : St α ε) (v : α) (start : Nat) (xs : List α)
    (h : run comb empty dupErr init ls = some s) (hv : s.outcome = some (.ok v))
    (hin : (inputs ls).Perm (indexed start xs)) : v = xs.foldl g empty := by
  cases xs with
  | nil =>
    rcases C05_fold_ok ls s v h hv with ⟨_, h1⟩ | ⟨st, ys, hp, ht⟩
    · simpa using h1
    · have := (indexed_perm_eq (hin.symm.trans hp)).1
      subst this; exact absurd rfl ht.ne_nil
  | cons x xs =>
    have := C06_fold_eq_sequential (fun a b => some (g a b)) (by intro a b c; simp [hassoc])
      (fun w a b c hw => by simp [hcomb w a b c hw]) ls s v start x xs h hv hin
    rw [seqFold_total] at this
    simp at this
    simp [hid, this]

/-- **C10.** If the indices received do not form a contiguous block (a gap or a repeated index), fold never returns `Ok`. -/
theorem C10_gap_never_ok (ls : List (Label α ε ω)) (s : St α ε) (v : α)
    (h : run comb empty dupErr init ls = some s)
    (hgap : ∀ start xs, ¬ (inputs ls).Perm (indexed start xs)) : s.outcome ≠ some (.ok v) := by
  intro hv
  rcases C05_fold_ok ls s v h hv with ⟨h1, _⟩ | ⟨st, ys, hp, _⟩
  · exact hgap 0 [] (by rw [h1]; exact .refl _)
  · exact hgap st ys hp

/-! ## Concrete executions -/

/-- Concatenation of strings as combine; any circumstances give the same result. -/
def catComb : Unit → String → String → Except String String := fun _ a b => .ok (a ++ b)

/-- Three items arriving out of order, with a duplicated task, folded to `"abc"`. -/
def demoLabels : List (Label String String Unit) :=
  [.item 2 "c", .item 0 "a", .item 1 "b", .publish 0, .dupTask 0, .exec 0 (), .inputEnd, .recv 0, .publish 0,
   .exec 1 (), .recv 0, .finish]

/-- The hypotheses of C05, C06 and C11 are met by a run with out-of-order arrival and duplicate delivery. -/
example : ∃ s, run catComb "" "dup" init demoLabels = some s ∧ s.outcome = some (.ok "abc") ∧
    inputs demoLabels = [(2, "c"), (0, "a"), (1, "b")] := by
  refine ⟨_, rfl, ?_, rfl⟩
  decide

example : (inputs demoLabels).Perm (indexed 0 ["a", "b", "c"]) := by decide

end Fold
end Paladin
