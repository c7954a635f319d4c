import Verif.Spec.Fold
/-! # Bracketings and associativity -/
namespace Paladin

theorem Tree.ne_nil {R : α → α → α → Prop} {xs : List α} {v : α} (h : Tree R xs v) : xs ≠ [] := by
  induction h with
  | leaf => simp
  | node _ _ _ ih _ => simp [ih]

theorem Tree.mono {R S : α → α → α → Prop} (hrs : ∀ a b c, R a b c → S a b c) {xs : List α} {v : α}
    (h : Tree R xs v) : Tree S xs v := by
  induction h with
  | leaf x => exact .leaf x
  | node _ _ hc ih1 ih2 => exact .node ih1 ih2 (hrs _ _ _ hc)

theorem seqFold_append (f : α → α → Option α) (acc : α) (xs ys : List α) :
    seqFold f acc (xs ++ ys) = (seqFold f acc xs).bind fun acc' => seqFold f acc' ys := by
  induction xs generalizing acc with
  | nil => simp [seqFold]
  | cons x xs ih =>
    simp only [List.cons_append, seqFold]
    cases f acc x with
    | none => simp
    | some c => simp [ih]

/-- Combining `a` in front of a fold equals folding from `a`. -/
theorem seqFold_assoc {f : α → α → Option α} (ha : Assoc f) (a x : α) (xs : List α) :
    ((f a x).bind fun c => seqFold f c xs) = (seqFold f x xs).bind fun b => f a b := by
  induction xs generalizing x with
  | nil => simp [seqFold]
  | cons y ys ih =>
    have h1 := ha a x y
    simp only [seqFold]
    calc ((f a x).bind fun c => (f c y).bind fun d => seqFold f d ys)
        = ((f a x).bind fun c => f c y).bind fun d => seqFold f d ys := by rw [Option.bind_assoc]
      _ = ((f x y).bind fun c => f a c).bind fun d => seqFold f d ys := by rw [h1]
      _ = (f x y).bind fun c => (f a c).bind fun d => seqFold f d ys := by rw [Option.bind_assoc]
      _ = (f x y).bind fun c => (seqFold f c ys).bind fun b => f a b := by
            congr 1; funext c; exact ih c
      _ = ((f x y).bind fun c => seqFold f c ys).bind fun b => f a b := by rw [Option.bind_assoc]

theorem Tree.seqFold {f : α → α → Option α} (ha : Assoc f) {xs : List α} {v : α}
    (h : Tree (fun a b c => f a b = some c) xs v) :
    ∃ x rest, xs = x :: rest ∧ Paladin.seqFold f x rest = some v := by
  induction h with
  | leaf x => exact ⟨x, [], rfl, rfl⟩
  | node _ _ hc ih1 ih2 =>
    obtain ⟨x, xs, rfl, hx⟩ := ih1
    obtain ⟨y, ys, rfl, hy⟩ := ih2
    refine ⟨x, xs ++ y :: ys, by simp, ?_⟩
    rw [seqFold_append, hx]
    simp only [Option.bind_some, Paladin.seqFold]
    rw [seqFold_assoc ha, hy]
    simpa using hc

/-- With a total combine the sequential fold is `List.foldl`. -/
theorem seqFold_total (g : α → α → α) (acc : α) (xs : List α) :
    seqFold (fun a b => some (g a b)) acc xs = some (xs.foldl g acc) := by
  induction xs generalizing acc with
  | nil => simp [seqFold]
  | cons x xs ih => simp [seqFold, ih]

end Paladin
