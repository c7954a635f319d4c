/-! # Specification vocabulary for fold -/
namespace Paladin

/-- `Tree R xs v`: `v` is the value of some binary tree of combines whose leaves, read left to right, are `xs`, each
exactly once. `R a b c` means "combining `a` with `b` (in this order) may return `c`". -/
inductive Tree (R : α → α → α → Prop) : List α → α → Prop where
  | leaf (x : α) : Tree R [x] x
  | node {xs ys : List α} {a b c : α} (hl : Tree R xs a) (hr : Tree R ys b) (hc : R a b c) : Tree R (xs ++ ys) c

/-- The stream items of a block: `xs` numbered from `start`. -/
def indexed (start : Nat) : List α → List (Nat × α)
  | [] => []
  | x :: xs => (start, x) :: indexed (start + 1) xs

/-- Sequential left fold of a non-empty list with a combine that may fail. -/
def seqFold (f : α → α → Option α) : α → List α → Option α
  | acc, [] => some acc
  | acc, x :: xs => (f acc x).bind fun acc' => seqFold f acc' xs

/-- Associativity of a combine that may fail: both bracketings agree, including on failure. -/
def Assoc (f : α → α → Option α) : Prop :=
  ∀ a b c, ((f a b).bind fun ab => f ab c) = ((f b c).bind fun bc => f a bc)

end Paladin
