import Verif.Spec.FoldTrace
import Verif.Spec.MapTrace
/-! # Specification: how a map or a fold fails -/
namespace Paladin

namespace MapS

/-- The error of a failure on the leader's side: of the input stream, of publishing, closing or acknowledging. -/
def Label.failure : Label α ε ω → Option ε
  | .inputErr e | .publishErr _ e | .confirmErr e | .closeErr e | .recvAckErr _ e => some e
  | _ => none

/-- The operation failed with `e` on one of the inputs `ins`. -/
def OpFails (op : ω → α → Except ε β) (ins : List (Nat × α)) (e : ε) : Prop := ∃ w p, p ∈ ins ∧ op w p.2 = .error e

end MapS

namespace Fold

/-- A failure on the leader's side: of the input stream, of publishing, closing or acknowledging. -/
def Label.failure : Label α ε ω → Option ε
  | .inputErr e | .ioErr e => some e
  | _ => none

/-- Combining failed with `e` on two values that are combinations, in order, of two neighbouring runs of the inputs `ins`. -/
def CombineFails (comb : ω → α → α → Except ε α) (ins : List (Nat × α)) (e : ε) : Prop :=
  ∃ w start xs ys a b, Tree (Returns comb) xs a ∧ Tree (Returns comb) ys b ∧ (∀ p ∈ indexed start (xs ++ ys), p ∈ ins) ∧ comb w a b = .error e

/-- A combine task that can arise from the inputs `ins`: its two values are combinations, in order, of two neighbouring runs of inputs, which cover the indices from `lo` to `hi`. -/
def Asked (R : α → α → α → Prop) (ins : List (Nat × α)) (t : CTask α) : Prop :=
  ∃ xs ys, Tree R xs t.a ∧ Tree R ys t.b ∧ t.hi + 1 = t.lo + (xs ++ ys).length ∧ ∀ p ∈ indexed t.lo (xs ++ ys), p ∈ ins

end Fold
end Paladin
