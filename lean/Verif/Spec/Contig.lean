import Verif.Model.Contig
/-! # Specification vocabulary for index ranges -/
namespace Paladin

/-- `a` ends immediately before `b` starts. -/
def Before (a b : Seg α) : Prop := a.hi + 1 = b.lo

/-- Immediately adjacent, in either order. -/
def Adjacent (a b : Seg α) : Prop := Before a b ∨ Before b a

/-- The index ranges do not overlap. -/
def Disjoint (a b : Seg α) : Prop := a.hi < b.lo ∨ b.hi < a.lo

/-- Non-empty range. -/
def Seg.Valid (s : Seg α) : Prop := s.lo ≤ s.hi

/-- What a queue holding disjoint ranges looks like: entries in key order, ranges non-empty and disjoint. -/
def QueueOk (q : List (Seg α)) : Prop :=
  q.Pairwise (fun a b => a.hi < b.lo) ∧ ∀ s ∈ q, s.Valid

end Paladin
