import Verif.Model.Contig
/-!
# The index arithmetic on 64-bit machine integers

Code: `paladin-core/src/directive/indexed_stream/foldable.rs`, `is_final` (46-48) and `is_contiguous` (56-59), as compiled with overflow checks (debug profile: overflow
panics, here `none`) and without (release profile: wrap-around).
-/
namespace Paladin
namespace Arith

/-- Overflow-checked addition. As in a build with overflow checks; used at foldable.rs:47, 57, 58. -/
def addChecked (a b : UInt64) : Option UInt64 := if a.toNat + b.toNat < 2 ^ 64 then some (a + b) else none

/-- Overflow-checked subtraction. Used at foldable.rs:47. -/
def subChecked (a b : UInt64) : Option UInt64 := if b ≤ a then some (a - b) else none

/-- `RangeInclusive<usize>`. Code: foldable.rs:37. -/
structure Range where
  start : UInt64
  stop : UInt64
deriving DecidableEq

/-- `is_contiguous`, foldable.rs:56-59; `||` evaluates its right side only if the left is false. -/
def isContiguousChecked (s o : Range) : Option Bool := do
  let a ← addChecked s.stop 1
  if a == o.start then return true
  let b ← addChecked o.stop 1
  return b == s.start

/-- The same without overflow checks (release profile), foldable.rs:56-59. -/
def isContiguousWrapping (s o : Range) : Bool := s.stop + 1 == o.start || o.stop + 1 == s.start

/-- `is_final`, foldable.rs:46-48. -/
def isFinalChecked (s : Range) (jobSize : UInt64) : Option Bool := do
  let a ← subChecked s.stop s.start
  let b ← addChecked a 1
  return b == jobSize

/-- The same without overflow checks, foldable.rs:46-48. -/
def isFinalWrapping (s : Range) (jobSize : UInt64) : Bool := s.stop - s.start + 1 == jobSize

end Arith
end Paladin
