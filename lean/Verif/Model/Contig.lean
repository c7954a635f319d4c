/-!
# Model of `ContiguousQueue` (sequential)

Code: `paladin-core/src/contiguous/mod.rs`, `paladin-core/src/contiguous/queue.rs`, and the `Contiguous`
implementation for fold outputs in `paladin-core/src/directive/indexed_stream/foldable.rs`.
-/

namespace Paladin

/-- A value covering the inclusive index range `lo..=hi`.
Code: `TaskOutput<Op, Metadata>` with `Metadata { range }`, foldable.rs:36-38 and task/mod.rs:50-55.
`usize` is `Nat` here (64-bit arithmetic is treated separately, property C55).
The key of a value (`Contiguous::key`, foldable.rs:65-67) is the field `lo`. -/
structure Seg (α : Type) where
  lo : Nat
  hi : Nat
  val : α
deriving DecidableEq, Repr

namespace Seg

/-- Code: `Contiguous::is_contiguous`, foldable.rs:56-59. -/
def isContiguous (s o : Seg α) : Bool := s.hi + 1 == o.lo || o.hi + 1 == s.lo

/-- Code: `TaskOutput::is_final`, foldable.rs:46-48 (`end - start + 1 == job_size`). -/
def isFinal (s : Seg α) (jobSize : Nat) : Bool := s.hi - s.lo + 1 == jobSize

end Seg

/-- Code: `enum Position`, contiguous/queue.rs:15-18. -/
inductive Position (α : Type) where
  | lhs (s : Seg α)
  | rhs (s : Seg α)
deriving DecidableEq, Repr

/-- Code: `struct ContiguousQueue { values: SkipMap<Key, AtomicCell<Option<T>>> }`, contiguous/queue.rs:10-12.
The ordered map is the list of its values in increasing key order. Simplification: called from one thread at a time the cell
inside an entry is never empty, so it is dropped (`Verif/Model/ContigConc.lean` keeps it). -/
abbrev CQueue (α : Type) := List (Seg α)

namespace CQueue

/-- Code: `SkipMap::range(key..).next()`, contiguous/queue.rs:46-47: the entry with the least key `≥ k`. -/
def rangeFromNext (q : CQueue α) (k : Nat) : Option (Seg α) := q.find? (fun s => decide (k ≤ s.lo))

/-- Code: `SkipMap::range(..key).next_back()`, contiguous/queue.rs:69: the entry with the greatest key `< k`. -/
def rangeToNextBack (q : CQueue α) (k : Nat) : Option (Seg α) :=
  (q.filter (fun s => decide (s.lo < k))).getLast?

/-- Code: `SkipMap::remove`, contiguous/queue.rs:60, 75, 98. -/
def remove (q : CQueue α) (k : Nat) : CQueue α := q.filter (fun s => decide (s.lo ≠ k))

/-- Code: `ContiguousQueue::queue`, contiguous/queue.rs:90-93 (`SkipMap::insert` replaces an entry with the same key). -/
def queue : CQueue α → Seg α → CQueue α
  | [], x => [x]
  | y :: ys, x =>
    if x.lo < y.lo then x :: y :: ys
    else if x.lo = y.lo then x :: ys
    else y :: queue ys x

/-- Code: the closure at contiguous/queue.rs:57-64 and 72-79: peek, test adjacency, take and remove. -/
def takeIfContiguous (q : CQueue α) (x : Seg α) (entry : Option (Seg α)) : Option (Seg α × CQueue α) :=
  match entry with
  | some e => if x.isContiguous e then some (e, remove q e.lo) else none
  | none => none

/-- Code: `ContiguousQueue::find_contiguous`, contiguous/queue.rs:42-82: right neighbour first, then left. -/
def findContiguous (q : CQueue α) (x : Seg α) : Option (Position α) × CQueue α :=
  match takeIfContiguous q x (rangeFromNext q x.lo) with
  | some (e, q') => (some (.rhs e), q')
  | none =>
    match takeIfContiguous q x (rangeToNextBack q x.lo) with
    | some (e, q') => (some (.lhs e), q')
    | none => (none, q)

/-- Code: `ContiguousQueue::dequeue`, contiguous/queue.rs:97-99. -/
def dequeue (q : CQueue α) (k : Nat) : Option (Seg α) × CQueue α :=
  (q.find? (fun s => decide (s.lo = k)), remove q k)

/-- Code: `ContiguousQueue::acquire_contiguous_pair_or_queue`, contiguous/queue.rs:106-117. -/
def acquire (q : CQueue α) (x : Seg α) : Option (Seg α × Seg α) × CQueue α :=
  match findContiguous q x with
  | (some (.lhs c), q') => (some (c, x), q')
  | (some (.rhs c), q') => (some (x, c), q')
  | (none, q') => (none, q'.queue x)

/-- Code: `From<Iter> for ContiguousQueue`, contiguous/queue.rs:126-135. -/
def ofList (xs : List (Seg α)) : CQueue α := xs.foldl queue []

end CQueue
end Paladin
