/-!
# Model of the ways to make an `IndexedStream` and of `into_values_sorted`

Code: `paladin-core/src/directive/indexed_stream/mod.rs`.
-/
namespace Paladin
namespace IdxStream

/-- A Rust iterator or a stream that is always ready: a state and a function `next`. It may be infinite, and it may go on after `None`. Code: the argument of directive/indexed_stream/mod.rs:152, 166. -/
structure Iter (σ α : Type) where
  next : σ → Option α × σ

/-- `Iterator::enumerate`: a counter beside the iterator's state, increased with each item. Simplification: the counter is a natural number; a `usize` overflows
after 2^64 items, which no program yields. -/
def Iter.enumerate (it : Iter σ α) : Iter (Nat × σ) (Nat × α) where
  next p := match it.next p.2 with
    | (some a, s) => (some (p.1, a), (p.1 + 1, s))
    | (none, s) => (none, (p.1, s))

/-- `Iterator::map`. Used in directive/indexed_stream/mod.rs:156, 175. -/
def Iter.map (f : α → β) (it : Iter σ α) : Iter σ β where
  next s := ((it.next s).1.map f, (it.next s).2)

/-- Code: `from_into_iterator`, directive/indexed_stream/mod.rs:152-157 (`futures::stream::iter` yields what the iterator yields). -/
def ofIter (it : Iter σ α) : Iter (Nat × σ) (Except ε (Nat × α)) := it.enumerate.map .ok

/-- Code: `try_from_into_iterator`, directive/indexed_stream/mod.rs:166-177. -/
def tryOfIter (it : Iter σ (Except ε α)) : Iter (Nat × σ) (Except ε (Nat × α)) :=
  it.enumerate.map fun p => p.2.map fun a => (p.1, a)

/-- `TryStreamExt::try_collect`, with at most `fuel` items read: returns the first error at once, or all items at the first `None`. `none`: not finished yet. Used in directive/indexed_stream/mod.rs:139. -/
def tryCollect (it : Iter σ (Except ε α)) : Nat → σ → List α → Option (Except ε (List α))
  | 0, _, _ => none
  | fuel + 1, s, acc => match it.next s with
    | (some (.ok a), s') => tryCollect it fuel s' (acc ++ [a])
    | (some (.error e), _) => some (.error e)
    | (none, _) => some (.ok acc)

/-- Code: `into_values_sorted`, directive/indexed_stream/mod.rs:138-142. `sort` is `sort_unstable_by` on the index; which sorted permutation it gives is left open (see `Sorts`). -/
def intoValuesSorted (sort : List (Nat × α) → List (Nat × α)) (it : Iter σ (Except ε (Nat × α))) (fuel : Nat) (s : σ) : Option (Except ε (List α)) :=
  (tryCollect it fuel s []).map fun r => r.map fun v => (sort v).map (·.2)

/-- What is assumed of `sort_unstable_by(|a, b| a.0.cmp(&b.0))`: a permutation, in nondecreasing order of the indices. -/
def Sorts (sort : List (Nat × α) → List (Nat × α)) : Prop := ∀ l, (sort l).Perm l ∧ (sort l).Pairwise (fun a b => a.1 ≤ b.1)

/-- The first `n` answers of an iterator. What polling the stream of directive/indexed_stream/mod.rs:196-198 `n` times gives. -/
def Iter.answers (it : Iter σ α) : Nat → σ → List (Option α)
  | 0, _ => []
  | n + 1, s => (it.next s).1 :: it.answers n (it.next s).2

/-- The iterator of a vector. As in the example of directive/indexed_stream/mod.rs:150. -/
def ofList : Iter (List α) α where
  next | [] => (none, []) | a :: l => (some a, l)

end IdxStream
end Paladin
