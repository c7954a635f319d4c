import Verif.Model.Contig
import Verif.Model.Fold
/-!
# Model of `ContiguousQueue` shared by threads

Code: `paladin-core/src/contiguous/queue.rs`. Each lookup, peek, `AtomicCell::take`, `SkipMap::remove` and `SkipMap::insert` is one atomic step; steps of
different calls interleave in any order. The peek through `as_ptr` (lines 57, 72) is not synchronised with a concurrent `take`; it is taken to
read either the value before or the empty cell after.

A lookup may return any node that was ever in the map on the right side of the key, or nothing (the step's choice `w`): this covers lookups that run
concurrently with other operations. `ExactLookup` (`Verif/Spec/ContigConc.lean`) singles out atomic lookups.
-/
namespace Paladin
namespace Conc

/-- An entry of the `SkipMap`, contiguous/queue.rs:11. -/
structure Node (α : Type) where
  key : Nat
  cell : Option (Seg α)
  /-- still in the map -/
  linked : Bool
  /-- ghost: the nodes full when the call that inserted this node began -/
  earlier : List Nat
deriving DecidableEq, Repr

/-- Where a call of `acquire_contiguous_pair_or_queue` is. Code: contiguous/queue.rs:106-117 with 42-82. -/
inductive Pc (α : Type) where
  /-- before `range(key..).next()`, lines 46-47 -/
  | findR
  /-- line 57, at this node -/
  | peekR (id : Nat)
  /-- line 59 -/
  | takeR (id : Nat)
  /-- line 60; the value has been taken -/
  | removeR (id : Nat) (v : Seg α)
  /-- before `range(..key).next_back()`, line 69 -/
  | findL
  /-- line 72 -/
  | peekL (id : Nat)
  /-- line 74 -/
  | takeL (id : Nat)
  /-- line 75 -/
  | removeL (id : Nat) (v : Seg α)
  /-- nothing found: line 113 -/
  | insert
deriving DecidableEq, Repr

/-- A call of `acquire_contiguous_pair_or_queue` that has not returned, contiguous/queue.rs:106. -/
structure Call (α : Type) where
  x : Seg α
  pc : Pc α
  /-- ghost: the nodes full when the call began -/
  earlier : List Nat
deriving DecidableEq, Repr

/-- The queue (contiguous/queue.rs:10-12), the calls under way, and what was handed in and returned. -/
structure St (α : Type) where
  nodes : List (Node α)
  calls : List (Call α)
  /-- results of the calls that returned -/
  outs : List (Option (Seg α × Seg α))
deriving DecidableEq, Repr

/-- Code: `ContiguousQueue::new`, contiguous/queue.rs:20-26. -/
def init : St α := { nodes := [], calls := [], outs := [] }

/-- Nodes with a value in their cell. Code: the cells of contiguous/queue.rs:11. -/
def full (nodes : List (Node α)) : List Nat := (List.range nodes.length).filter fun i => (nodes[i]?.bind Node.cell).isSome

/-- The atomic pieces of contiguous/queue.rs:42-117. -/
inductive Label (α : Type) where
  /-- A thread calls `acquire_contiguous_pair_or_queue(x)`. -/
  | start (x : Seg α)
  /-- The `k`-th running call makes its next step; `w` is what its lookup returns. -/
  | act (k : Nat) (w : Option Nat)
deriving DecidableEq, Repr

/-- `SkipMap::remove(key)` Code: contiguous/queue.rs:60, 75. -/
def unlink (nodes : List (Node α)) (key : Nat) : List (Node α) := nodes.map fun n => if n.key = key then { n with linked := false } else n

/-- Emptying the cell of node `id` Code: contiguous/queue.rs:59, 74. -/
def clear (nodes : List (Node α)) (id : Nat) : List (Node α) :=
  match nodes[id]? with
  | some n => nodes.set id { n with cell := none }
  | none => nodes

/-- One step of a call: the nodes afterwards, and the call or its result. Code: contiguous/queue.rs:42-117. -/
def callStep (nodes : List (Node α)) (c : Call α) (w : Option Nat) : Option (List (Node α) × Sum (Call α) (Option (Seg α × Seg α))) :=
  match c.pc with
  -- contiguous/queue.rs:46-48
  | .findR =>
    match w with
    | none => some (nodes, .inl { c with pc := .findL })
    | some id =>
      match nodes[id]? with
      | some n => if c.x.lo ≤ n.key then some (nodes, .inl { c with pc := .peekR id }) else none
      | none => none
  -- contiguous/queue.rs:57-58, 63
  | .peekR id =>
    match nodes[id]?.bind Node.cell with
    | some v => if c.x.isContiguous v then some (nodes, .inl { c with pc := .takeR id }) else some (nodes, .inl { c with pc := .findL })
    | none => some (nodes, .inl { c with pc := .findL })
  -- contiguous/queue.rs:59: `take()?`, an empty cell leads on to `or_else`
  | .takeR id =>
    match nodes[id]?.bind Node.cell with
    | some v => some (clear nodes id, .inl { c with pc := .removeR id v })
    | none => some (nodes, .inl { c with pc := .findL })
  -- contiguous/queue.rs:60-61, 110
  | .removeR id v =>
    match nodes[id]? with
    | some n => some (unlink nodes n.key, .inr (some (c.x, v)))
    | none => none
  -- contiguous/queue.rs:69
  | .findL =>
    match w with
    | none => some (nodes, .inl { c with pc := .insert })
    | some id =>
      match nodes[id]? with
      | some n => if n.key < c.x.lo then some (nodes, .inl { c with pc := .peekL id }) else none
      | none => none
  -- contiguous/queue.rs:72-73, 78
  | .peekL id =>
    match nodes[id]?.bind Node.cell with
    | some v => if c.x.isContiguous v then some (nodes, .inl { c with pc := .takeL id }) else some (nodes, .inl { c with pc := .insert })
    | none => some (nodes, .inl { c with pc := .insert })
  -- contiguous/queue.rs:74
  | .takeL id =>
    match nodes[id]?.bind Node.cell with
    | some v => some (clear nodes id, .inl { c with pc := .removeL id v })
    | none => some (nodes, .inl { c with pc := .insert })
  -- contiguous/queue.rs:75-76, 109
  | .removeL id v =>
    match nodes[id]? with
    | some n => some (unlink nodes n.key, .inr (some (v, c.x)))
    | none => none
  -- contiguous/queue.rs:90-93, 112-115: an entry with the same key is replaced
  | .insert => some (unlink nodes c.x.lo ++ [{ key := c.x.lo, cell := some c.x, linked := true, earlier := c.earlier }], .inr none)

/-- One step of one of the calls, contiguous/queue.rs:42-117. -/
def step (s : St α) : Label α → Option (St α)
  | .start x => some { s with calls := s.calls ++ [{ x := x, pc := .findR, earlier := full s.nodes }] }
  | .act k w =>
    match Fold.takeAt s.calls k with
    | some (c, rest) =>
      match callStep s.nodes c w with
      | some (nodes, .inl c') => some { s with nodes := nodes, calls := c' :: rest }
      | some (nodes, .inr out) => some { s with nodes := nodes, calls := rest, outs := s.outs ++ [out] }
      | none => none
    | none => none

end Conc
end Paladin
