import Verif.Model.Fold
import Verif.Model.Lts
/-!
# Model of `IndexedStream::fold` with its bounded concurrency

Code: `paladin-core/src/directive/indexed_stream/foldable.rs`, `f_fold`, lines 133-297. `Verif/Model/Fold.lean` lets the items, the results and the tasks that wait to be published be handled without any limit.
Here the limits are there: at most `MAX_CONCURRENCY_PER_TASK` items and as many results are handled at a time (`try_for_each_concurrent`, lines 172, 244), tasks go through an `mpsc` channel with that
capacity (line 142), and at most that many are being published (line 280, `queue/publisher.rs`, `Verif/Model/PubAll.lean`).

The channel (futures 0.3, trusted): a fresh clone of the sender puts its message into the channel at once; if the channel then holds more messages than its capacity, that clone is parked at the end of a
list, and `send` returns only once it is no longer parked. Taking a message out of the channel takes the first clone off that list.

An item or a result is in hand from the moment at which the stream yields it until its closure has returned; closures that return in their first poll are never in hand. Every label is one piece that
runs without being suspended. Only one task polls all of this (lines 287-296).
-/
namespace Paladin
namespace FoldFine
open Fold

/-- `MAX_CONCURRENCY_PER_TASK`, foldable.rs:129. -/
def limit : Nat := 10

/-- A closure that has not returned, foldable.rs:175-199 (an item), 249-268 (a result). -/
structure Closure (α : Type) where
  /-- names the clone of the sender used by this closure -/
  id : Nat
  /-- it waits for `tx.send(task)`, foldable.rs:114 -/
  flush : Bool
  /-- it waits for `acker.ack()`, foldable.rs:255, 265 -/
  ack : Bool
  /-- the final result, to be sent on the oneshot after the acknowledgement, foldable.rs:256-260 -/
  fin : Option (Seg α)
deriving DecidableEq, Repr

/-- The locals of `f_fold`, foldable.rs:137-236. -/
structure St (α ε : Type) where
  /-- the variables of `Verif/Model/Fold.lean`; `outbox` is the content of the channel -/
  core : Fold.St α ε
  /-- tasks taken from the channel and being published -/
  sending : List (CTask α)
  /-- parked clones of the sender, in the order in which they will be released -/
  parked : List Nat
  /-- items in hand -/
  inits : List (Closure α)
  /-- results in hand -/
  ress : List (Closure α)
  /-- the next clone -/
  next : Nat
deriving DecidableEq, Repr

/-- Initial state, foldable.rs:137-166. -/
def init : St α ε := { core := Fold.init, sending := [], parked := [], inits := [], ress := [], next := 0 }

/-- Steps: those of `Verif/Model/Fold.lean` other than `publish`, and the waiting that is left out there. Code: foldable.rs:171-296. -/
inductive Label (α ε ω : Type) where
  | fold (l : Fold.Label α ε ω)
  /-- `publish_all` takes the next task from the channel -/
  | take
  /-- the `k`-th of the publishes under way completes -/
  | published (k : Nat)
  /-- the closure with clone `n` finds that it is not parked -/
  | flushed (n : Nat)
  /-- the acknowledgement of the closure with clone `n` completes -/
  | acked (n : Nat)
deriving Repr

/-- The state is `f` now: was a task put into the channel that has its clone parked? Code: foldable.rs:113-114. -/
def parks (s : St α ε) (f : Fold.St α ε) : Bool := decide (s.core.outbox.length < f.outbox.length) && decide (limit < f.outbox.length)

/-- A closure that has to wait for something stays in hand; clones are parked in order. Code: foldable.rs:114. -/
def park (s : St α ε) (b : Bool) : List Nat := if b then s.parked ++ [s.next] else s.parked

/-- The first poll of an item's closure, after which the variables are `f`. Code: foldable.rs:172-199. -/
def onItem (s : St α ε) (f : Fold.St α ε) : St α ε :=
  if parks s f then { s with core := f, parked := park s true, inits := s.inits ++ [⟨s.next, true, false, none⟩], next := s.next + 1 } else { s with core := f }

/-- The first poll of a result's closure, up to the acknowledgement, which takes a while. Code: foldable.rs:249-265. -/
def onResult (s : St α ε) (x : Seg α) : St α ε :=
  if (s.core.size.any fun n => x.isFinal n) then { s with ress := s.ress ++ [⟨s.next, false, true, some x⟩], next := s.next + 1 }
  else
    let f := tryDispatch s.core x
    { s with core := f, parked := park s (parks s f), ress := s.ress ++ [⟨s.next, parks s f, true, none⟩], next := s.next + 1 }

/-- A closure returns when it has nothing to wait for. Code: foldable.rs:114, 265. -/
def Closure.waiting (c : Closure α) : Bool := c.flush || c.ack

/-- The closures with clone `n` no longer wait for the channel; those that need not wait are gone. Code: foldable.rs:114. -/
def flush (n : Nat) (l : List (Closure α)) : List (Closure α) := (l.map fun c => if c.id = n then { c with flush := false } else c).filter (·.waiting)

/-- The same for the acknowledgement. Code: foldable.rs:255, 265. -/
def ack (n : Nat) (l : List (Closure α)) : List (Closure α) := (l.map fun c => if c.id = n then { c with ack := false } else c).filter (·.waiting)

/-- The final result is sent on the oneshot, unless that has been used. Code: foldable.rs:256-260. -/
def sendFinal (dupErr : ε) (f : Fold.St α ε) : Option (Seg α) → Fold.St α ε
  | none => f
  | some x =>
    match f.final with
    | none => { f with final := some x.val }
    | some _ => { f with outcome := some (.err dupErr) }

/-- One step; `none` when the label is not possible. A stream is polled only while fewer than `limit` of its items are in hand; its end is acted upon when none is (foldable.rs:172, 202, 244, 272). -/
def step (comb : ω → α → α → Except ε α) (empty : α) (dupErr : ε) (s : St α ε) (l : Label α ε ω) : Option (St α ε) :=
  if s.core.outcome.isSome then none else
  match l with
  | .fold (.publish _) => none
  | .fold (.item i a) => if s.inits.length < limit then (Fold.step comb empty dupErr s.core (.item i a : Fold.Label α ε ω)).map (onItem s) else none
  | .fold (.inputErr e) =>
    if s.inits.length < limit then (Fold.step comb empty dupErr s.core (.inputErr e : Fold.Label α ε ω)).map fun f => { s with core := f } else none
  | .fold .inputEnd => if s.inits = [] then (Fold.step comb empty dupErr s.core (.inputEnd : Fold.Label α ε ω)).map fun f => { s with core := f } else none
  | .fold (.recv k) =>
    if s.ress.length < limit ∧ s.core.notified = true then
      match takeAt s.core.results k with
      | some (.ok x, rest) => some (onResult { s with core := { s.core with results := rest } } x)
      | some (.err e, rest) => some { s with core := { s.core with results := rest, outcome := some (.err e) } }
      | none => none
    else none
  | .fold .disconnect => if s.ress = [] then (Fold.step comb empty dupErr s.core (.disconnect : Fold.Label α ε ω)).map fun f => { s with core := f } else none
  | .fold l => (Fold.step comb empty dupErr s.core l).map fun f => { s with core := f }
  | .take =>
    match s.core.outbox with
    | t :: rest =>
      if s.sending.length < limit then some { s with core := { s.core with outbox := rest }, sending := s.sending ++ [t], parked := s.parked.tail } else none
    | [] => none
  | .published k =>
    match takeAt s.sending k with
    | some (t, rest) => some { s with sending := rest, core := { s.core with tasks := s.core.tasks ++ [t] } }
    | none => none
  | .flushed n =>
    if (∃ c ∈ s.inits ++ s.ress, c.id = n ∧ c.flush = true) ∧ n ∉ s.parked then some { s with inits := flush n s.inits, ress := flush n s.ress } else none
  | .acked n =>
    match s.ress.find? (fun c => c.id = n && c.ack) with
    | some c => some { s with core := sendFinal dupErr s.core c.fin, ress := ack n s.ress }
    | none => none

/-- Executions of foldable.rs:133-297. -/
abbrev run (comb : ω → α → α → Except ε α) (empty : α) (dupErr : ε) (s : St α ε) (ls : List (Label α ε ω)) : Option (St α ε) := Lts.run (step comb empty dupErr) s ls

end FoldFine
end Paladin
