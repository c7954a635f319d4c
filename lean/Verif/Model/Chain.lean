import Verif.Model.MapS
/-!
# Model of `IndexedStream::from(xs).map(op).fold(m)`

Code: `directive/mod.rs` 191-225, 309-311, 366-368: the mapped stream is the input stream of `fold`. All parts are polled by the task that awaits `run`, so the steps of
the two stages interleave in any order. Simplification: an item yielded by the map may wait before fold takes it (in the code it is handed over in the poll that
yields it); this only adds executions.
-/
namespace Paladin
namespace Chain

/-- State of the two stages: `f_map` (indexed_stream/functor.rs:28-68) and `f_fold` (foldable.rs:133-297) run by directive/mod.rs:309-311, 366-368. -/
structure St (α β ε : Type) where
  /-- Elements of `xs` taken by the map. -/
  pos : Nat
  m : MapS.St α β ε
  /-- Items of the mapped stream taken by the fold. -/
  taken : Nat
  f : Fold.St β ε
deriving DecidableEq, Repr

/-- Both leases are made, directive/mod.rs:367: `run` of the map, then `f_fold`. -/
def init : St α β ε := { pos := 0, m := MapS.init, taken := 0, f := Fold.init }

/-- The atomic pieces of the two stages, indexed_stream/functor.rs:40-67 and foldable.rs:171-296. -/
inductive Label (α β ε ω ω' : Type) where
  /-- The map takes the next element of the source. -/
  | src
  /-- The map sees the end of the source. -/
  | srcEnd
  /-- The same, but closing the sender fails. -/
  | srcCloseErr (e : ε)
  /-- A step of the map that does not read its input. -/
  | map (l : MapS.Label α ε ω)
  /-- The fold takes the next item of the mapped stream. -/
  | pass
  /-- The fold sees the end of the mapped stream. -/
  | passEnd
  /-- A step of the fold that does not read its input. -/
  | fold (l : Fold.Label β ε ω')
deriving Repr

/-- The step reads the map's input stream. Code: indexed_stream/functor.rs:41. -/
def mapReads : MapS.Label α ε ω → Bool
  | .item _ _ | .inputErr _ | .inputEnd | .closeErr _ => true
  | _ => false

/-- The step reads the fold's input stream. Code: foldable.rs:171-172. -/
def foldReads : Fold.Label β ε ω → Bool
  | .item _ _ | .inputErr _ | .inputEnd => true
  | _ => false

/-- One step, directive/mod.rs:366-368 over `from_into_iterator` (indexed_stream/mod.rs:152-157). -/
def step (op : ω → α → Except ε β) (comb : ω' → β → β → Except ε β) (empty : β) (dupErr : ε) (xs : List α) (s : St α β ε) :
    Label α β ε ω ω' → Option (St α β ε)
  | .src =>
    match xs[s.pos]? with
    | some x => (MapS.step op s.m (.item s.pos x)).map fun m => { s with m, pos := s.pos + 1 }
    | none => none
  | .srcEnd => if s.pos = xs.length then (MapS.step op s.m .inputEnd).map fun m => { s with m } else none
  | .srcCloseErr e => if s.pos = xs.length then (MapS.step op s.m (.closeErr e)).map fun m => { s with m } else none
  | .map l => if mapReads l then none else (MapS.step op s.m l).map fun m => { s with m }
  | .pass =>
    match s.m.outs[s.taken]? with
    | some (.ok (i, b)) => (Fold.step comb empty dupErr s.f (.item i b)).map fun f => { s with f, taken := s.taken + 1 }
    | some (.error e) => (Fold.step comb empty dupErr s.f (.inputErr e)).map fun f => { s with f, taken := s.taken + 1 }
    | none => none
  | .passEnd =>
    if s.m.ended = true ∧ s.taken = s.m.outs.length then (Fold.step comb empty dupErr s.f .inputEnd).map fun f => { s with f } else none
  | .fold l => if foldReads l then none else (Fold.step comb empty dupErr s.f l).map fun f => { s with f }

/-- Executions of directive/mod.rs:366-368. -/
def run (op : ω → α → Except ε β) (comb : ω' → β → β → Except ε β) (empty : β) (dupErr : ε) (xs : List α) :
    St α β ε → List (Label α β ε ω ω') → Option (St α β ε)
  | s, [] => some s
  | s, l :: ls => (step op comb empty dupErr xs s l).bind fun s' => run op comb empty dupErr xs s' ls

end Chain
end Paladin
