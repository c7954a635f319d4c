import Verif.Model.MapS
/-!
# Model of `Literal::map`

Code: `paladin-core/src/directive/literal/functor.rs`, `f_map`, lines 10-34: publish one task, close, wait for one result, acknowledge, return.
-/
namespace Paladin
namespace Lit

/-- What `f_map` returned; `noResults` is the `bail!` of line 31. -/
inductive Ret (β ε : Type) where
  | ok (b : β)
  | err (e : ε)
  | noResults
deriving DecidableEq, Repr

/-- Where the future is: at `sender.publish` (23), `sender.close` (24), `receiver.next` (26) or returned. -/
inductive Pc where
  | publishing
  | closing
  | waiting
  | done
deriving DecidableEq, Repr

/-- State. `pending`, `closed` as in `MapS.St`; the metadata is `()`, so results carry no index. Code: literal/functor.rs:15-33. -/
structure St (α β ε : Type) where
  pc : Pc
  ret : Option (Ret β ε)
  sent : Bool
  tasks : List α
  results : List (Except ε β)
  pending : Int
  closed : Bool
  innerEnded : Bool
deriving DecidableEq, Repr

/-- The channel has been leased and `publish` has counted the message, literal/functor.rs:15-25, coordinated_publisher.rs:61. -/
def init : St α β ε :=
  { pc := .publishing, ret := none, sent := false, tasks := [], results := [], pending := 1, closed := false, innerEnded := false }

/-- The atomic pieces of literal/functor.rs:25-33, of the workers and of the broker. -/
inductive Label (ε ω : Type) where
  /-- The message is sent. -/
  | send
  /-- `publish` returns `Ok` / fails. -/
  | published
  | publishErr (e : ε)
  /-- `close` returns `Ok` / fails. -/
  | closed
  | closeErr (e : ε)
  | exec (k : Nat) (w : ω)
  /-- `next` returns the `k`-th result and acknowledging succeeds / fails. -/
  | recv (k : Nat)
  | recvAckErr (k : Nat) (e : ε)
  /-- `next` returns `None`. -/
  | recvEnd
  | disconnect
  | loseTask (k : Nat)
  | loseResult (k : Nat)
  | dupTask (k : Nat)
  | dupResult (k : Nat)
deriving Repr

/-- One step. `recvEnd`: coordinated_stream.rs:137-157. -/
def step (op : ω → α → Except ε β) (x : α) (s : St α β ε) (l : Label ε ω) : Option (St α β ε) :=
  match l with
  | .send => if s.pc = .publishing ∧ s.sent = false then some { s with sent := true, tasks := s.tasks ++ [x] } else none
  | .published => if s.pc = .publishing ∧ s.sent = true then some { s with pc := .closing } else none
  | .publishErr e => if s.pc = .publishing then some { s with pc := .done, ret := some (.err e), closed := true } else none
  | .closed => if s.pc = .closing then some { s with pc := .waiting, closed := true } else none
  | .closeErr e => if s.pc = .closing then some { s with pc := .done, ret := some (.err e), closed := true } else none
  | .exec k w =>
    match Fold.takeAt s.tasks k with
    | some (t, rest) => some { s with tasks := rest, results := s.results ++ [op w t] }
    | none => none
  | .recv k =>
    if s.pc = .waiting ∧ s.innerEnded = false then
      match Fold.takeAt s.results k with
      | some (.ok b, rest) => some { s with results := rest, pending := s.pending - 1, pc := .done, ret := some (.ok b) }
      | some (.error e, rest) => some { s with results := rest, pending := s.pending - 1, pc := .done, ret := some (.err e) }
      | none => none
    else none
  | .recvAckErr k e =>
    if s.pc = .waiting ∧ s.innerEnded = false then
      match Fold.takeAt s.results k with
      | some (_, rest) => some { s with results := rest, pc := .done, ret := some (.err e) }
      | none => none
    else none
  | .recvEnd =>
    if s.pc = .waiting ∧ (s.closed = true ∨ s.innerEnded = true) ∧ s.pending = 0
    then some { s with pc := .done, ret := some .noResults } else none
  | .disconnect => some { s with innerEnded := true }
  | .loseTask k =>
    match Fold.takeAt s.tasks k with
    | some (_, rest) => some { s with tasks := rest }
    | none => none
  | .loseResult k =>
    match Fold.takeAt s.results k with
    | some (_, rest) => some { s with results := rest }
    | none => none
  | .dupTask k =>
    match s.tasks[k]? with
    | some t => some { s with tasks := s.tasks ++ [t] }
    | none => none
  | .dupResult k =>
    match s.results[k]? with
    | some r => some { s with results := s.results ++ [r] }
    | none => none

/-- Executions of literal/functor.rs:10-34. -/
def run (op : ω → α → Except ε β) (x : α) : St α β ε → List (Label ε ω) → Option (St α β ε)
  | s, [] => some s
  | s, l :: ls => (step op x s l).bind fun s' => run op x s' ls

end Lit
end Paladin
