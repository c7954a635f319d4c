import Verif.Model.Lts
/-!
# Poll-level model of `IndexedStream::map`

Code: `f_map` in `directive/indexed_stream/functor.rs`: `select(sender_stream, result_stream)`, polled by one task. `futures::stream::select` (futures 0.3.31) polls one side and, unless that
yields an item, the other; which one is first alternates between polls until a side has ended. Wakers are modelled: `woken` says that the task's waker was called since the last poll began.

Simplified: the sending side is any future that keeps the waker contract (once polled, it calls the waker when it can go on; `Verif/Props/PubAll.lean`, C53, shows this of `publish_all`), and
what it does in a poll is chosen freely; the queue consumer likewise calls the waker when a result arrives after a poll that found none. Messages are counted, not identified; every published task
gives at most one result. The publisher's own `close` does not wait.
-/
namespace Paladin
namespace MapPoll

/-- The sending side, functor.rs:40-55: `ready` says that it can go on when polled. -/
inductive Left where
  | running (ready : Bool)
  | over
  deriving DecidableEq, Repr

/-- `PollNext` of futures' `select`. Used through indexed_stream/functor.rs:64. -/
inductive Side where
  | left
  | right
  deriving DecidableEq, Repr

/-- `PollNext::other`, used through indexed_stream/functor.rs:64. -/
def Side.other : Side → Side
  | .left => .right
  | .right => .left

/-- `InternalState` of futures' `select_with_strategy`. Used through indexed_stream/functor.rs:64. -/
inductive Sel where
  | start
  | leftFinished
  | rightFinished
  | bothFinished
  deriving DecidableEq, Repr

/-- `InternalState::finish`, used through indexed_stream/functor.rs:64. -/
def Sel.finish : Sel → Side → Sel
  | .start, .left => .leftFinished
  | .start, .right => .rightFinished
  | .leftFinished, .right => .bothFinished
  | .rightFinished, .left => .bothFinished
  | s, _ => s

/-- What a poll of a stream returns. Code: indexed_stream/mod.rs:196-198. -/
inductive Out where
  | pending
  | item
  | done
  deriving DecidableEq, Repr

/-- The stream made in indexed_stream/functor.rs:40-67, the coordinated channel below it, and the waker of the task that polls it. -/
structure St where
  left : Left
  /-- `num_pending_sends` and `closed`, coordinated_channel/mod.rs:30-51 -/
  pending : Nat
  closed : Bool
  /-- tasks whose result has not arrived -/
  inflight : Nat
  /-- results that have arrived and were not received -/
  results : Nat
  /-- the queue consumer was polled and found nothing, and has not called the waker since -/
  resReg : Bool
  /-- the future in `then` that acknowledges a received result (functor.rs:57-62): whether the broker has confirmed -/
  acking : Option Bool
  side : Side
  sel : Sel
  woken : Bool
  /-- what the last poll returned -/
  last : Option Out
  deriving DecidableEq, Repr

/-- The task is about to poll for the first time. Code: indexed_stream/functor.rs:64-67. -/
def init : St :=
  { left := .running true, pending := 0, closed := false, inflight := 0, results := 0, resReg := false, acking := none, side := .left, sel := .start, woken := true, last := none }

/-- What the sending side does when it can go on: publishes `k` tasks, and then waits again, ends, or fails. Code: indexed_stream/functor.rs:48-50. -/
inductive Choice where
  | waits (k : Nat)
  | ends (k : Nat)
  | fails (k : Nat)
  deriving DecidableEq, Repr

/-- `k` tasks are counted and sent, indexed_stream/functor.rs:48, coordinated_publisher.rs:56-69. -/
def publish (s : St) (k : Nat) : St := { s with pending := s.pending + k, inflight := s.inflight + k }

/-- Poll of `sender_stream`, functor.rs:40-55. On success it closes the sender and yields nothing; on failure the sender is dropped, which closes it
(coordinated_publisher.rs:31-35), and the error is an item. -/
def pollLeft (s : St) (c : Choice) : St × Out :=
  match s.left with
  | .over => (s, .done)
  | .running false => (s, .pending)
  | .running true =>
    match c with
    | .waits k => ({ publish s k with left := .running false }, .pending)
    | .ends k => ({ publish s k with left := .over, closed := true }, .done)
    | .fails k => ({ publish s k with left := .over, closed := true }, .item)

/-- `CoordinatedAcker::ack`, coordinated_stream.rs:91-99: the waker is called when the last pending send is acknowledged. -/
def ack (s : St) : St := { s with pending := s.pending - 1, woken := s.woken || (s.pending == 1) }

/-- Poll of `result_stream`, functor.rs:57-62 over coordinated_stream.rs:125-159; `now` says that the broker's acknowledgement does not wait. -/
def pollRight (s : St) (now : Bool) : St × Out :=
  match s.acking with
  | some true => (ack { s with acking := none }, .item)
  | some false => (s, .pending)
  | none =>
    if 0 < s.results then
      if now then (ack { s with results := s.results - 1 }, .item)
      else ({ s with results := s.results - 1, acking := some false }, .pending)
    else if s.closed && s.pending == 0 then ({ s with resReg := true }, .done)
    else ({ s with resReg := true }, .pending)

/-- Code: the two streams of indexed_stream/functor.rs:65-66. -/
def pollSide (s : St) (c : Choice) (now : Bool) : Side → St × Out
  | .left => pollLeft s c
  | .right => pollRight s now

/-- `poll_inner` of futures' `select_with_strategy`. Used through indexed_stream/functor.rs:64. -/
def pollInner (s : St) (c : Choice) (now : Bool) (side : Side) : St × Out :=
  let r := pollSide s c now side
  match r.2 with
  | .item => r
  | .done =>
    let t := pollSide { r.1 with sel := r.1.sel.finish side } c now side.other
    match t.2 with
    | .done => ({ t.1 with sel := t.1.sel.finish side.other }, .done)
    | _ => t
  | .pending =>
    let t := pollSide r.1 c now side.other
    match t.2 with
    | .done => ({ t.1 with sel := t.1.sel.finish side.other }, .pending)
    | _ => t

/-- `poll_next` of futures' `select`. Used through indexed_stream/functor.rs:64. -/
def pollSelect (s : St) (c : Choice) (now : Bool) : St × Out :=
  match s.sel with
  | .start => pollInner { s with side := s.side.other } c now s.side
  | .leftFinished =>
    let r := pollRight s now
    match r.2 with
    | .done => ({ r.1 with sel := .bothFinished }, .done)
    | _ => r
  | .rightFinished =>
    let r := pollLeft s c
    match r.2 with
    | .done => ({ r.1 with sel := .bothFinished }, .done)
    | _ => r
  | .bothFinished => (s, .done)

/-- A poll of the stream of indexed_stream/functor.rs:64-67, or something that happens outside. -/
inductive Label where
  /-- the task polls -/
  | poll (c : Choice) (now : Bool)
  /-- the sending side can go on (its input has an item or has ended, or a publish is through), and says so -/
  | input
  /-- a result arrives -/
  | arrive
  /-- the broker confirms an acknowledgement -/
  | acked
  deriving DecidableEq, Repr

/-- One step, indexed_stream/functor.rs:40-67. -/
def step (s : St) : Label → Option St
  | .poll c now => if s.last = some .done then none else
    let r := pollSelect { s with woken := false } c now
    some { r.1 with last := some r.2 }
  | .input => if s.left = .running false then some { s with left := .running true, woken := true } else none
  | .arrive => if 0 < s.inflight then some { s with inflight := s.inflight - 1, results := s.results + 1, woken := s.woken || s.resReg, resReg := false } else none
  | .acked => if s.acking = some false then some { s with acking := some true, woken := true } else none

/-- Executions of indexed_stream/functor.rs:40-67. -/
def run (s : St) (ls : List Label) : Option St := Lts.run step s ls

end MapPoll
end Paladin
