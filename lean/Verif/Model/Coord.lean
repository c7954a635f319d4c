import Verif.Model.Fold
/-!
# Model of the coordinated channel

Code: `paladin-core/src/channel/coordinated_channel/{mod,coordinated_publisher,coordinated_stream}.rs`.

Every access to the shared atomics is one step; steps of publishing, closing, polling and acknowledging threads interleave in any order.
`num_pending_sends` (a `usize` changed by wrapping `fetch_add`/`fetch_sub`) is an integer, with which it agrees modulo `2^64`.

Messages are numbered in the order in which they are counted. In `lease_coordinated_task_channel` the sender sends tasks and the receiver yields their results;
here a result is identified with the message it answers. Each message is answered at most once (redelivery: `Verif/Model/MapS.lean`).
-/
namespace Paladin
namespace Coord

/-- Where a message is. Code: coordinated_publisher.rs:56-69, coordinated_stream.rs:91-99, 125-159. -/
inductive MSt where
  /-- counted (coordinated_publisher.rs:61), not handed to the broker yet -/
  | counted
  /-- handed to the broker -/
  | sent
  /-- ready in the inner stream of the receiver -/
  | avail
  /-- yielded by the receiver, not acknowledged -/
  | yielded
  /-- a call of `ack` has swapped `did_ack` (coordinated_stream.rs:92) and not decremented yet -/
  | acking
  /-- decremented (coordinated_stream.rs:96) -/
  | acked
  /-- its publish failed or was dropped before the message was sent -/
  | dead
  /-- lost by the broker, or no result is ever produced -/
  | lost
deriving DecidableEq, Repr

/-- Where the receiver's `poll_next` is. Code: coordinated_stream.rs:125-159. -/
inductive RPc where
  | idle
  /-- the inner stream returned `Pending`, coordinated_stream.rs:135 -/
  | sawPending
  /-- `num_pending_sends` was loaded, line 139 -/
  | loaded (n : Int)
  /-- the inner stream returned `Ready(None)`, line 151 -/
  | sawEnd
deriving DecidableEq, Repr

/-- What `poll_next` returned. Code: coordinated_stream.rs:125. -/
inductive PollRes where
  | item (m : Nat)
  | none
  | pending
deriving DecidableEq, Repr

/-- `ChannelState` (coordinated_channel/mod.rs:30-35), the publishes and messages, and the receiver (coordinated_stream.rs:52-56). -/
structure St where
  closed : Bool
  pending : Int
  /-- status of each message -/
  status : List MSt
  /-- calls of `publish` past the closed check (coordinated_publisher.rs:57) and before the count -/
  checked : Nat
  /-- messages of the calls of `publish` inside `inner.publish` that have not sent -/
  counted : List Nat
  /-- messages of the calls of `publish` that have sent and not returned -/
  sending : List Nat
  /-- items ready in the inner stream -/
  queue : List Nat
  innerEnded : Bool
  /-- the inner stream holds the receiver's waker -/
  innerWaker : Bool
  recv : RPc
  /-- result of the last completed poll -/
  last : Option PollRes
  /-- the receiver's waker has been called since its last poll started -/
  woken : Bool
  /-- messages yielded so far -/
  yields : List Nat
  /-- messages handed to the broker so far -/
  handed : List Nat
  /-- messages whose `publish` returned `Ok` -/
  published : List Nat
  /-- calls of `publish` that returned `PublisherClosed` -/
  rejected : Nat
deriving DecidableEq, Repr

/-- Code: `coordinated_channel`, coordinated_channel/mod.rs:65-74. -/
def init : St :=
  { closed := false, pending := 0, status := [], checked := 0, counted := [], sending := [], queue := [], innerEnded := false, innerWaker := false, recv := .idle, last := none,
    woken := false, yields := [], handed := [], published := [], rejected := 0 }

/-- The atomic pieces of coordinated_publisher.rs:31-75 and coordinated_stream.rs:91-159. -/
inductive Label where
  /-- A thread calls `publish`; the closed check. -/
  | pubCheck
  /-- A publish counts its message. -/
  | pubCount
  /-- The `k`-th publish that has counted sends its message. -/
  | pubSend (k : Nat)
  /-- The `k`-th publish that has sent returns `Ok`. -/
  | pubOk (k : Nat)
  /-- The `k`-th publish that has counted and not sent returns an error, or its future is dropped. -/
  | pubFail (k : Nat)
  /-- The `k`-th publish that has sent returns an error, or its future is dropped. -/
  | pubFailSent (k : Nat)
  /-- `ChannelState::close`: by `close`, after closing the inner publisher succeeded, or by dropping the publisher. -/
  | close
  /-- The result of message `m` reaches the receiver's inner stream. -/
  | respond (m : Nat)
  /-- Message `m` or its result is lost. -/
  | lose (m : Nat)
  /-- The inner stream ends. -/
  | innerEnd
  /-- The receiver is polled: it polls the inner stream. -/
  | pollInner
  /-- It loads `num_pending_sends`. -/
  | loadNum
  /-- It loads `closed` and returns. -/
  | loadClosed
  /-- Some thread calls `ack` or `nack` on the acker of message `m`: the swap of `did_ack`. -/
  | ackSwap (m : Nat)
  /-- The call that won the swap decrements. -/
  | ackSub (m : Nat)
deriving DecidableEq, Repr

/-- One atomic step; `none` when the label is not possible. Code: coordinated_publisher.rs:31-75, coordinated_stream.rs:91-159. -/
def step (s : St) : Label → Option St
  -- coordinated_publisher.rs:57-59
  | .pubCheck => some (if s.closed then { s with rejected := s.rejected + 1 } else { s with checked := s.checked + 1 })
  -- coordinated_publisher.rs:61
  | .pubCount =>
    if 0 < s.checked
    then some { s with checked := s.checked - 1, pending := s.pending + 1, status := s.status ++ [.counted], counted := s.counted ++ [s.status.length] }
    else none
  -- inside `inner.publish`, coordinated_publisher.rs:63-66
  | .pubSend k =>
    match Fold.takeAt s.counted k with
    | some (m, rest) => some { s with counted := rest, sending := s.sending ++ [m], status := s.status.set m .sent, handed := s.handed ++ [m] }
    | none => none
  -- coordinated_publisher.rs:68
  | .pubOk k =>
    match Fold.takeAt s.sending k with
    | some (m, rest) => some { s with sending := rest, published := s.published ++ [m] }
    | none => none
  -- coordinated_publisher.rs:66: the counter is not decremented
  | .pubFail k =>
    match Fold.takeAt s.counted k with
    | some (m, rest) => some { s with counted := rest, status := s.status.set m .dead }
    | none => none
  | .pubFailSent k =>
    match Fold.takeAt s.sending k with
    | some (_, rest) => some { s with sending := rest }
    | none => none
  -- coordinated_channel/mod.rs:44-50 (a load and a store of `true`: the same as the store), coordinated_publisher.rs:31-35, 71-75. No waker is called.
  | .close => some { s with closed := true }
  | .respond m =>
    if s.status[m]? = some .sent ∧ s.innerEnded = false
    then some { s with status := s.status.set m .avail, queue := s.queue ++ [m], woken := s.woken || s.innerWaker, innerWaker := false } else none
  | .lose m =>
    if s.status[m]? = some .sent then some { s with status := s.status.set m .lost }
    else if s.status[m]? = some .avail then some { s with status := s.status.set m .lost, queue := s.queue.filter (· ≠ m) }
    else none
  | .innerEnd => some { s with innerEnded := true, woken := s.woken || s.innerWaker, innerWaker := false }
  -- coordinated_stream.rs:125-135, 151
  | .pollInner =>
    if s.recv ≠ .idle then none else
    match s.queue with
    | m :: q =>
      some { s with queue := q, status := s.status.set m .yielded, yields := s.yields ++ [m], last := some (.item m), woken := false, innerWaker := false }
    | [] =>
      if s.innerEnded then some { s with recv := .sawEnd, woken := false }
      else some { s with recv := .sawPending, woken := false, innerWaker := true }
  -- coordinated_stream.rs:139 and 152-156
  | .loadNum =>
    match s.recv with
    | .sawPending => some { s with recv := .loaded s.pending }
    | .sawEnd => some { s with recv := .idle, last := some (if s.pending = 0 then .none else .pending) }
    | _ => none
  -- coordinated_stream.rs:140-145
  | .loadClosed =>
    match s.recv with
    | .loaded n => some { s with recv := .idle, last := some (if s.closed ∧ n = 0 then .none else .pending) }
    | _ => none
  -- coordinated_stream.rs:92-94, 104-106
  | .ackSwap m =>
    match s.status[m]? with
    | some .yielded => some { s with status := s.status.set m .acking }
    | some .acking => some s
    | some .acked => some s
    | _ => none
  -- coordinated_stream.rs:96-98. The acker's waker is the one of the poll that yielded the message; all polls are made by one task.
  | .ackSub m =>
    if s.status[m]? = some .acking
    then some { s with status := s.status.set m .acked, pending := s.pending - 1, woken := s.woken || decide (s.pending = 1) } else none

/-- Executions of coordinated_publisher.rs:31-75 and coordinated_stream.rs:91-159. -/
def run : St → List Label → Option St
  | s, [] => some s
  | s, l :: ls => (step s l).bind fun s' => run s' ls

/-! ## Everything driven from one task

The code between two await points runs without interruption: the closed check and the count of `publish` (coordinated_publisher.rs:57-61), a whole
`poll_next`, a whole `ack`. -/

/-- Calls made by one task: coordinated_publisher.rs:56-75, coordinated_stream.rs:91-106, 125-159. -/
inductive Call where
  /-- `publish` up to its await: rejected or counted. -/
  | publish
  | send (k : Nat)
  | pubOk (k : Nat)
  | pubFail (k : Nat)
  | pubFailSent (k : Nat)
  | close
  | respond (m : Nat)
  | lose (m : Nat)
  | innerEnd
  | poll
  /-- `ack` or `nack` on the acker of `m`. -/
  | ack (m : Nat)
deriving DecidableEq, Repr

/-- The atomic steps of a call. Code: coordinated_publisher.rs:56-75, coordinated_stream.rs:91-159. -/
def Call.steps (s : St) : Call → List Label
  | .publish => if s.closed then [.pubCheck] else [.pubCheck, .pubCount]
  | .send k => [.pubSend k]
  | .pubOk k => [.pubOk k]
  | .pubFail k => [.pubFail k]
  | .pubFailSent k => [.pubFailSent k]
  | .close => [.close]
  | .respond m => [.respond m]
  | .lose m => [.lose m]
  | .innerEnd => [.innerEnd]
  | .poll => if s.queue ≠ [] then [.pollInner] else if s.innerEnded then [.pollInner, .loadNum] else [.pollInner, .loadNum, .loadClosed]
  | .ack m => if s.status[m]? = some .yielded then [.ackSwap m, .ackSub m] else [.ackSwap m]

/-- A call from beginning to end, coordinated_publisher.rs:56-75, coordinated_stream.rs:91-159. -/
def call (s : St) (c : Call) : Option St := run s (c.steps s)

/-- Calls one after the other, coordinated_publisher.rs:56-75, coordinated_stream.rs:91-159. -/
def runCalls : St → List Call → Option St
  | s, [] => some s
  | s, c :: cs => (call s c).bind fun s' => runCalls s' cs

end Coord
end Paladin
