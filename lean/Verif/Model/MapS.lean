import Verif.Model.Fold
import Verif.Model.Prelude
/-!
# Model of `IndexedStream::map`

Code: `paladin-core/src/directive/indexed_stream/functor.rs`, `f_map`, lines 27-68, over the coordinated channel
(`channel/coordinated_channel/*`).

The sender side and the receiver side are polled by the task that polls the stream (`futures::stream::select`, functor.rs:64-67), so the code
between suspension points is atomic: one label each, in any order.

`α` input, `β` output, `ε` error, `ω` the circumstances of an execution: executing the operation on `a` under `w` gives `op w a`.
The waking of the task is not modelled here (see `Verif/Model/MapPoll.lean`): a label may occur whenever its code would do it if polled.
-/
namespace Paladin
namespace MapS

/-- An output item or a task result: the index comes back in the metadata of a success only. Code: functor.rs:58-61, task/mod.rs:139-147. -/
abbrev Item (β ε : Type) := Except ε (Nat × β)

/-- The streams of indexed_stream/functor.rs:40-67, the coordinated channel and the messages between leader and workers. -/
structure St (α β ε : Type) where
  /-- Publishes that have counted the message (coordinated_publisher.rs:61) and not yet sent it. -/
  inflight : List (Nat × α)
  /-- Publishes that sent the message and have not returned yet. -/
  unconf : Nat
  /-- Messages at the broker or a worker. -/
  tasks : List (Nat × α)
  /-- Results at the broker, or received and not yet acknowledged. -/
  results : List (Item β ε)
  /-- `num_pending_sends`, coordinated_channel/mod.rs:34: a `usize` changed by `fetch_add` and `fetch_sub`, which wrap. Simplification: an integer, with
  which the `usize` agrees modulo `2^64`; the difference shows only beyond `2^64` unfinished messages. -/
  pending : Int
  /-- `closed`, coordinated_channel/mod.rs:32. -/
  closed : Bool
  /-- The sender stream has ended (functor.rs:40-55). -/
  sendDone : Bool
  /-- The broker's consumer stream has ended. -/
  innerEnded : Bool
  /-- The receiver stream has ended. -/
  recvEnded : Bool
  /-- Items yielded so far, in order. -/
  outs : List (Item β ε)
  /-- `select` has ended: the mapped stream returned `None`. -/
  ended : Bool
deriving DecidableEq, Repr

/-- Code: functor.rs:32-33, coordinated_channel/mod.rs:29-41. -/
def init : St α β ε :=
  { inflight := [], unconf := 0, tasks := [], results := [], pending := 0, closed := false, sendDone := false,
    innerEnded := false, recvEnded := false, outs := [], ended := false }

/-- The atomic pieces of indexed_stream/functor.rs:40-67, of the workers and of the broker. -/
inductive Label (α ε ω : Type) where
  /-- The input stream yields `Ok((i, a))`; its publish starts. -/
  | item (i : Nat) (a : α)
  /-- The input stream yields `Err(e)`. -/
  | inputErr (e : ε)
  /-- The `k`-th publish sends its message. -/
  | send (k : Nat)
  /-- A publish that has sent its message returns `Ok`. -/
  | confirm
  /-- The `k`-th publish fails before sending. -/
  | publishErr (k : Nat) (e : ε)
  /-- A publish that has sent its message fails. -/
  | confirmErr (e : ε)
  /-- The input stream has ended, all publishes have returned, the sender is closed. -/
  | inputEnd
  /-- As `inputEnd`, but closing fails. -/
  | closeErr (e : ε)
  /-- A worker executes the `k`-th task and its result is delivered. -/
  | exec (k : Nat) (w : ω)
  /-- The `k`-th result is received and acknowledged, and yielded. -/
  | recv (k : Nat)
  /-- The `k`-th result is received, acknowledging it fails, the error is yielded. -/
  | recvAckErr (k : Nat) (e : ε)
  /-- The receiver ends. -/
  | recvEnd
  /-- The mapped stream ends. -/
  | finish
  /-- The broker's consumer stream ends. -/
  | disconnect
  /-- A task or a result vanishes (an ignored error, a lost message). -/
  | loseTask (k : Nat)
  | loseResult (k : Nat)
  /-- A task or a result is delivered once more. -/
  | dupTask (k : Nat)
  | dupResult (k : Nat)
deriving Repr

/-- The sending future fails: its error is forwarded (functor.rs:52-55); `publish_all` drops the publishes in flight; the sender is dropped and
closes the channel (coordinated_publisher.rs:31-35). The counter keeps counting the dropped publishes. -/
def sendFail (s : St α β ε) (e : ε) : St α β ε :=
  { s with inflight := [], unconf := 0, closed := true, sendDone := true, outs := s.outs ++ [.error e] }

/-- `MAX_CONCURRENCY`, functor.rs:24. -/
def limit : Nat := 10

/-- One step; `none` when the label is not possible.

* `item`: `publish_all` polls its input only with fewer than `limit` publishes in flight (publisher.rs:58-74); the publish finds the channel open
  and counts itself (coordinated_publisher.rs:57-61).
* `inputEnd`: functor.rs:48-50.
* `recv`: functor.rs:58-61; the acknowledgement is composed: broker first, then the counter (acker.rs:131-143).
* `recvEnd`: coordinated_stream.rs:137-157: closed and no pending sends; if the inner stream has ended, no pending sends. The check that the inner stream
  has nothing available is dropped: a result may still be on its way.
* `finish`: `select` ends when both streams have ended. -/
def step (op : ω → α → Except ε β) (s : St α β ε) (l : Label α ε ω) : Option (St α β ε) :=
  if s.ended then none else
  match l with
  | .item i a =>
    if !s.sendDone && decide (s.inflight.length + s.unconf < limit)
    then some { s with inflight := s.inflight ++ [(i, a)], pending := s.pending + 1 } else none
  | .inputErr e => if !s.sendDone then some (sendFail s e) else none
  | .send k =>
    match Fold.takeAt s.inflight k with
    | some (t, rest) => some { s with inflight := rest, unconf := s.unconf + 1, tasks := s.tasks ++ [t] }
    | none => none
  | .confirm => if 0 < s.unconf then some { s with unconf := s.unconf - 1 } else none
  | .publishErr k e =>
    match Fold.takeAt s.inflight k with
    | some _ => some (sendFail s e)
    | none => none
  | .confirmErr e => if 0 < s.unconf then some (sendFail s e) else none
  | .inputEnd =>
    if !s.sendDone && s.inflight.isEmpty && decide (s.unconf = 0)
    then some { s with closed := true, sendDone := true } else none
  | .closeErr e =>
    if !s.sendDone && s.inflight.isEmpty && decide (s.unconf = 0)
    then some (sendFail s e) else none
  | .exec k w =>
    match Fold.takeAt s.tasks k with
    | some (t, rest) => some { s with tasks := rest, results := s.results ++ [(op w t.2).map fun b => (t.1, b)] }
    | none => none
  | .recv k =>
    if s.recvEnded || s.innerEnded then none else
    match Fold.takeAt s.results k with
    | some (r, rest) => some { s with results := rest, pending := s.pending - 1, outs := s.outs ++ [r] }
    | none => none
  | .recvAckErr k e =>
    if s.recvEnded || s.innerEnded then none else
    match Fold.takeAt s.results k with
    | some (_, rest) => some { s with results := rest, outs := s.outs ++ [.error e] }
    | none => none
  | .recvEnd =>
    if !s.recvEnded && (s.closed || s.innerEnded) && decide (s.pending = 0) then some { s with recvEnded := true } else none
  | .finish => if s.sendDone && s.recvEnded then some { s with ended := true } else none
  | .disconnect => some { s with innerEnded := true }
  | .loseTask k =>
    match Fold.takeAt s.tasks k with
    | some (_, rest) => some { s with tasks := rest }
    | none => none
  | .loseResult k =>
    match Fold.takeAt s.results k with
    | some (_, rest) => some { s with results := rest }
    | none => none
  | .dupTask k =>
    match s.tasks[k]? with
    | some t => some { s with tasks := s.tasks ++ [t] }
    | none => none
  | .dupResult k =>
    match s.results[k]? with
    | some r => some { s with results := s.results ++ [r] }
    | none => none

/-- Run a sequence of labels; `none` if some label is not possible where it occurs. Executions of indexed_stream/functor.rs:28-68. -/
def run (op : ω → α → Except ε β) : St α β ε → List (Label α ε ω) → Option (St α β ε)
  | s, [] => some s
  | s, l :: ls => (step op s l).bind fun s' => run op s' ls

/-- `into_values_sorted`, directive/indexed_stream/mod.rs:138-142: `try_collect` returns the first error as soon as it is yielded; at the end of
the stream the items are sorted by index with `sort_unstable_by`, of which only is assumed that it returns a permutation sorted by index. The relation
says which results the call may have returned when the stream has yielded `outs` (`ended`: and then ended). -/
inductive Collects : List (Item β ε) → Bool → Except ε (List β) → Prop
  | err {pre : List (Nat × β)} {e : ε} {rest : List (Item β ε)} {en : Bool} :
      Collects (pre.map Except.ok ++ .error e :: rest) en (.error e)
  | ok {oks sorted : List (Nat × β)} : sorted.Perm oks → sorted.Pairwise (fun a b => a.1 ≤ b.1) →
      Collects (oks.map Except.ok) true (.ok (sorted.map (·.2)))

end MapS
end Paladin
