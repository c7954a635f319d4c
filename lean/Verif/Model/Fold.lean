import Verif.Model.Contig
/-!
# Model of `IndexedStream::fold`

Code: `paladin-core/src/directive/indexed_stream/foldable.rs`, `f_fold`, lines 133-297.

All futures of `f_fold` (`init`, `task_handler`, `result_processor`, the oneshot) are polled by one task through `select!`
(lines 287-296), so the code between two await points that can suspend runs atomically. Each label below is one such
atomic piece. The order of labels is arbitrary: this covers every poll order, every order in which workers finish and every
arrival order of items and results.

`α` element type, `ε` error type, `ω` whatever a remote execution may depend on besides its inputs (attempts, time,
randomness): executing `combine` on `a`, `b` under circumstances `w` gives `comb w a b`.
-/
namespace Paladin
namespace Fold

/-- A combine task. Code: `Task { metadata: Metadata { range }, input: (lhs.output, rhs.output), .. }`, foldable.rs:105-112. -/
structure CTask (α : Type) where
  lo : Nat
  hi : Nat
  a : α
  b : α
deriving DecidableEq, Repr

/-- What reaches the leader's result queue for one task. Code: `TaskResult`, task/mod.rs:57, 139-147. -/
inductive Res (α ε : Type) where
  | ok (s : Seg α)
  | err (e : ε)
deriving DecidableEq, Repr

/-- How `f_fold` ended. Code: foldable.rs:287-296. -/
inductive Outcome (α ε : Type) where
  | ok (v : α)
  | err (e : ε)
  | panic
deriving DecidableEq, Repr

/-- The locals of `f_fold` (foldable.rs:137-236) and the messages between leader and workers. -/
structure St (α ε : Type) where
  /-- `count`, foldable.rs:158 -/
  count : Nat
  /-- `resolved_input_size`, foldable.rs:166; `none` is the `usize::MAX` sentinel. -/
  size : Option Nat
  /-- `should_dispatch` permit, foldable.rs:156: set once two items have arrived. -/
  notified : Bool
  /-- `assembler`, foldable.rs:143 -/
  q : CQueue α
  /-- Tasks sent on the mpsc channel and not yet published, foldable.rs:142. Simplification: the channel is unbounded. With a fresh
  clone of the sender per send (line 113) a futures mpsc accepts the message at once; only the sending future waits. -/
  outbox : List (CTask α)
  /-- Tasks published to the broker and not yet executed. -/
  tasks : List (CTask α)
  /-- Results in the result queue, not yet received. -/
  results : List (Res α ε)
  /-- Value sent on the oneshot `final_result_tx`, foldable.rs:232, 256-260. -/
  final : Option α
  /-- Result of `select!`, foldable.rs:287-296. -/
  outcome : Option (Outcome α ε)
deriving DecidableEq, Repr

/-- Initial state, foldable.rs:137-166. -/
def init : St α ε :=
  { count := 0, size := none, notified := false, q := [], outbox := [], tasks := [], results := [],
    final := none, outcome := none }

/-- The atomic pieces of `f_fold` (foldable.rs:171-296), of the workers and of the broker. -/
inductive Label (α ε ω : Type) where
  /-- The input stream yields `Ok((i, a))`. -/
  | item (i : Nat) (a : α)
  /-- The input stream yields `Err(e)`. -/
  | inputErr (e : ε)
  /-- The input stream ends. -/
  | inputEnd
  /-- `publish_all` publishes the `k`-th waiting task. -/
  | publish (k : Nat)
  /-- Publishing, acknowledging, sending or closing fails. -/
  | ioErr (e : ε)
  /-- A worker executes the `k`-th published task and its result is delivered. -/
  | exec (k : Nat) (w : ω)
  /-- The leader receives and handles the `k`-th result. -/
  | recv (k : Nat)
  /-- The oneshot branch of `select!` completes. -/
  | finish
  /-- The broker's consumer stream ends (connection closed). -/
  | disconnect
  /-- A published task or a result vanishes (an ignored error, a lost message). -/
  | loseTask (k : Nat)
  | loseResult (k : Nat)
  /-- The broker delivers a task or a result once more. -/
  | dupTask (k : Nat)
  | dupResult (k : Nat)
deriving Repr

/-- Remove the `k`-th element. No code of its own: an element of a bag is chosen (foldable.rs:172, 244, 280). -/
def takeAt (l : List β) (k : Nat) : Option (β × List β) :=
  match l[k]? with
  | some x => some (x, l.eraseIdx k)
  | none => none

/-- Code: `Dispatcher::try_dispatch`, foldable.rs:103-118. -/
def tryDispatch (s : St α ε) (x : Seg α) : St α ε :=
  match s.q.acquire x with
  | (some (l, r), q') => { s with q := q', outbox := s.outbox ++ [⟨l.lo, r.hi, l.val, r.val⟩] }
  | (none, q') => { s with q := q' }

/-- Code: the per-item closure of `init`, foldable.rs:171-201. -/
def onItem (s : St α ε) (i : Nat) (a : α) : St α ε :=
  let x : Seg α := ⟨i, i, a⟩
  let s' := { s with count := s.count + 1 }
  if s.count + 1 < 2 then { s' with q := s'.q.queue x }
  else tryDispatch { s' with notified := true } x

/-- Code: the end of `init`, foldable.rs:202-230. -/
def onInputEnd (empty : α) (s : St α ε) : St α ε :=
  let s' := { s with size := some s.count }
  match s.count with
  | 0 => { s' with outcome := some (.ok empty) }
  | 1 =>
    match s.q.dequeue 0 with
    | (some v, q') => { s' with q := q', outcome := some (.ok v.val) }
    | (none, q') => { s' with q := q', outcome := some .panic }
  | _ => s'

/-- Code: the per-result closure of `result_processor`, foldable.rs:249-268. A successful `ack` has no effect here. The error for a
second final result (lines 256-258) is `dupErr`. -/
def onResult (dupErr : ε) (s : St α ε) (r : Res α ε) : St α ε :=
  match r with
  | .err e => { s with outcome := some (.err e) }
  | .ok x =>
    match s.size with
    | some n =>
      if x.isFinal n then
        match s.final with
        | none => { s with final := some x.val }
        | some _ => { s with outcome := some (.err dupErr) }
      else tryDispatch s x
    | none => tryDispatch s x

/-- Remote execution of a task: derive macro and worker, paladin-opkind-derive/src/lib.rs:112-173, runtime/mod.rs:556-605. The range in the
metadata is returned unchanged. -/
def execute (comb : ω → α → α → Except ε α) (w : ω) (t : CTask α) : Res α ε :=
  match comb w t.a t.b with
  | .ok c => .ok ⟨t.lo, t.hi, c⟩
  | .error e => .err e

/-- One step; `none` when the label is not possible. Nothing happens after the outcome. The input stream is not polled again after it ended
(`size` is set). Results are received only after `should_dispatch` (foldable.rs:240). The stream of results ending makes
`unreachable!` panic (foldable.rs:272). -/
def step (comb : ω → α → α → Except ε α) (empty : α) (dupErr : ε) (s : St α ε) (l : Label α ε ω) : Option (St α ε) :=
  if s.outcome.isSome then none else
  match l with
  | .item i a => if s.size.isSome then none else some (onItem s i a)
  | .inputErr e => if s.size.isSome then none else some { s with outcome := some (.err e) }
  | .inputEnd => if s.size.isSome then none else some (onInputEnd empty s)
  | .publish k =>
    match takeAt s.outbox k with
    | some (t, rest) => some { s with outbox := rest, tasks := s.tasks ++ [t] }
    | none => none
  | .ioErr e => some { s with outcome := some (.err e) }
  | .exec k w =>
    match takeAt s.tasks k with
    | some (t, rest) => some { s with tasks := rest, results := s.results ++ [execute comb w t] }
    | none => none
  | .recv k =>
    if !s.notified then none else
    match takeAt s.results k with
    | some (r, rest) => some (onResult dupErr { s with results := rest } r)
    | none => none
  | .finish =>
    match s.final with
    | some v => some { s with outcome := some (.ok v) }
    | none => none
  | .disconnect => if s.notified then some { s with outcome := some .panic } else none
  | .loseTask k =>
    match takeAt s.tasks k with
    | some (_, rest) => some { s with tasks := rest }
    | none => none
  | .loseResult k =>
    match takeAt s.results k with
    | some (_, rest) => some { s with results := rest }
    | none => none
  | .dupTask k =>
    match s.tasks[k]? with
    | some t => some { s with tasks := s.tasks ++ [t] }
    | none => none
  | .dupResult k =>
    match s.results[k]? with
    | some r => some { s with results := s.results ++ [r] }
    | none => none

/-- Run a sequence of labels; `none` if some label is not possible where it occurs. Executions of foldable.rs:133-297. -/
def run (comb : ω → α → α → Except ε α) (empty : α) (dupErr : ε) : St α ε → List (Label α ε ω) → Option (St α ε)
  | s, [] => some s
  | s, l :: ls => (step comb empty dupErr s l).bind fun s' => run comb empty dupErr s' ls

end Fold
end Paladin
