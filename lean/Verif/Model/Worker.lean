import Verif.Model.Retry
import Verif.Model.Lts
/-!
# Model of the worker's main loop

Code: `WorkerRuntime::main_loop`, `paladin-core/src/runtime/mod.rs` 662-812, with `dispatch_fatal` (556-587) and `dispatch_ok` (594-605).

Three tokio tasks share the map of terminated jobs and the `watch` channel: the loop, the command handler and the reaper. One label is one atomic action of one of
them, or of the environment (time, deliveries, commands, the outcome of the execution). Everything observable is appended to `log`.

Routing keys are a type `κ`, outputs a type `ο`, underlying errors a type `χ`. Tasks are numbered in the order in which the loop takes them. Time is in seconds. What the
execution itself does is modelled in `Exec`; here it ends at any time with any outcome, and may set the abort flag it is given. A broker call (ack, nack, publish,
opening and closing channels) may fail at any point (`settleFail`, `skipNackFail`); otherwise its effect is one step.
-/
namespace Paladin
namespace Worker
open Retry

/-- Observable events. `mark` and `processed` carry the time, `start` too. Code: runtime/mod.rs:556-605, 726-805. -/
inductive Ev (κ ο χ : Type) where
  /-- the loop receives task `i` with routing key `k` -/
  | take (i : Nat) (k : κ)
  /-- the execution of task `i` starts -/
  | start (i : Nat) (k : κ) (t : Nat)
  /-- the execution of task `i` ends -/
  | done (i : Nat) (r : Except (OpError χ) ο)
  | ack (i : Nat)
  | nack (i : Nat)
  /-- an `Ok` result is published to routing key `k` -/
  | resOk (i : Nat) (k : κ) (o : ο)
  /-- an `Err` result with the text of `e` is published to routing key `k` -/
  | resErr (i : Nat) (k : κ) (e : OpError χ)
  /-- an abort-all command is published -/
  | sendAbort (i : Nat)
  /-- the execution of task `i` is given up because of an abort-all command -/
  | interrupted (i : Nat)
  /-- a job is newly marked as terminated -/
  | mark (k : κ) (t : Nat)
  /-- the command handler processes an `Abort` command -/
  | processed (k : κ) (t : Nat)
deriving DecidableEq, Repr

/-- Where the loop is. Code: runtime/mod.rs:726-812. -/
inductive Pc (κ ο χ : Type) where
  /-- in `task_stream.next().await`, 726 -/
  | waiting
  /-- a task has been received, 728 -/
  | got (i : Nat) (k : κ)
  /-- the abort flag is not set, 734 -/
  | checked (i : Nat) (k : κ)
  /-- the job is terminated; nacking, 736 -/
  | skipping (i : Nat) (k : κ)
  /-- the job is not terminated; futures are being made, 741-768 -/
  | starting (i : Nat) (k : κ)
  /-- in the `select!`, 771; `seen` is the version the task's watch receiver has seen, `reading` if `changed()` has returned and the value is about to be read (756-757) -/
  | running (i : Nat) (k : κ) (seen : Nat) (reading : Bool)
  /-- the execution failed; the job is about to be marked, 785 -/
  | failing (i : Nat) (k : κ) (e : OpError χ)
  /-- in the `try_join!` of 775-781 -/
  | settleOk (i : Nat) (k : κ) (o : ο) (acked published : Bool)
  /-- in the `try_join!` of 787-794 -/
  | settleErr (i : Nat) (k : κ) (e : OpError χ) (nacked published sent : Bool)
  /-- the abort-all branch, 798-803 -/
  | interrupted (i : Nat) (k : κ)
  /-- nacked (or the nack failed); sleeping, 801 -/
  | draining (i : Nat) (k : κ)
  /-- the loop has returned `Ok`, 811 -/
  | stopped
  /-- the loop has returned an error -/
  | errored
  /-- the process has crashed, or the loop's task has panicked -/
  | crashed
deriving DecidableEq, Repr

/-- Where the command handler is, 692-708. -/
inductive Handler (κ : Type) where
  | idle
  | got (k : κ)
  /-- the job was newly marked; `send_replace` follows -/
  | marked (k : κ)
  /-- the command stream has ended and the sender of the watch channel is dropped -/
  | finished
deriving DecidableEq, Repr

/-- `abortAll` is `COMMAND_IPC_ABORT_ALL_KEY` (127); `lag` bounds how late the reaper's timer may be (see `tick`). -/
structure Cfg (κ : Type) where
  abortAll : κ
  lag : Nat

/-- The locals of `main_loop`, runtime/mod.rs:662-691, the positions of its three tasks, time, and what was observed. -/
structure St (κ ο χ : Type) where
  now : Nat
  pc : Pc κ ο χ
  handler : Handler κ
  /-- `terminated_jobs` with `Instant`s, 670 -/
  term : List (κ × Nat)
  /-- values sent on the watch channel so far; the version is the length, the current value the last one, 686 -/
  watch : List κ
  /-- `abort_worker_execution`, 687 -/
  flag : Bool
  /-- number of tasks taken -/
  next : Nat
  /-- when the reaper's sleep is over, 678 -/
  reapAt : Nat
  log : List (Ev κ ο χ)
deriving DecidableEq, Repr

/-- The start of the loop, 662-725. The watch channel's initial value is a fresh random string, which is never compared (a receiver only reads after a change). -/
def init : St κ ο χ := ⟨0, .waiting, .idle, [], [], false, 0, 0, []⟩

/-- The atomic pieces of runtime/mod.rs:556-605, 662-812. -/
inductive Label (κ ο χ : Type) where
  | tick (d : Nat)
  | deliver (k : κ)
  | streamEnd
  | checkFlag
  | checkTerm
  | skipNack
  | skipNackFail
  | start
  | setFlag
  | finish (r : Except (OpError χ) ο)
  | sigPoll
  | sigRead
  | mark
  | ack
  | pubOk
  | nack
  | pubErr
  | pubAbort
  | settled
  | settleFail
  | intNack
  | intNackFail
  | intStop
  | cmd (k : κ)
  | hMark
  | hSend
  | cmdEnd
  | reap
  | crash
deriving DecidableEq, Repr

/-- The process runs. After `stopped` both spawned tasks are aborted, runtime/mod.rs:808-809. -/
def St.alive (s : St κ ο χ) : Bool := match s.pc with
  | .stopped | .crashed => false
  | _ => true

/-- `mark_terminated`, 715-724: `true` if the job was not marked. -/
def marked [DecidableEq κ] (term : List (κ × Nat)) (k : κ) : Bool := term.any fun p => p.1 == k

/-- One step of `main_loop`, runtime/mod.rs:662-812; the numbers are lines of that file. -/
def step [DecidableEq κ] (c : Cfg κ) (s : St κ ο χ) (l : Label κ ο χ) : Option (St κ ο χ) :=
  match l with
  -- Time passes. The reaper's timer is at most `lag` late: time does not pass `reapAt + lag` before the reaper has run. (Only the upper bound on the age of marks uses this.)
  | .tick d => if s.alive && s.now + d > s.reapAt + c.lag then none else some { s with now := s.now + d }
  -- 726
  | .deliver k => match s.pc with
    | .waiting => some { s with pc := .got s.next k, next := s.next + 1, log := s.log ++ [.take s.next k] }
    | _ => none
  | .streamEnd => match s.pc with
    | .waiting => some { s with pc := .stopped }
    | _ => none
  -- 728-731
  | .checkFlag => match s.pc with
    | .got i k => some { s with pc := if s.flag then .stopped else .checked i k }
    | _ => none
  -- 734
  | .checkTerm => match s.pc with
    | .checked i k => some { s with pc := if marked s.term k then .skipping i k else .starting i k }
    | _ => none
  -- 736-738
  | .skipNack => match s.pc with
    | .skipping i _ => some { s with pc := .waiting, log := s.log ++ [.nack i] }
    | _ => none
  | .skipNackFail => match s.pc with
    | .skipping _ _ => some { s with pc := .errored }
    | _ => none
  -- 741-771: the watch receiver is cloned from one that has seen nothing, 751
  | .start => match s.pc with
    | .starting i k => some { s with pc := .running i k 0 false, log := s.log ++ [.start i k s.now] }
    | _ => none
  -- the operation may write the abort signal it is given, 746
  | .setFlag => match s.pc with
    | .running _ _ _ _ => some { s with flag := true }
    | _ => none
  -- 772-774, 783: `select!` polls its branches in random order, so either may win
  | .finish r => match s.pc with
    | .running i k _ false => some { s with
        pc := (match r with | .ok o => .settleOk i k o false false | .error e => .failing i k e), log := s.log ++ [.done i r] }
    | _ => none
  -- 756: `changed()` returns if there is a version not yet seen, and fails (`expect` panics) if there is none and the sender is gone
  | .sigPoll => match s.pc with
    | .running i k seen false =>
      if seen < s.watch.length then some { s with pc := .running i k s.watch.length true }
      else if s.handler = .finished then some { s with pc := .crashed }
      else none
    | _ => none
  -- 757-766
  | .sigRead => match s.pc with
    | .running i k seen true =>
      if s.watch.getLast? = some c.abortAll then some { s with pc := .interrupted i k, flag := true, log := s.log ++ [.interrupted i] }
      else some { s with pc := .running i k seen false }
    | _ => none
  -- 785
  | .mark => match s.pc with
    | .failing i k e =>
      -- with `FatalStrategy::Ignore` `dispatch_fatal` does nothing (568)
      let skip := match e.fatalStrategy with | .ignore => true | .terminate => false
      if marked s.term k then some { s with pc := .settleErr i k e false skip skip }
      else some { s with pc := .settleErr i k e false skip skip, term := (k, s.now) :: s.term, log := s.log ++ [.mark k s.now] }
    | _ => none
  -- 775-781: `ack` and `dispatch_ok` run concurrently
  | .ack => match s.pc with
    | .settleOk i k o false p => some { s with pc := .settleOk i k o true p, log := s.log ++ [.ack i] }
    | _ => none
  | .pubOk => match s.pc with
    | .settleOk i k o a false => some { s with pc := .settleOk i k o a true, log := s.log ++ [.resOk i k o] }
    | _ => none
  -- 787-794: `nack` and `dispatch_fatal` run concurrently, and so do the two publishes of `dispatch_fatal` (581)
  | .nack => match s.pc with
    | .settleErr i k e false p q => some { s with pc := .settleErr i k e true p q, log := s.log ++ [.nack i] }
    | _ => none
  | .pubErr => match s.pc with
    | .settleErr i k e n false q => some { s with pc := .settleErr i k e n true q, log := s.log ++ [.resErr i k e] }
    | _ => none
  | .pubAbort => match s.pc with
    | .settleErr i k e n p false => some { s with pc := .settleErr i k e n p true, log := s.log ++ [.sendAbort i] }
    | _ => none
  | .settled => match s.pc with
    | .settleOk _ _ _ true true => some { s with pc := .waiting }
    | .settleErr _ _ _ true true true => some { s with pc := .waiting }
    | _ => none
  -- a failed call drops the other and the loop returns the error (`?`)
  | .settleFail => match s.pc with
    | .settleOk _ _ _ _ _ => some { s with pc := .errored }
    | .settleErr _ _ _ _ _ _ => some { s with pc := .errored }
    | _ => none
  -- 799: the result of the nack is ignored
  | .intNack => match s.pc with
    | .interrupted i k => some { s with pc := .draining i k, log := s.log ++ [.nack i] }
    | _ => none
  | .intNackFail => match s.pc with
    | .interrupted i k => some { s with pc := .draining i k }
    | _ => none
  -- 801-803, 807-811
  | .intStop => match s.pc with
    | .draining _ _ => some { s with pc := .stopped }
    | _ => none
  -- 696-698
  | .cmd k => match s.handler with
    | .idle => if s.alive then some { s with handler := .got k } else none
    | _ => none
  -- 700, 715-724
  | .hMark => match s.handler with
    | .got k => if s.alive then
        if marked s.term k then some { s with handler := .idle, log := s.log ++ [.processed k s.now] }
        else some { s with handler := .marked k, term := (k, s.now) :: s.term, log := s.log ++ [.mark k s.now, .processed k s.now] }
      else none
    | _ => none
  -- 702
  | .hSend => match s.handler with
    | .marked k => if s.alive then some { s with handler := .idle, watch := s.watch ++ [k] } else none
    | _ => none
  -- 696: the command stream ends
  | .cmdEnd => match s.handler with
    | .idle => if s.alive then some { s with handler := .finished } else none
    | _ => none
  -- 673-681
  | .reap => if s.alive && s.reapAt ≤ s.now then some { s with term := s.term.filter (fun p => s.now - p.2 < 60), reapAt := s.now + 60 } else none
  | .crash => if s.alive then some { s with pc := .crashed } else none

/-- Executions. runtime/mod.rs:662-812. -/
abbrev run [DecidableEq κ] (c : Cfg κ) (s : St κ ο χ) (ls : List (Label κ ο χ)) : Option (St κ ο χ) := Lts.run (step c) s ls

end Worker
end Paladin
