import Verif.Model.Lts
/-!
# Model of what a worker's loop starts and leaves behind

Code: `WorkerRuntime::main_loop` (`paladin-core/src/runtime/mod.rs` 662-812), the worker emulator (`Runtime::spawn_emulator`, 175-195, and `Drop for Runtime`, 383-391), and
`spawn_blocking` in the executor (`paladin-opkind-derive/src/lib.rs` 128-150).

Any number of loops in one process. Besides its own future, a loop starts a reaper (673) and a command handler (692), tokio tasks of their own, and every attempt at an operation runs on
the blocking pool. Dropping a `JoinHandle` does not end a tokio task, and a blocking call cannot be cancelled. Commands are numbers; `shared` says that the command handlers
take them from one queue, as with AMQP (`Verif/Model/Amqp.lean`, C47). What the loop does with tasks otherwise is the subject of `Verif/Model/Worker.lean`.
Simplified: `abort` on the reaper and the handler (808-809) takes effect at once.
-/
namespace Paladin
namespace Life

/-- Where the loop's future is. Code: runtime/mod.rs:662-812. -/
inductive Phase where
  /-- opening the task receiver, 663 -/
  | opening
  /-- the reaper is spawned, 673; opening the command receiver, 691 -/
  | half
  /-- waiting for a task, 726 -/
  | waiting
  /-- at 728-736 with a task -/
  | got
  /-- in the `select!`, 771; `op` says that an attempt is running on the blocking pool -/
  | executing (op : Bool)
  /-- in the `try_join!`s of 775 or 787 -/
  | settling
  /-- in the abort-all branch, 798-802 -/
  | draining
  /-- returned, panicked or dropped -/
  | ended
deriving DecidableEq, Repr

/-- One loop. `aborted`: `abort` was called on the task that runs it, 387. `stray`: its operations running on the blocking pool that nobody waits for. -/
structure W where
  phase : Phase
  aborted : Bool
  reaper : Bool
  handler : Bool
  stray : Nat
deriving DecidableEq, Repr

/-- `cmds` is the shared queue of commands, `taken` which handler took which command. Code: the emulator, runtime/mod.rs:175-195; the command channel, runtime/mod.rs:478-492. -/
structure St where
  ws : List W
  cmds : List Nat
  taken : List (Nat × Nat)
deriving DecidableEq, Repr

/-- No loop started yet, runtime/mod.rs:129-161. -/
def init : St := ⟨[], [], []⟩

/-- What happens to a loop. Code: runtime/mod.rs:662-812, 383-391. -/
inductive Act where
  /-- 663 succeeds, 673 follows -/
  | opened
  | openFail
  /-- 691 succeeds, 692 follows -/
  | cmdOpened
  | cmdFail
  /-- a task is received, 726 -/
  | take
  /-- the stream of tasks has ended, 726 -/
  | streamEnd
  /-- the abort flag is set, 728-731 -/
  | flagStop
  /-- the job is terminated, 734-738 -/
  | skip
  | skipFail
  /-- 741-771 -/
  | start
  /-- an attempt begins on the blocking pool -/
  | opStart
  | opReturn
  /-- the execution is over, 772 -/
  | finish
  | settled
  | settleFail
  /-- abort-all is received, 798 -/
  | interrupt
  /-- 801-803, 807-811 -/
  | drained
  /-- the loop panics: `expect` in 756, or `Deserialize` of the operation or its input, or an unknown operation id -/
  | panic
  /-- `Drop for Runtime` calls `abort` on the loop's task -/
  | abort
  /-- the runtime drops the aborted future -/
  | dropped
  /-- the command stream ends, 696 -/
  | handlerEnd
  /-- a stray operation returns -/
  | opEnd
deriving DecidableEq, Repr

/-- The future ends at 811: both tasks are aborted, 808-809. -/
def W.finished (w : W) : W := { w with phase := .ended, reaper := false, handler := false }

/-- The future ends in any other way: the handles are dropped, the tasks go on. Code: the `?`s and panics of runtime/mod.rs:663, 691, 736, 756, 781, 794, and `abort`, 387. -/
def W.gone (w : W) : W := { w with phase := .ended, stray := w.stray + (if w.phase = .executing true then 1 else 0) }

/-- One step of a loop, runtime/mod.rs:662-812, 383-391. -/
def W.act (w : W) : Act → Option W
  | .opened => match w.phase with
    | .opening => some { w with phase := .half, reaper := true }
    | _ => none
  | .openFail => match w.phase with
    | .opening => some w.gone
    | _ => none
  | .cmdOpened => match w.phase with
    | .half => some { w with phase := .waiting, handler := true }
    | _ => none
  | .cmdFail => match w.phase with
    | .half => some w.gone
    | _ => none
  | .take => match w.phase with
    | .waiting => some { w with phase := .got }
    | _ => none
  | .streamEnd => match w.phase with
    | .waiting => some w.finished
    | _ => none
  | .flagStop => match w.phase with
    | .got => some w.finished
    | _ => none
  | .skip => match w.phase with
    | .got => some { w with phase := .waiting }
    | _ => none
  | .skipFail => match w.phase with
    | .got => some w.gone
    | _ => none
  | .start => match w.phase with
    | .got => some { w with phase := .executing false }
    | _ => none
  | .opStart => match w.phase with
    | .executing false => some { w with phase := .executing true }
    | _ => none
  | .opReturn => match w.phase with
    | .executing true => some { w with phase := .executing false }
    | _ => none
  | .finish => match w.phase with
    | .executing false => some { w with phase := .settling }
    | _ => none
  | .settled => match w.phase with
    | .settling => some { w with phase := .waiting }
    | _ => none
  | .settleFail => match w.phase with
    | .settling => some w.gone
    | _ => none
  | .interrupt => match w.phase with
    | .executing op => some { w with phase := .draining, stray := w.stray + (if op then 1 else 0) }
    | _ => none
  | .drained => match w.phase with
    | .draining => some w.finished
    | _ => none
  | .panic => match w.phase with
    | .executing _ => some w.gone
    | _ => none
  | .abort => some { w with aborted := true }
  | .dropped => if w.aborted && w.phase ≠ .ended then some w.gone else none
  | .handlerEnd => if w.handler then some { w with handler := false } else none
  | .opEnd => if 0 < w.stray then some { w with stray := w.stray - 1 } else none

/-- Code: runtime/mod.rs:175-195, 383-391, 478-492, 662-812. -/
inductive Label where
  /-- a loop is started: `main_loop` is called, or the emulator spawns a worker, 183-192 -/
  | spawn
  /-- something happens to loop `w` -/
  | act (w : Nat) (a : Act)
  /-- somebody publishes a command -/
  | publish (c : Nat)
  /-- the handler of loop `w` takes the next command, 696 -/
  | command (w : Nat)
deriving DecidableEq, Repr

/-- One step, runtime/mod.rs:175-195, 383-391, 662-812. -/
def step (s : St) : Label → Option St
  | .spawn => some { s with ws := s.ws ++ [⟨.opening, false, false, false, 0⟩] }
  | .act w a => do
    let x ← s.ws[w]?
    let y ← x.act a
    some { s with ws := s.ws.set w y }
  | .publish c => some { s with cmds := s.cmds ++ [c] }
  | .command w => match s.ws[w]?, s.cmds with
    | some x, c :: cs => if x.handler then some { s with cmds := cs, taken := s.taken ++ [(w, c)] } else none
    | _, _ => none

/-- Executions of runtime/mod.rs:175-195, 383-391, 662-812. -/
abbrev run (s : St) (ls : List Label) : Option St := Lts.run step s ls

end Life
end Paladin
