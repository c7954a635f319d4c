import Verif.Model.Worker
import Verif.Model.Fold
import Mathlib.Logic.Function.Basic
/-!
# Model of the whole system: leaders, task queue, workers, result queues

Any number of leaders run one directive each; they publish their tasks to the one task queue (`TASK_IPC_ROUTING_KEY`, `paladin-core/src/runtime/mod.rs` 125), any
number of workers run `main_loop` (`Verif/Model/Worker.lean`) on it, and each worker publishes the outcome of a task to the result queue named by the task's routing key
(`runtime/mod.rs` 452-459, 594-605), which is the queue the leader leased for the job (`runtime/mod.rs` 318-371).

The leader is a parameter (`Client`), which may be different for each job: the directives of `Verif/Model/MapS.lean` and `Verif/Model/Fold.lean` are instances. Keys `κ`, tasks `T` (`AnyTask` without the routing key,
`task/mod.rs` 64-80), outputs `O` (`AnyTaskOutput`, `task/mod.rs` 84-92), underlying errors `χ`, the text in which an error travels `ε`, circumstances of an execution `ω`.

The broker. A delivered message stays with the broker until it is acknowledged or rejected; rejecting (`basic_nack` with `requeue = false`, the default of
`queue/amqp.rs` 551-553) discards it; the broker may return an unacknowledged message to the queue at any time (it does when it considers the consumer gone). With the in-memory
queue nothing is ever returned: the executions without `requeue`. Deliveries may take any message, not only the oldest. Publishing to a result queue is one step and reaches the
queue (what happens if the queue is gone: `Verif/Model/Chan.lean`); a failed publish is `settleFail` of the worker.
Commands arrive at a worker at any time with any key (`Worker.Label.cmd`): which of them were sent is not tracked.
-/
namespace Paladin
namespace System
open Retry

/-- A leader's directive: a state and what it does next. `step s l rs`, with `rs` the results waiting in the job's queue, gives the new state, the tasks published and the
results left. Code: `f_map` or `f_fold`, indexed_stream/functor.rs:28-68, foldable.rs:133-297. -/
structure Client (σ ℓ T R : Type) where
  init : σ
  step : σ → ℓ → List R → Option (σ × List T × List R)

/-- A task on the wire: `AnyTask`, `task/mod.rs` 64-80. -/
structure Msg (κ T : Type) where
  key : κ
  task : T
deriving DecidableEq, Repr

/-- What the broker knows about a delivery: it waits for the acknowledgement; it was acknowledged or rejected; it was returned to the queue. Broker side of amqp.rs:547-553. -/
inductive Fate where
  | held
  | settled
  | returned
deriving DecidableEq, Repr

/-- An acknowledgement or a rejection; too late if the message was returned to the queue before. Code: amqp.rs:547-553. -/
def Fate.settle : Fate → Fate
  | .held => .settled
  | f => f

/-- A delivery of a message to a worker. Code: runtime/mod.rs:726. -/
structure Del (κ T : Type) where
  worker : Nat
  msg : Msg κ T
  fate : Fate
  /-- observed: the worker has published a result for this delivery -/
  answered : Bool
deriving DecidableEq, Repr

/-- The queues of runtime/mod.rs:38-45 (described there), the leaders and the workers. -/
structure St (κ : Type) (σ : κ → Type) (T O ε χ : Type) where
  /-- the directive of each job -/
  lead : (j : κ) → σ j
  /-- the result queue of each job -/
  results : κ → List (Except ε O)
  /-- the task queue -/
  queue : List (Msg κ T)
  /-- the deliveries made so far; the delivery tag is the position -/
  dels : List (Del κ T)
  worker : Nat → Worker.St κ O χ
  /-- tag of the last delivery to each worker -/
  cur : Nat → Nat

/-- Before anything happened. Code: runtime/mod.rs:131-161, 428-445. -/
def init {κ : Type} {σ ℓ : κ → Type} (cl : (j : κ) → Client (σ j) (ℓ j) T (Except ε O)) : St κ σ T O ε χ :=
  { lead := fun j => (cl j).init, results := fun _ => [], queue := [], dels := [], worker := fun _ => Worker.init, cur := fun _ => 0 }

/-- Steps of leaders, workers (`Verif/Model/Worker.lean`, runtime/mod.rs:662-812) and broker. -/
inductive Label (κ : Type) (ℓ : κ → Type) (O χ ω : Type) where
  /-- the leader of job `j` takes step `l` -/
  | lead (j : κ) (l : ℓ j)
  /-- worker `w` receives the `k`-th message of the task queue -/
  | deliver (w k : Nat)
  /-- the execution of worker `w`'s task under circumstances `x` ends -/
  | finish (w : Nat) (x : ω)
  /-- any other step of worker `w` -/
  | work (w : Nat) (l : Worker.Label κ O χ)
  /-- the broker returns delivery `n` to the queue -/
  | requeue (n : Nat)

/-- Delivery `n` is acknowledged or rejected. Code: runtime/mod.rs:736, 776, 788, 799. -/
def settle (dels : List (Del κ T)) (n : Nat) : List (Del κ T) := dels.modify n fun d => { d with fate := d.fate.settle }

/-- Delivery `n` is returned to the queue. Broker side: the connection of the worker was lost before amqp.rs:547-553. -/
def giveBack (dels : List (Del κ T)) (n : Nat) : List (Del κ T) := dels.modify n fun d => { d with fate := .returned }

/-- A result for delivery `n` has been published. Code: runtime/mod.rs:581, 602. -/
def answer (dels : List (Del κ T)) (n : Nat) : List (Del κ T) := dels.modify n fun d => { d with answered := true }

/-- What a step of worker `w` from `v` to `v'` does to the rest of the system: an acknowledgement or a rejection settles the delivery (`runtime/mod.rs` 736, 776, 788, 799), a
published result is appended to the queue named by the routing key of the task (`runtime/mod.rs` 573, 579, 601-602). An error travels as its text. -/
def effect {κ : Type} {σ : κ → Type} [DecidableEq κ] (text : OpError χ → ε) (s : St κ σ T O ε χ) (w : Nat) (l : Worker.Label κ O χ) : St κ σ T O ε χ :=
  match l, (s.worker w).pc with
  | .ack, _ | .nack, _ | .skipNack, _ | .intNack, _ => { s with dels := settle s.dels (s.cur w) }
  | .pubOk, .settleOk _ k o _ _ =>
    { s with dels := answer s.dels (s.cur w), results := Function.update s.results k (s.results k ++ [.ok o]) }
  | .pubErr, .settleErr _ k e _ _ _ =>
    { s with dels := answer s.dels (s.cur w), results := Function.update s.results k (s.results k ++ [.error (text e)]) }
  | _, _ => s

/-- One step; `none` when the label is not possible. `exec x t` is the outcome of executing task `t` under circumstances `x` (`AnyTask::remote_execute`, `task/mod.rs` 165-170). -/
def step {κ : Type} {σ ℓ : κ → Type} [DecidableEq κ] (cl : (j : κ) → Client (σ j) (ℓ j) T (Except ε O)) (cfg : Worker.Cfg κ) (exec : ω → T → Except (OpError χ) O) (text : OpError χ → ε)
    (s : St κ σ T O ε χ) : Label κ ℓ O χ ω → Option (St κ σ T O ε χ)
  | .lead j l =>
    match (cl j).step (s.lead j) l (s.results j) with
    | some (x, ts, rs) => some { s with
        lead := Function.update s.lead j x, results := Function.update s.results j rs, queue := s.queue ++ ts.map fun t => ⟨j, t⟩ }
    | none => none
  | .deliver w k =>
    match Fold.takeAt s.queue k with
    | some (m, rest) =>
      match Worker.step cfg (s.worker w) (.deliver m.key) with
      | some v => some { s with
          queue := rest, dels := s.dels ++ [⟨w, m, .held, false⟩], worker := Function.update s.worker w v, cur := Function.update s.cur w s.dels.length }
      | none => none
    | none => none
  | .finish w x =>
    match s.dels[s.cur w]? with
    | some d =>
      match Worker.step cfg (s.worker w) (.finish (exec x d.msg.task)) with
      | some v => some { s with worker := Function.update s.worker w v }
      | none => none
    | none => none
  | .work w l =>
    match l with
    | .deliver _ | .finish _ => none
    | l =>
      match Worker.step cfg (s.worker w) l with
      | some v => some { effect text s w l with worker := Function.update s.worker w v }
      | none => none
  | .requeue n =>
    match s.dels[n]? with
    | some d => if d.fate = .held then some { s with dels := giveBack s.dels n, queue := d.msg :: s.queue } else none
    | none => none

/-- Executions of a whole system, runtime/mod.rs:131-812. -/
abbrev run {κ : Type} {σ ℓ : κ → Type} [DecidableEq κ] (cl : (j : κ) → Client (σ j) (ℓ j) T (Except ε O)) (cfg : Worker.Cfg κ) (exec : ω → T → Except (OpError χ) O) (text : OpError χ → ε)
    (s : St κ σ T O ε χ) (ls : List (Label κ ℓ O χ ω)) : Option (St κ σ T O ε χ) := Lts.run (step cl cfg exec text) s ls

end System
end Paladin
