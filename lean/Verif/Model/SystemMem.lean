import Verif.Model.SystemClients
import Verif.Model.InMem
/-!
# Model of the whole system over the in-memory queue

The system of `Verif/Model/System.lean` with its task queue and its result queues replaced by those of `paladin-core/src/queue/in_memory.rs` (`Verif/Model/InMem.lean`): a queue
with a semaphore, on which the consumers wait. This is the runtime of `Runtime::in_memory` (`runtime/mod.rs` 164-170): leaders and the emulated workers of `spawn_emulator`
(`runtime/mod.rs` 175-195) in one process.

Worker `w` is consumer `w` of the task queue; the leader of a job is consumer 0 of the job's result queue. A consumer waiting in the semaphore is polled again only after it was woken: other polls
change nothing. A publish is two steps: the push, with the step of the publisher (`lead`, `recv`, `work`), and `add_permits` (`taskRelease`, `resRelease`), which some publisher that has pushed
takes later. The rest of `poll_next` after the permit was acquired is one step with what the consumer does with the message (`deliver`, `recv`); nothing is awaited in between.

Simplifications. Commands arrive at any time, as in `System`. A leader that has stopped reading its result queue is not removed from the books of the semaphore: nobody else waits there.
The in-memory acknowledgement does nothing (`acker.rs` 149-168, `NoopAcker`); the deliveries are still recorded, as in `System`.
-/
namespace Paladin
namespace SystemMem
open Retry System

/-- Leaders and workers, the task queue and the result queue of each job. Code: runtime/mod.rs:38-45, in_memory.rs:62-80. -/
structure St (κ : Type) (σ : κ → Type) (T O ε χ : Type) where
  /-- leaders, workers and deliveries; the queues of this component are not used -/
  sys : System.St κ σ T O ε χ
  tq : InMem.Chan (Msg κ T)
  rq : κ → InMem.Chan (Except ε O)

/-- Before anything happened. Code: runtime/mod.rs:164-170, in_memory.rs:137-144. -/
def init {κ : Type} {σ ℓ : κ → Type} (cl : (j : κ) → Client (σ j) (ℓ j) T (Except ε O)) : St κ σ T O ε χ :=
  { sys := System.init cl, tq := .fresh [] 0, rq := fun _ => .fresh [] 0 }

/-- Steps of leaders, workers and publishers. Code: runtime/mod.rs:662-812, in_memory.rs:146-151, 537-582. -/
inductive Label (κ : Type) (ℓ : κ → Type) (O χ ω : Type) where
  /-- the leader of job `j` takes a step in which it receives nothing -/
  | lead (j : κ) (l : ℓ j)
  /-- the leader of job `j` pops a result and handles it -/
  | recv (j : κ) (l : ℓ j)
  /-- the leader of job `j` asks for a permit of its result queue -/
  | resPoll (j : κ)
  /-- a worker that has pushed a result of job `j` adds a permit -/
  | resRelease (j : κ)
  /-- worker `w` asks for a permit of the task queue -/
  | taskPoll (w : Nat)
  /-- a leader that has pushed a task adds a permit -/
  | taskRelease
  /-- worker `w` pops a task -/
  | deliver (w : Nat)
  /-- the execution of worker `w`'s task under circumstances `x` ends -/
  | finish (w : Nat) (x : ω)
  /-- any other step of worker `w` -/
  | work (w : Nat) (l : Worker.Label κ O χ)

/-- The worker is in `task_stream.next().await`, runtime/mod.rs:726. -/
def idle : Worker.Pc κ O χ → Bool
  | .waiting => true
  | _ => false

/-- What leaders and workers published in a step that led to `v` is pushed to the queues. Code: in_memory.rs:148. -/
def St.flush {κ : Type} {σ : κ → Type} (s : St κ σ T O ε χ) (v : System.St κ σ T O ε χ) : St κ σ T O ε χ :=
  { sys := { v with queue := [], results := fun _ => [] }, tq := v.queue.foldl .push s.tq, rq := fun j => (v.results j).foldl .push (s.rq j) }

/-- One step; `none` when the label is not possible. `listens` says whether the leader polls its result stream (functor.rs:57-62, foldable.rs:240-244).

* `recv`, `deliver`: in_memory.rs:541-565; without a message the consumer panics.
* `resPoll`, `taskPoll`: in_memory.rs:569.
* `resRelease`, `taskRelease`: in_memory.rs:149.
* `work`: a worker that leaves its loop while waiting for a task drops its consumer (runtime/mod.rs:726, in_memory.rs:526-532). -/
def step {κ : Type} {σ ℓ : κ → Type} [DecidableEq κ] (cl : (j : κ) → Client (σ j) (ℓ j) T (Except ε O)) (listens : (j : κ) → σ j → Bool) (cfg : Worker.Cfg κ)
    (exec : ω → T → Except (OpError χ) O) (text : OpError χ → ε) (s : St κ σ T O ε χ) : Label κ ℓ O χ ω → Option (St κ σ T O ε χ)
  | .lead j l => (System.step (ω := ω) cl cfg exec text s.sys (.lead j l)).map s.flush
  | .recv j l =>
    match (s.rq j).pop 0, (s.rq j).msgs with
    | none, _ => none
    | some c, [] => some { s with rq := Function.update s.rq j c }
    | some c, m :: _ =>
      match System.step (ω := ω) cl cfg exec text { s.sys with results := Function.update s.sys.results j [m] } (.lead j l) with
      | some v => if (v.results j).isEmpty then some (St.flush { s with rq := Function.update s.rq j c } v) else none
      | none => none
  | .resPoll j =>
    if listens j (s.sys.lead j) && decide (0 ∉ (s.rq j).waiters) then ((s.rq j).poll 0).map fun c => { s with rq := Function.update s.rq j c } else none
  | .resRelease j => (s.rq j).release.map fun c => { s with rq := Function.update s.rq j c }
  | .taskPoll w =>
    if idle (s.sys.worker w).pc && decide (w ∉ s.tq.waiters) then (s.tq.poll w).map fun c => { s with tq := c } else none
  | .taskRelease => s.tq.release.map fun c => { s with tq := c }
  | .deliver w =>
    match s.tq.pop w, s.tq.msgs with
    | none, _ => none
    | some c, [] => some { s with tq := c }
    | some c, m :: _ =>
      match System.step (ω := ω) cl cfg exec text { s.sys with queue := [m] } (.deliver w 0) with
      | some v => some (St.flush { s with tq := c } v)
      | none => none
  | .finish w x => (System.step cl cfg exec text s.sys (.finish w x)).map s.flush
  | .work w l =>
    match System.step (ω := ω) cl cfg exec text s.sys (.work w l) with
    | some v =>
      if idle (s.sys.worker w).pc && !idle (v.worker w).pc then ((s.flush v).tq.drop w).map fun c => { s.flush v with tq := c } else some (s.flush v)
    | none => none

/-- Executions of the whole system in one process, runtime/mod.rs:164-195. -/
abbrev run {κ : Type} {σ ℓ : κ → Type} [DecidableEq κ] (cl : (j : κ) → Client (σ j) (ℓ j) T (Except ε O)) (listens : (j : κ) → σ j → Bool) (cfg : Worker.Cfg κ)
    (exec : ω → T → Except (OpError χ) O) (text : OpError χ → ε) (s : St κ σ T O ε χ) (ls : List (Label κ ℓ O χ ω)) : Option (St κ σ T O ε χ) :=
  Lts.run (step cl listens cfg exec text) s ls

/-- A map polls its result stream until that has ended; a fold once two items have arrived, until it returns. Code: functor.rs:57-67, foldable.rs:237-244, 287-296. -/
def dirListens {A B : Type} {α β : A → Type} {γ : B → Type} {ε : Type} : (j : A ⊕ B) → DirSt α β γ ε j → Bool
  | .inl a, s => let s : MapS.St (α a) (β a) ε := s; !(s.ended || s.recvEnded || s.innerEnded)
  | .inr b, s => let s : Fold.St (γ b) ε := s; s.notified && s.outcome.isNone

end SystemMem
end Paladin
