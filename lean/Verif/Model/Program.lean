import Verif.Model.Hello
import Verif.Model.SystemAmqp
import Verif.Model.SystemMem
import Verif.Spec.SystemBytes
/-!
# Model of the programs of `hello-world-rabbitmq` as processes

Code: `examples/hello-world-rabbitmq/leader/src/main.rs` and `worker/src/main.rs`. Leaders `L`, each a process that connects, starts a timer if it was given `--timeout`, runs its computation, closes its runtime and
ends; workers, each `WorkerRuntime::main_loop`; the broker. The computation, the workers and the task and result queues are those of `Verif/Model/SystemAmqp.lean`; here is added who reads what, who sends abort commands
and when, and how a leader ends.

Simplified: the command channel is a number of commands, each of which one worker's handler receives (on AMQP all handlers consume from one queue, see C47); a command is delivered again at any time after it was received. Time is
counted in seconds. Reading the command line is `Verif/Model/Cli.lean`. While a leader closes its runtime, tasks its computation has spawned may still run. A worker publishes an abort command only over an open connection.
-/
namespace Paladin
namespace Program
open Retry Exec Wire _root_.Paladin.System Hello

/-- What the programs are started with: errors of the runtime, serializers, the moments at which an abort flag is seen and the texts of characters (see `Verif/Model/Hello.lean`), the routing keys of the leaders' jobs, connections,
the workers' constants, `INPUT` (leader/src/main.rs:27), and the leaders' `--timeout` (leader/src/main.rs:23-24). -/
structure Env (ε L : Type) where
  join : ε
  dupErr : ε
  k : Serializer
  kt : Serializer
  flag : Nat → Nat → Bool
  dbg : Char → String
  keyM : L → Str
  keyF : L → Str
  nt : SystemAmqp.Net (L ⊕ L)
  cfg : Worker.Cfg (L ⊕ L)
  input : String
  timeout : L → Option Nat

/-- `CharToString::ID`: the operations of `ops` in order. Code: ops/src/lib.rs:10, 43, paladin-opkind-derive/src/lib.rs:104-108. -/
def idM : U8 := ⟨0, by decide⟩

/-- `StringConcat::ID`, as above. Code: ops/src/lib.rs:43. -/
def idF : U8 := ⟨1, by decide⟩

/-- The operations that `register()` registers, ops/src/lib.rs:8-61. -/
def ops [Anyhow ε] (e : Env ε L) : List (OpDef ε) := [charOp e.flag e.dbg, concatOp]

/-- Steps of the leaders' computations, the workers, and the broker. Code: leader/src/main.rs:67, worker/src/main.rs:23. -/
abbrev SysLabel (ε L : Type) := SystemAmqp.Label (L ⊕ L) (DirLabel (fun _ : L => Char) (fun _ : L => Str) ε Circ) Buf Buf ε ε Circ

/-- States of these. Code: leader/src/main.rs:67, worker/src/main.rs:23. -/
abbrev SysSt (ε L : Type) := SystemAmqp.St (L ⊕ L) (DirSt (fun _ : L => Char) (fun _ : L => Str) (fun _ : L => Str) ε) Buf Buf ε ε

section
variable {ε L : Type} [Anyhow ε]

/-- The directives of the leaders, leader/src/main.rs:59-61. -/
abbrev jobs (e : Env ε L) : (j : L ⊕ L) → Client (DirSt (fun _ : L => Char) (fun _ : L => Str) (fun _ : L => Str) ε j) (DirLabel (fun _ : L => Char) (fun _ : L => Str) ε Circ j) Buf (Except ε Buf) :=
  dirs (fun l => (mapJob (ε := ε) e.flag e.dbg (e.keyM l) idM).run e.join e.k e.kt) (fun l => (foldJob (ε := ε) (e.keyF l) idF).run e.join e.k e.kt) (fun l => (foldJob (ε := ε) (e.keyF l) idF).empty) e.dupErr
    (fun l => encMap e.k e.kt (mapJob (ε := ε) e.flag e.dbg (e.keyM l) idM)) (fun l => decMap e.k (mapJob (ε := ε) e.flag e.dbg (e.keyM l) idM)) (fun l => encFold e.k e.kt (foldJob (ε := ε) (e.keyF l) idF))
    (fun l => decFold e.k (foldJob (ε := ε) (e.keyF l) idF))

/-- One of their steps, leader/src/main.rs:67, worker/src/main.rs:23. -/
abbrev sysStep [DecidableEq L] (e : Env ε L) : SysSt ε L → SysLabel ε L → Option (SysSt ε L) :=
  SystemAmqp.step (jobs e) SystemMem.dirListens e.nt e.cfg (execBytes e.join (ops e) e.k) (textBytes e.k)
end

/-- Where a leader's `main` is: before `Runtime::from_config` has returned (leader/src/main.rs:56), in `computation.run` (:67), in `runtime.close` (:68-71), at its end. -/
inductive Phase (ε : Type) where
  | starting
  | computing
  | closing (o : Fold.Outcome Str ε)
  | ended (x : Exit ε)

/-- The task spawned by `set_abort_timeout_job`, leader/src/main.rs:29-49: none; asking for the command channel; asleep until a time; over, or panicked in its `expect` (:34), which nobody notices. -/
inductive Timer where
  | off
  | asking
  | sleeping (til : Nat)
  | over
deriving DecidableEq, Repr

/-- A leader: its `main`, its timer, how many characters its map has read, and how many elements of the mapped stream its fold has read. Code: leader/src/main.rs:52-79. -/
structure Proc (ε : Type) where
  phase : Phase ε
  timer : Timer
  read : Nat
  passed : Nat

/-- State of everything: the time, the leaders, the abort-all commands that were published and are not received, how many were received, and the computations, workers and queues. Code: leader/src/main.rs:52-79,
runtime/mod.rs:692-708. -/
structure St (ε L : Type) where
  clock : Nat
  proc : L → Proc ε
  commands : Nat
  taken : Nat
  sys : SysSt ε L

/-- Before any leader has connected, leader/src/main.rs:52. -/
def init [Anyhow ε] (e : Env ε L) : St ε L :=
  { clock := 0, proc := fun _ => ⟨.starting, .off, 0, 0⟩, commands := 0, taken := 0, sys := SystemAmqp.init (jobs e) }

/-- Labels: pieces of leader/src/main.rs:29-79 and of the system. -/
inductive Label (ε L : Type) where
  /-- Seconds pass. -/
  | tick (n : Nat)
  /-- `Runtime::from_config` returns, leader/src/main.rs:56; the timer is spawned, :63-65 -/
  | start (l : L) (r : Except ε Unit)
  /-- `get_command_ipc_sender` returns, leader/src/main.rs:31-34 -/
  | sender (l : L) (ok : Bool)
  /-- The timer wakes and publishes the command, leader/src/main.rs:37-47. -/
  | fire (l : L) (ok : Bool)
  /-- `computation.run` returns, leader/src/main.rs:67 -/
  | computed (l : L)
  /-- `runtime.close` returns, leader/src/main.rs:68-71, and `main` ends, :73-78 -/
  | close (l : L) (r : Except ε Unit)
  /-- A command that was received is delivered again (the connection was lost before it was acknowledged, runtime/mod.rs:486-490). -/
  | again
  /-- A step of a computation, a worker, or the broker. -/
  | sys (x : SysLabel ε L)

/-- `main` has not ended, so its tasks run. Code: leader/src/main.rs:51 (`#[tokio::main]`). -/
def Phase.alive : Phase ε → Bool
  | .ended _ => false
  | _ => true

/-- What the map of a leader may do: it reads the characters of `INPUT` one after the other. Code: leader/src/main.rs:58-60. -/
def mapMay (input : List Char) (n : Nat) : MapS.Label Char ε Circ → Bool
  | .item i c => i == n && input[n]? == some c
  | .inputErr _ => false
  | .inputEnd | .closeErr _ => n == input.length
  | _ => true

/-- What the fold of a leader may do: it reads what the map has yielded. Code: leader/src/main.rs:59-61. -/
def foldMay [DecidableEq ε] (outs : List (MapS.Item Str ε)) (ended : Bool) (n : Nat) : Fold.Label Str ε Circ → Bool
  | .item i v => match outs[n]? with
    | some (.ok p) => p.1 == i && p.2.1 == v.1
    | _ => false
  | .inputErr x => match outs[n]? with
    | some (.error y) => decide (x = y)
    | _ => false
  | .inputEnd => ended && n == outs.length
  | _ => true

/-- How many elements a step of a map reads. Code: leader/src/main.rs:60. -/
def mapTakes : MapS.Label Char ε Circ → Nat
  | .item _ _ | .inputErr _ => 1
  | _ => 0

/-- How many elements a step of a fold reads. Code: leader/src/main.rs:61. -/
def foldTakes : Fold.Label Str ε Circ → Nat
  | .item _ _ | .inputErr _ => 1
  | _ => 0

/-- Tasks of the computation may run: in `computation.run` and until `main` ends. Code: leader/src/main.rs:67-78. -/
def Phase.running : Phase ε → Bool
  | .computing | .closing _ => true
  | _ => false

section
variable {ε L : Type} [DecidableEq L]

/-- A step of the computation of leader `l`, if it may make it: `may`, after reading `m` and `f` elements. Code: leader/src/main.rs:67. -/
def leads (s : St ε L) (l : L) (may : Bool) (m f : Nat) : Option (St ε L) :=
  if (s.proc l).phase.running && may then
    some { s with proc := Function.update s.proc l { s.proc l with read := (s.proc l).read + m, passed := (s.proc l).passed + f } }
  else none

/-- What a step of the system does to the rest: a leader's computation runs between `from_config` and its result and reads its input in order; a handler receives a command that was published, which can only be abort-all;
a worker that fails publishes one; no operation writes the abort signal. Code: leader/src/main.rs:59-67, runtime/mod.rs:577-581, 692-708, ops/src/lib.rs:16-40, 53-60. -/
def note [DecidableEq ε] (e : Env ε L) (s : St ε L) : SysLabel ε L → Option (St ε L)
  | .lead (.inl l) y | .recv (.inl l) y => leads s l (mapMay (ε := ε) e.input.toList (s.proc l).read y) (mapTakes (ε := ε) y) 0
  | .lead (.inr l) y | .recv (.inr l) y =>
    leads s l (foldMay (ε := ε) (s.sys.lead (.inl l) : MapS.St Char Str ε).outs (s.sys.lead (.inl l) : MapS.St Char Str ε).ended (s.proc l).passed y) 0 (foldTakes (ε := ε) y)
  | .work _ (.cmd k) => if k = e.cfg.abortAll ∧ 0 < s.commands then some { s with commands := s.commands - 1, taken := s.taken + 1 } else none
  | .work w .pubAbort => if e.nt.wconn w ∈ s.sys.net.closed then none else some { s with commands := s.commands + 1 }
  | .work _ .setFlag => none
  | _ => some s

/-- One step. Code: leader/src/main.rs:29-79. -/
def step [DecidableEq ε] [Anyhow ε] (e : Env ε L) (s : St ε L) : Label ε L → Option (St ε L)
  | .tick n => some { s with clock := s.clock + n }
  | .start l r =>
    match (s.proc l).phase, r with
    | .starting, .ok () => some { s with proc := Function.update s.proc l { s.proc l with phase := .computing, timer := if (e.timeout l).isSome then .asking else .off } }
    | .starting, .error x => some { s with proc := Function.update s.proc l { s.proc l with phase := .ended (.err x) } }
    | _, _ => none
  | .sender l ok =>
    match (s.proc l).timer, e.timeout l with
    | .asking, some t =>
      if (s.proc l).phase.alive then some { s with proc := Function.update s.proc l { s.proc l with timer := if ok then .sleeping (s.clock + t) else .over } } else none
    | _, _ => none
  | .fire l ok =>
    match (s.proc l).timer with
    | .sleeping til =>
      if (s.proc l).phase.alive && decide (til ≤ s.clock) then
        some { s with proc := Function.update s.proc l { s.proc l with timer := .over }, commands := s.commands + if ok then 1 else 0 }
      else none
    | _ => none
  | .computed l =>
    match (s.proc l).phase, (s.sys.lead (.inr l) : Fold.St Str ε).outcome with
    | .computing, some o => some { s with proc := Function.update s.proc l { s.proc l with phase := match o with | .panic => .ended .panicked | o => .closing o } }
    | _, _ => none
  | .close l r =>
    match (s.proc l).phase with
    | .closing o => some { s with proc := Function.update s.proc l { s.proc l with phase := .ended (exit e.input o r) } }
    | _ => none
  | .again => if 0 < s.taken then some { s with commands := s.commands + 1 } else none
  | .sys x => (note e s x).bind fun s' => (sysStep e s.sys x).map fun y => { s' with sys := y }

/-- Executions of the programs, leader/src/main.rs:29-79, worker/src/main.rs:16-26. -/
abbrev run [DecidableEq ε] [Anyhow ε] (e : Env ε L) (s : St ε L) (ls : List (Label ε L)) : Option (St ε L) := Lts.run (step e) s ls
end

end Program
end Paladin
