import Verif.Model.Lts
/-!
# Model of how runtimes are set up and where their messages go

Code: `Config` in `config/mod.rs`, `DynamicChannelFactory::from_config` in `runtime/dynamic_channel.rs`, `Runtime::from_config`, `spawn_emulator`, `get_task_sender`, the lease's `issue` and `receiver`,
`get_command_ipc_sender`, `WorkerRuntime::from_config`, `get_task_receiver`, `get_command_ipc_receiver`, `get_result_sender` in `runtime/mod.rs`, `QueueChannel` in `channel/queue.rs`.
Any number of leaders and workers, in any number of processes, are created from configurations; a message goes to the queue with a name on a connection, as bytes, and a consumer declared with the same name on
the same connection can yield it. Simplified: how often and in which order a queue yields a message, and to which of its consumers, is left open here (the queue models treat it), so a message can be yielded
any number of times; consumers exist as soon as their runtime does; queues are not deleted; connections are not closed or lost, and a dropped leader's workers are not stopped (`Verif/Model/Life.lean`).
-/
namespace Paladin
namespace Setup

/-- `config::Serializer`, config/mod.rs:50-56. -/
inductive Ser where
  | postcard
  | cbor
  deriving DecidableEq, Repr

/-- `config::Runtime`, config/mod.rs:58-64. -/
inductive Kind where
  | amqp
  | inMemory
  deriving DecidableEq, Repr

/-- `Config`, config/mod.rs:24-48; the derived `Default` (config/mod.rs:25, :53, :62) gives the defaults. -/
structure Config where
  serializer : Ser := .postcard
  runtime : Kind := .amqp
  numWorkers : Option Nat := none
  amqpUri : Option String := none
  taskKey : Option String := none
  deriving DecidableEq, Repr

/-- `TASK_IPC_ROUTING_KEY` and `COMMAND_IPC_ROUTING_KEY`, runtime/mod.rs:126, :125. -/
def taskIpc : String := "task-ipc-routing-key"
/-- Code: runtime/mod.rs:125. -/
def commandIpc : String := "command-ipc-routing-key"

/-- What a connection reaches: the broker at an address, or the queues of one call of `InMemoryConnection::new` (in_memory.rs:74-80), shared by the connection's clones. -/
inductive Place where
  | broker (uri : String)
  | memory (n : Nat)
  deriving DecidableEq, Repr

/-- A call either returns or panics. Code: runtime/mod.rs:131, 428, dynamic_channel.rs:126. -/
inductive Call (α : Type) where
  | ok (a : α)
  /-- an `Err`, with its context -/
  | err (why : String)
  /-- the message of the panic -/
  | panic (why : String)
  deriving DecidableEq, Repr

/-- A `DynamicChannelFactory`: its connection and the connection's serializer. Code: dynamic_channel.rs:91-94. -/
structure Factory where
  place : Place
  ser : Ser
  deriving DecidableEq, Repr

/-- `DynamicChannelFactory::from_config`, dynamic_channel.rs:126-145. `fresh` numbers the call of `InMemoryConnection::new`; `reachable` tells whether a connection to the broker at a given address can be opened. -/
def connect (reachable : String → Bool) (fresh : Nat) (c : Config) : Call Factory :=
  match c.runtime with
  | .amqp =>
    match c.amqpUri with
    | none => .panic "amqp_uri is required"
    | some uri => if reachable uri then .ok ⟨.broker uri, c.serializer⟩ else .err "connecting to AMQP host"
  | .inMemory => .ok ⟨.memory fresh, c.serializer⟩

/-- The name of the task queue: runtime/mod.rs:133-141, :430-438. -/
def taskName (c : Config) : String := c.taskKey.getD taskIpc

/-- A `Runtime`; `cfg` is the configuration it was made from. Code: runtime/mod.rs:117-123. -/
structure Leader where
  cfg : Config
  factory : Factory
  task : String
  deriving DecidableEq, Repr

/-- A `WorkerRuntime`; `owner` is the leader whose emulator it belongs to. Code: runtime/mod.rs:401-405. -/
structure Worker where
  cfg : Config
  factory : Factory
  task : String
  owner : Option Nat
  deriving DecidableEq, Repr

/-- `spawn_emulator`, runtime/mod.rs:144-152, :175-195: how many workers the leader brings along; they get clones of its factory and task channel. -/
def emulated (c : Config) : Nat :=
  match c.runtime with
  | .inMemory => c.numWorkers.getD 3
  | .amqp => 0

/-- Who publishes a message, and what: a task through a leader's task sender, a command through a leader's or a worker's command sender, a result through a worker's result sender, for a task it has received (the number of the message that brought it). Code: runtime/mod.rs:219-232, 373-379, 452-471. -/
inductive Source (T C R : Type) where
  | task (leader : Nat) (t : T)
  | leaderCommand (leader : Nat) (c : C)
  | workerCommand (worker : Nat) (c : C)
  | result (worker : Nat) (of : Nat) (r : R)
  deriving DecidableEq, Repr

/-- A published message: the queue it went to, and its bytes. Code: in_memory.rs:146-151, amqp.rs:328-362. -/
structure Msg (T C R B : Type) where
  place : Place
  name : String
  bytes : B
  src : Source T C R
  deriving DecidableEq, Repr

/-- Consumers: a worker's task receiver (runtime/mod.rs:547-549), a worker's command receiver (runtime/mod.rs:478-492), the receiver of a lease. -/
inductive Consumer where
  | tasks (worker : Nat)
  | commands (worker : Nat)
  | results (lease : Nat)
  deriving DecidableEq, Repr

/-- A lease: the leader and the identifier drawn for it (runtime/mod.rs:327-338). -/
structure Lease where
  leader : Nat
  key : String
  deriving DecidableEq, Repr

/-- `memories` counts the calls of `InMemoryConnection::new`; `got` holds what consumers have yielded (numbers of messages). Code: runtime/mod.rs:117-123, 401-405. -/
structure St (T C R B : Type) where
  memories : Nat
  leaders : List Leader
  workers : List Worker
  leases : List Lease
  msgs : List (Msg T C R B)
  got : List (Consumer × Nat)
  deriving DecidableEq, Repr

/-- Nothing started yet, runtime/mod.rs:131. -/
def init : St T C R B := { memories := 0, leaders := [], workers := [], leases := [], msgs := [], got := [] }

/-- How tasks, commands and results become bytes (serializer/mod.rs:73-97); `keyOf` is the field `AnyTask::routing_key` (task/mod.rs:68). -/
structure Formats (T C R B : Type) where
  encT : Ser → T → Option B
  decT : Ser → B → Option T
  encC : Ser → C → Option B
  decC : Ser → B → Option C
  encR : Ser → R → Option B
  decR : Ser → B → Option R
  keyOf : T → String

/-- The queue a consumer was declared on. Code: channel/queue.rs:169-179. -/
def queueOf (s : St T C R B) : Consumer → Option (Place × String)
  | .tasks w => s.workers[w]?.map fun x => (x.factory.place, x.task)
  | .commands w => s.workers[w]?.map fun x => (x.factory.place, commandIpc)
  | .results k => s.leases[k]?.bind fun x => s.leaders[x.leader]?.map fun l => (l.factory.place, x.key)

/-- What a message is to a worker's task receiver: the task its bytes decode to with the serializer of the worker's connection. Code: in_memory.rs:552-555, amqp.rs:519-526. -/
def asTask (fm : Formats T C R B) (s : St T C R B) (w m : Nat) : Option T :=
  s.workers[w]?.bind fun x => s.msgs[m]?.bind fun y => fm.decT x.factory.ser y.bytes

/-- What a message is to a worker's command receiver. Code: in_memory.rs:552-555, amqp.rs:519-526. -/
def asCommand (fm : Formats T C R B) (s : St T C R B) (w m : Nat) : Option C :=
  s.workers[w]?.bind fun x => s.msgs[m]?.bind fun y => fm.decC x.factory.ser y.bytes

/-- What a message is to the receiver of a lease. Code: in_memory.rs:552-555, amqp.rs:519-526. -/
def asResult (fm : Formats T C R B) (s : St T C R B) (k m : Nat) : Option R :=
  s.leases[k]?.bind fun x => s.leaders[x.leader]?.bind fun l => s.msgs[m]?.bind fun y => fm.decR l.factory.ser y.bytes

/-- Calls of runtime/mod.rs:131-549 and deliveries. -/
inductive Label (T C R : Type) where
  /-- `Runtime::from_config` -/
  | leader (c : Config)
  /-- `WorkerRuntime::from_config` -/
  | worker (c : Config)
  /-- `lease_coordinated_task_channel`, with the identifier it draws (random, so any) -/
  | lease (leader : Nat) (key : String)
  /-- a task sender of a leader publishes -/
  | send (leader : Nat) (t : T)
  /-- a command sender of a leader publishes -/
  | leaderCommand (leader : Nat) (c : C)
  /-- a command sender of a worker publishes -/
  | workerCommand (worker : Nat) (c : C)
  /-- a worker publishes a result for a task it has received with message `m` -/
  | result (worker m : Nat) (r : R)
  /-- a consumer yields message `m` of its queue -/
  | recv (c : Consumer) (m : Nat)
  deriving DecidableEq, Repr

/-- Publishing: nothing is sent when serialization fails (in_memory.rs:146-151, amqp.rs:328-362). -/
def push (s : St T C R B) (f : Factory) (name : String) (b : Option B) (src : Source T C R) : St T C R B :=
  match b with
  | some b => { s with msgs := s.msgs ++ [⟨f.place, name, b, src⟩] }
  | none => s

/-- One step, runtime/mod.rs:131-549. -/
def step (fm : Formats T C R B) (reachable : String → Bool) (s : St T C R B) : Label T C R → Option (St T C R B)
  | .leader c =>
    match connect reachable s.memories c with
    | .ok f =>
      some { s with
        memories := if c.runtime = .inMemory then s.memories + 1 else s.memories
        leaders := s.leaders ++ [⟨c, f, taskName c⟩]
        workers := s.workers ++ List.replicate (emulated c) ⟨c, f, taskName c, some s.leaders.length⟩ }
    | _ => some s
  | .worker c =>
    match connect reachable s.memories c with
    | .ok f =>
      some { s with
        memories := if c.runtime = .inMemory then s.memories + 1 else s.memories
        workers := s.workers ++ [⟨c, f, taskName c, none⟩] }
    | _ => some s
  | .lease l key =>
    match s.leaders[l]? with
    | some _ => some { s with leases := s.leases ++ [⟨l, key⟩] }
    | none => none
  | .send l t =>
    match s.leaders[l]? with
    | some x => some (push s x.factory x.task (fm.encT x.factory.ser t) (.task l t))
    | none => none
  | .leaderCommand l c =>
    match s.leaders[l]? with
    | some x => some (push s x.factory commandIpc (fm.encC x.factory.ser c) (.leaderCommand l c))
    | none => none
  | .workerCommand w c =>
    match s.workers[w]? with
    | some x => some (push s x.factory commandIpc (fm.encC x.factory.ser c) (.workerCommand w c))
    | none => none
  | .result w m r =>
    if (.tasks w, m) ∈ s.got then
      match s.workers[w]?, asTask fm s w m with
      | some x, some t => some (push s x.factory (fm.keyOf t) (fm.encR x.factory.ser r) (.result w m r))
      | _, _ => none
    else none
  | .recv c m =>
    match queueOf s c, s.msgs[m]? with
    | some q, some y => if (y.place, y.name) = q then some { s with got := s.got ++ [(c, m)] } else none
    | _, _ => none

end Setup
end Paladin
