import Verif.Model.Lts
/-!
# Model of leased result channels

Code: `QueueChannel` and `QueueChannelFactory` in `channel/queue.rs`, `LeaseGuard` in `channel/mod.rs`, `lease_coordinated_task_channel`, `get_result_sender` in `runtime/mod.rs`,
over a connection that is either in memory (`byName = false`: senders and consumers hold the queue they got, `Arc`s into the map of `queue/in_memory.rs`) or AMQP
(`byName = true`: the broker looks the queue up by its name at every publish and consumer declaration). Simplified: a queue is a FIFO of message numbers and a consumer's acknowledgements
are left out (`Verif/Model/InMem.lean` and `Verif/Model/Amqp.lean` treat these); connections are not lost. Steps of any number of processes interleave.
-/
namespace Paladin
namespace Chan

/-- A queue that was created at some time: the name it was declared with, whether that name still stands for it, its messages. Code: `declare_queue`, in_memory.rs:90-99, amqp.rs:244-263. -/
structure Inst (N : Type) where
  name : N
  present : Bool
  queue : List Nat
  deriving DecidableEq, Repr

/-- How far a call of `lease_coordinated_task_channel` and its `LeaseGuard` have come. Code: runtime/mod.rs:318-366, channel/mod.rs:114-131. -/
inductive Phase where
  /-- the identifier is drawn, runtime/mod.rs:327-330 -/
  | issued
  /-- `declare_queue` in `receiver` has returned, channel/queue.rs:172-175 -/
  | declared (inst : Nat)
  /-- the receiver is there, in its `LeaseGuard`, runtime/mod.rs:360-365 -/
  | opened (inst : Nat)
  /-- the guard is dropped and the deleting task is spawned, channel/mod.rs:123-131, channel/queue.rs:182-189 -/
  | dropped
  /-- the task has deleted the queue -/
  | released
  /-- the task was never run, or `delete_queue` failed, which is ignored, channel/queue.rs:187 -/
  | unreleased
  /-- the call failed, or its future was dropped: there never was a guard -/
  | failed
  deriving DecidableEq, Repr

/-- A call of `lease_coordinated_task_channel`, runtime/mod.rs:318-366, and the guard it returns. -/
structure Lease (N : Type) where
  id : N
  phase : Phase
  deriving DecidableEq, Repr

/-- A result sender, `get_result_sender`, runtime/mod.rs:452-458. -/
structure Sender (N : Type) where
  name : N
  inst : Nat
  deriving DecidableEq, Repr

/-- `msgs` holds the routing key of every message published so far, `received` the pairs of message and receiving lease, `lost` the messages that went down with a deleted queue or found none. Code: channel/queue.rs:121-190. -/
structure St (N : Type) where
  insts : List (Inst N)
  leases : List (Lease N)
  senders : List (Sender N)
  msgs : List N
  received : List (Nat × Nat)
  lost : List Nat
  deriving DecidableEq, Repr

/-- Nothing leased yet, channel/queue.rs:126-128. -/
def init : St N := { insts := [], leases := [], senders := [], msgs := [], received := [], lost := [] }

/-- The queue a name stands for: in_memory.rs:90-99 (the map), and the broker's table. -/
def current [DecidableEq N] (s : St N) (name : N) : Option Nat := s.insts.findIdx? fun q => q.present && (q.name = name)

/-- `declare_queue` with the options of an exactly-once channel: opens the queue the name stands for, or makes one (in_memory.rs:90-99, amqp.rs:244-263, 303-308). -/
def declareQueue [DecidableEq N] (s : St N) (name : N) : St N × Nat :=
  match current s name with
  | some i => (s, i)
  | none => ({ s with insts := s.insts ++ [⟨name, true, []⟩] }, s.insts.length)

/-- `delete_queue`: the name no longer stands for a queue (in_memory.rs:101-105, amqp.rs:232-242, 310-324). On AMQP the messages are gone; in memory they stay in the queue, for those who still hold it. -/
def deleteQueue [DecidableEq N] (byName : Bool) (s : St N) (name : N) : St N :=
  match current s name with
  | some i =>
    match s.insts[i]? with
    | some q =>
      if byName then { s with insts := s.insts.set i { q with present := false, queue := [] }, lost := s.lost ++ q.queue }
      else { s with insts := s.insts.set i { q with present := false } }
    | none => s
  | none => s

/-- The atomic pieces of channel/queue.rs:152-220, channel/mod.rs:92-131 and runtime/mod.rs:318-366, 452-458. -/
inductive Label (N : Type) where
  /-- a call of `lease_coordinated_task_channel` draws an identifier (random, so any), channel/queue.rs:209-220 -/
  | issue (id : N)
  /-- its `receiver` declares the queue, channel/queue.rs:172-175 -/
  | declare (l : Nat)
  /-- and a consumer, channel/queue.rs:176 -/
  | consume (l : Nat)
  /-- it fails or is dropped -/
  | fail (l : Nat)
  /-- the receiver is dropped -/
  | drop (l : Nat)
  /-- the spawned task deletes the queue -/
  | release (l : Nat)
  /-- the spawned task does not get that far -/
  | giveUp (l : Nat)
  /-- a worker obtains a result sender for a task's routing key -/
  | sender (name : N)
  /-- result sender `k` publishes -/
  | publish (k : Nat)
  /-- the receiver of lease `l` yields a message -/
  | recv (l : Nat)
  /-- the broker deletes a queue that has not been used for 30 minutes, amqp.rs:100-107 (`x-expires`) -/
  | expire (i : Nat)
  deriving DecidableEq, Repr

/-- Lease `l` goes on to phase `p`; no code of its own (runtime/mod.rs:318-366). -/
def setPhase (s : St N) (l : Nat) (p : Phase) : St N :=
  match s.leases[l]? with
  | some x => { s with leases := s.leases.set l { x with phase := p } }
  | none => s

/-- No receiver consumes queue `i`. Broker side of `x-expires`, amqp.rs:104. -/
def unused (s : St N) (i : Nat) : Bool := s.leases.all fun x => x.phase ≠ .opened i

/-- One step, channel/queue.rs:152-220, channel/mod.rs:92-131, runtime/mod.rs:318-366, 452-458. -/
def step [DecidableEq N] (byName : Bool) (s : St N) : Label N → Option (St N)
  | .issue id => some { s with leases := s.leases ++ [⟨id, .issued⟩] }
  | .declare l =>
    match s.leases[l]? with
    | some ⟨id, .issued⟩ => some (setPhase (declareQueue s id).1 l (.declared (declareQueue s id).2))
    | _ => none
  | .consume l =>
    match s.leases[l]? with
    | some ⟨id, .declared i⟩ =>
      if byName then
        match current s id with
        | some j => some (setPhase s l (.opened j))
        | none => some (setPhase s l .failed)
      else some (setPhase s l (.opened i))
    | _ => none
  | .fail l =>
    match s.leases[l]? with
    | some ⟨_, .issued⟩ | some ⟨_, .declared _⟩ => some (setPhase s l .failed)
    | _ => none
  | .drop l =>
    match s.leases[l]? with
    | some ⟨_, .opened _⟩ => some (setPhase s l .dropped)
    | _ => none
  | .release l =>
    match s.leases[l]? with
    | some ⟨id, .dropped⟩ => some (setPhase (deleteQueue byName s id) l .released)
    | _ => none
  | .giveUp l =>
    match s.leases[l]? with
    | some ⟨_, .dropped⟩ => some (setPhase s l .unreleased)
    | _ => none
  | .sender name => some { (declareQueue s name).1 with senders := s.senders ++ [⟨name, (declareQueue s name).2⟩] }
  | .publish k =>
    match s.senders[k]? with
    | some ⟨name, i⟩ =>
      match if byName then current s name else some i with
      | some j =>
        match s.insts[j]? with
        | some q => some { s with insts := s.insts.set j { q with queue := q.queue ++ [s.msgs.length] }, msgs := s.msgs ++ [name] }
        | none => none
      | none => some { s with lost := s.lost ++ [s.msgs.length], msgs := s.msgs ++ [name] }
    | none => none
  | .recv l =>
    match s.leases[l]? with
    | some ⟨_, .opened i⟩ =>
      match s.insts[i]? with
      | some ⟨name, present, m :: rest⟩ =>
        if present || !byName then some { s with insts := s.insts.set i ⟨name, present, rest⟩, received := s.received ++ [(m, l)] } else none
      | _ => none
    | _ => none
  | .expire i =>
    match s.insts[i]? with
    | some ⟨name, true, queue⟩ =>
      if byName && unused s i then some { s with insts := s.insts.set i ⟨name, false, []⟩, lost := s.lost ++ queue } else none
    | _ => none

/-- Executions of channel/queue.rs:152-220. -/
def run [DecidableEq N] (byName : Bool) (s : St N) (ls : List (Label N)) : Option (St N) := Lts.run (step byName) s ls

end Chan
end Paladin
