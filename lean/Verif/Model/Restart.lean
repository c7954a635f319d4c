import Verif.Model.Amqp
/-!
# Model of a broker that restarts

Code: the options `DeliveryMode` and `QueueDurability` of `paladin-core/src/queue/mod.rs` (18-61), what `paladin-core/src/queue/amqp.rs` makes of them (68-115), and the
options of a channel, `paladin-core/src/channel/queue.rs` (102-117). The system is that of `Amqp`; besides, the delivery mode of each message is remembered, and the broker may
restart at any time.

What RabbitMQ does in an orderly restart is not in the repository; `restart` is trusted. A message is on disk as soon as it has been published (the code does not ask for
publisher confirms, so after a crash even a persistent message may be missing; such a crash is not modelled). Nothing in the repository connects a second time: a process whose
connection was broken has to be started again, as a new connection.
-/
namespace Paladin
namespace Restart
open Amqp (Label Consumer Queue Method)

/-- The system of `Amqp`, and the `delivery_mode` of every message. Code: amqp.rs:68-75, 333-341, 351-359. -/
structure St (N B : Type) where
  base : Amqp.St N B
  modes : List (Option Nat)
deriving DecidableEq, Repr

/-- A fresh broker, amqp.rs:165-189. -/
def init : St N B := ⟨Amqp.init, []⟩

/-- What the broker has on disk: `delivery_mode` 2. Broker side of amqp.rs:71. -/
def St.onDisk (s : St N B) (m : Nat) : Bool := s.modes[m]? = some (some 2)

/-- The queue is kept over a restart: it exists and is durable. Broker side of amqp.rs:80-85. -/
def keeps (q : Queue N) : Bool := q.present && q.args.durable

/-- The deliveries from queue `i` that have not been settled; they return to the queue. Broker side of amqp.rs:488-494. -/
def returned (cs : List Consumer) (i : Nat) : List Nat := (cs.filter fun c => c.inst = i).flatMap (·.unacked)

/-- The messages a queue has after a restart, queue/mod.rs:21-29, 45-49. -/
def kept (s : St N B) (i : Nat) (q : Queue N) : List Nat := if keeps q then (returned s.base.consumers i ++ q.ready).filter s.onDisk else []

/-- The messages of a queue that a restart loses, queue/mod.rs:21-29, 45-49. -/
def gone (s : St N B) (i : Nat) (q : Queue N) : List Nat := if keeps q then (returned s.base.consumers i ++ q.ready).filter (fun m => !s.onDisk m) else returned s.base.consumers i ++ q.ready

/-- The deliveries that return to a queue that is kept. Broker side of amqp.rs:488-494. -/
def back (s : St N B) (i : Nat) (q : Queue N) : List Nat := if keeps q then (returned s.base.consumers i).filter s.onDisk else []

/-- The broker restarts, queue/mod.rs:21-29, 45-49: every connection is broken (those of the calls and consumers, and others, `conns`); queues and exchanges that are not durable are gone, with their messages and bindings; durable
queues get back what was delivered from them and not settled; of their messages those on disk remain. What the clients have received is still with them. -/
def restart [DecidableEq N] (s : St N B) (conns : List Nat) : St N B :=
  { s with base := { s.base with
      queues := s.base.queues.mapIdx fun i q => { q with present := keeps q, ready := kept s i q }
      exchanges := s.base.exchanges.filter fun e => e.2.durable
      bindings := s.base.bindings.filter fun b =>
        (match s.base.queues[b.2]? with | some q => keeps q | none => false) && (match s.base.exchanges.lookup b.1 with | some a => a.durable | none => false)
      consumers := s.base.consumers.map fun c => { c with unacked := [] }
      closed := conns ++ s.base.calls.map (·.conn) ++ s.base.consumers.map (·.conn) ++ s.base.closed
      requeued := s.base.requeued ++ (s.base.queues.mapIdx (back s)).flatten
      lost := s.base.lost ++ (s.base.queues.mapIdx (gone s)).flatten } }

/-- The `delivery_mode` of the message that this step publishes, if it publishes one. Code: the properties in amqp.rs:338, 356. -/
def modeOf (s : Amqp.St N B) : Label N B → Option Nat
  | .exec k => match s.calls[k]? with
    | some r => match r.rest with
      | .publish _ _ mode :: _ => mode
      | _ => none
    | none => none
  | _ => none

/-- A step of `Amqp` (amqp.rs:155-554), or a restart (queue/mod.rs:21-49). -/
inductive RLabel (N B : Type) where
  | base (l : Label N B)
  | restart (conns : List Nat)
deriving Repr

/-- One step of amqp.rs:155-554 with a broker that may restart (queue/mod.rs:21-49). -/
def step [DecidableEq N] (dec : B → Option V) (prefetch : Nat) (s : St N B) : RLabel N B → Option (St N B)
  | .base l => (Amqp.step dec prefetch s.base l).map fun b => ⟨b, if s.base.msgs.length < b.msgs.length then s.modes ++ [modeOf s.base l] else s.modes⟩
  | .restart conns => some (restart s conns)

/-- Executions of amqp.rs:155-554 with restarts. -/
abbrev run [DecidableEq N] (dec : B → Option V) (prefetch : Nat) (s : St N B) (ls : List (RLabel N B)) : Option (St N B) := Lts.run (step dec prefetch) s ls

end Restart
end Paladin
