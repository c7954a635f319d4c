import Verif.Model.Lts
/-!
# Model of queues over AMQP

Code: `paladin-core/src/queue/amqp.rs` (the calls it makes to the broker, and `AMQPConsumer::poll_next`) and `paladin-core/src/channel/queue.rs` 102-117 (options of a
channel). The broker is not part of the repository: `method` below says what RabbitMQ does with each AMQP 0-9-1 method the code uses, and is trusted.

Each call of the API is a list of methods, performed one at a time, so that calls of any number of processes interleave. Every process has one connection with one
channel (amqp.rs:163-189). Broker restarts: see `Restart`. Not modelled: consumer tags (drawn at random; two equal tags on one channel close the connection), time (a queue with
`x-expires` may expire whenever nobody consumes from it), the serialization of payloads (see `Wire`; a message is any value of `B`).
-/
namespace Paladin
namespace Amqp

/-- Code: `SyndicationMode`, queue/mod.rs:34-40. -/
inductive Syndication where
  | exactlyOnce
  | broadcast
deriving DecidableEq, Repr

/-- Code: `DeliveryMode`, queue/mod.rs:20-30. -/
inductive Delivery where
  | persistent
  | ephemeral
deriving DecidableEq, Repr

/-- Code: `QueueDurability`, queue/mod.rs:44-50. -/
inductive Durability where
  | nonDurable
  | durable
deriving DecidableEq, Repr

/-- Code: `QueueOptions`, queue/mod.rs:54-61. -/
structure QueueOptions where
  mode : Syndication
  delivery : Delivery
  durability : Durability
deriving DecidableEq, Repr

/-- Code: `ChannelType`, channel/mod.rs:26-29. -/
inductive ChannelType where
  | exactlyOnce
  | broadcast
deriving DecidableEq, Repr

/-- Code: `From<ChannelType> for QueueOptions`, channel/queue.rs:102-117. -/
def ChannelType.options : ChannelType → QueueOptions
  | .exactlyOnce => ⟨.exactlyOnce, .persistent, .nonDurable⟩
  | .broadcast => ⟨.broadcast, .persistent, .nonDurable⟩

/-- What is sent along when a queue or an exchange is declared: the `durable` flag and the `x-expires` argument (in milliseconds). Code: amqp.rs:77-115. -/
structure Args where
  durable : Bool
  expires : Option Nat
deriving DecidableEq, Repr

/-- Code: `into_queue_declare_options`, `into_exchange_declare_options`, `into_declare_arguments`, amqp.rs:77-115. -/
def QueueOptions.args (o : QueueOptions) : Args :=
  match o.durability with
  | .nonDurable => ⟨false, some 1800000⟩
  | .durable => ⟨true, none⟩

/-- Code: `into_message_properties`, amqp.rs:68-75: the `delivery_mode` property. -/
def QueueOptions.deliveryMode (o : QueueOptions) : Option Nat :=
  match o.delivery with
  | .persistent => some 2
  | .ephemeral => none

/-- Where a message is published to: the default exchange, which knows every queue by its name, or a fanout exchange. Code: the first two arguments of `basic_publish`, amqp.rs:334-335 and 352-353. -/
inductive Dest (N : Type) where
  | queue (name : N)
  | fanout (name : N)
deriving DecidableEq, Repr

/-- Its name, amqp.rs:334 and 353. -/
def Dest.name : Dest N → N
  | .queue n => n
  | .fanout n => n

/-- The AMQP methods the code uses. Code: amqp.rs:198, 207, 215, 234, 238, 250, 267, 333, 351, 488. -/
inductive Method (N B : Type) where
  | exchangeDeclare (x : N) (a : Args)
  | queueDeclare (q : N) (a : Args)
  | queueBind (q x : N)
  | queueDelete (q : N)
  | exchangeDelete (x : N)
  | publish (d : Dest N) (b : B) (mode : Option Nat)
  | consume (q : N)
deriving DecidableEq, Repr

/-- Calls of the API: `declare_queue`, `delete_queue`, `publish` through a handle of the queue, `declare_consumer`. Code: amqp.rs:303-324, 428-433, 482-501. -/
inductive Call (N B : Type) where
  | declareQueue (name : N) (o : QueueOptions)
  | deleteQueue (name : N)
  | publish (name : N) (o : QueueOptions) (b : B)
  | declareConsumer (name : N)
deriving DecidableEq, Repr

/-- Code: `declare_single`, amqp.rs:244-263. -/
def declareSingle (name : N) (o : QueueOptions) : List (Method N B) := [.queueDeclare name o.args]

/-- Code: `declare_broadcast`, amqp.rs:191-230. -/
def declareBroadcast (name : N) (o : QueueOptions) : List (Method N B) :=
  [.exchangeDeclare name o.args, .queueDeclare name o.args, .queueBind name name]

/-- Code: `declare_queue`, amqp.rs:303-308. -/
def declareQueue (name : N) (o : QueueOptions) : List (Method N B) :=
  match o.mode with
  | .exactlyOnce => declareSingle name o
  | .broadcast => declareBroadcast name o

/-- Code: `delete_broadcast`, amqp.rs:232-242. -/
def deleteBroadcast (name : N) : List (Method N B) := [.queueDelete name, .exchangeDelete name]

/-- Code: `delete_single`, amqp.rs:265-271. -/
def deleteSingle (name : N) : List (Method N B) := [.queueDelete name]

/-- Code: `delete_queue`, amqp.rs:310-324; `known` is what the map `queue_options` holds for the name. -/
def deleteQueue (known : Option QueueOptions) (name : N) : List (Method N B) :=
  match known with
  | some o => match o.mode with
    | .exactlyOnce => deleteSingle name
    | .broadcast => deleteBroadcast name
  | none => deleteBroadcast name

/-- Code: `publish`, `publish_broadcast`, `publish_single`, amqp.rs:328-362 and 428-433. -/
def publish (name : N) (o : QueueOptions) (b : B) : List (Method N B) :=
  match o.mode with
  | .exactlyOnce => [.publish (.queue name) b o.deliveryMode]
  | .broadcast => [.publish (.fanout name) b o.deliveryMode]

/-- The methods of a call. The map `queue_options` is empty: nothing in amqp.rs inserts into it. `declare_consumer`: amqp.rs:482-501. -/
def Call.methods : Call N B → List (Method N B)
  | .declareQueue name o => Amqp.declareQueue name o
  | .deleteQueue name => Amqp.deleteQueue none name
  | .publish name o b => Amqp.publish name o b
  | .declareConsumer name => [.consume name]

/-- A queue of the broker; `present` until it is deleted or expires. Queues are known by their position in the list, so that a new queue with an old name is another one. Broker side of `queue_declare`, amqp.rs:207, 250. -/
structure Queue (N : Type) where
  name : N
  args : Args
  present : Bool
  ready : List Nat
deriving DecidableEq, Repr

/-- A consumer. `unacked`: what the broker has delivered and not seen settled. On the client's side: `buffer`, what has arrived and not been polled; `held`, what was yielded
and not settled; `stuck`, what could not be decoded. `parked`: the stream holds a waker; `woken`: the task has been woken since it polled. Code: `AMQPConsumer`, amqp.rs:504-510; the rest is lapin and the broker. -/
structure Consumer where
  conn : Nat
  inst : Nat
  cancelled : Bool
  unacked : List Nat
  buffer : List Nat
  held : List Nat
  stuck : List Nat
  parked : Bool
  woken : Bool
deriving DecidableEq, Repr

/-- A published message: the name it was published to and its bytes. Code: amqp.rs:333-339, 351-357. -/
structure Msg (N B : Type) where
  name : N
  bytes : B
deriving DecidableEq, Repr

/-- The result of a method: done, or an error that closes the channel. The `.await?` after each method, e.g. amqp.rs:204, 212, 222. -/
inductive Res where
  | ok
  | notFound
  | preconditionFailed
deriving DecidableEq, Repr

/-- A call that has begun: the methods left, and its result once it is over (`none`: the channel was closed). Code: the bodies of the calls, amqp.rs:191-272, 303-362, 482-501. -/
structure Running (N B : Type) where
  conn : Nat
  call : Call N B
  rest : List (Method N B)
  result : Option (Option Res)
deriving DecidableEq, Repr

/-- The broker, the consumers and the calls. Messages are known by their position in `msgs`. The lists from `dlv` on record what happened: deliveries and yields (message,
consumer), messages acked, nacked (and dropped by the broker), lost with their queue, published to a name without a queue, put back into their queue. Broker state: not in the repository; the channel closed with an error is that of amqp.rs:157. -/
structure St (N B : Type) where
  queues : List (Queue N)
  exchanges : List (N × Args)
  bindings : List (N × Nat)
  consumers : List Consumer
  msgs : List (Msg N B)
  closed : List Nat
  calls : List (Running N B)
  dlv : List (Nat × Nat)
  yielded : List (Nat × Nat)
  acked : List Nat
  nacked : List Nat
  lost : List Nat
  unroutable : List Nat
  requeued : List Nat
deriving DecidableEq, Repr

/-- A fresh broker and no calls; a connection is opened in amqp.rs:165-189. -/
def init : St N B := ⟨[], [], [], [], [], [], [], [], [], [], [], [], [], []⟩

/-- The queue that has a name now. Broker side of the names in amqp.rs:208, 251, 353, 489. -/
def St.find [DecidableEq N] (s : St N B) (name : N) : Option Nat := s.queues.findIdx? fun q => q.present && q.name = name

/-- The queue with number `i` is removed: its messages are lost, its bindings removed. Broker side of `queue_delete`, amqp.rs:234, 267, and of `x-expires`, amqp.rs:104. -/
def remove (s : St N B) (i : Nat) (q : Queue N) : St N B :=
  { s with queues := s.queues.set i { q with present := false, ready := [] }, bindings := s.bindings.filter fun b => b.2 ≠ i, lost := s.lost ++ q.ready }

/-- What the broker does with a method of connection `conn`. Trusted; the methods are those of amqp.rs:198-239, 250-268, 333-341, 351-359, 488-494. -/
def method [DecidableEq N] (s : St N B) (conn : Nat) : Method N B → St N B × Res
  | .exchangeDeclare x a => match s.exchanges.lookup x with
    | some a' => (s, if a' = a then .ok else .preconditionFailed)
    | none => ({ s with exchanges := s.exchanges ++ [(x, a)] }, .ok)
  | .queueDeclare q a => match s.find q with
    | some i => (s, if (s.queues[i]?.map (·.args)) = some a then .ok else .preconditionFailed)
    | none => ({ s with queues := s.queues ++ [⟨q, a, true, []⟩] }, .ok)
  | .queueBind q x => match s.exchanges.lookup x, s.find q with
    | some _, some i => ({ s with bindings := if (x, i) ∈ s.bindings then s.bindings else s.bindings ++ [(x, i)] }, .ok)
    | _, _ => (s, .notFound)
  | .queueDelete q => match s.find q with
    | some i => match s.queues[i]? with
      | some c => (remove s i c, .ok)
      | none => (s, .ok)
    | none => (s, .ok)
  | .exchangeDelete x => ({ s with exchanges := s.exchanges.filter (fun e => e.1 ≠ x), bindings := s.bindings.filter (fun b => b.1 ≠ x) }, .ok)
  | .publish (.queue name) b _ =>
    match s.find name with
    | some i => ({ s with msgs := s.msgs ++ [⟨name, b⟩], queues := s.queues.modify i fun q => { q with ready := q.ready ++ [s.msgs.length] } }, .ok)
    | none => ({ s with msgs := s.msgs ++ [⟨name, b⟩], unroutable := s.unroutable ++ [s.msgs.length] }, .ok)
  | .publish (.fanout x) b _ =>
    if (s.exchanges.lookup x).isSome then
      if (List.range s.queues.length).any fun i => (x, i) ∈ s.bindings then
        ({ s with msgs := s.msgs ++ [⟨x, b⟩], queues := s.queues.mapIdx fun i q => if (x, i) ∈ s.bindings then { q with ready := q.ready ++ [s.msgs.length] } else q }, .ok)
      else ({ s with msgs := s.msgs ++ [⟨x, b⟩], unroutable := s.unroutable ++ [s.msgs.length] }, .ok)
    else ({ s with msgs := s.msgs ++ [⟨x, b⟩], unroutable := s.unroutable ++ [s.msgs.length] }, .notFound)
  | .consume q => match s.find q with
    | some i => ({ s with consumers := s.consumers ++ [⟨conn, i, false, [], [], [], [], false, false⟩] }, .ok)
    | none => (s, .notFound)

/-- One atomic piece of what the processes (amqp.rs:191-554), lapin and the broker do. -/
inductive Label (N B : Type) where
  /-- a process calls the API -/
  | begin (conn : Nat) (c : Call N B)
  /-- the next method of a call is performed -/
  | exec (k : Nat)
  /-- the broker delivers the first ready message of its queue to a consumer -/
  | deliver (c : Nat)
  /-- a consumer is polled -/
  | poll (c : Nat)
  /-- a message that the consumer yielded is acknowledged -/
  | ack (c m : Nat)
  /-- … or negatively, with the default options: the broker drops it -/
  | nack (c m : Nat)
  /-- the consumer is dropped -/
  | cancel (c : Nat)
  /-- a connection or its channel is closed -/
  | lose (conn : Nat)
  /-- the broker puts the last unsettled message of a consumer whose connection is closed back to the front of its queue -/
  | requeue (c : Nat)
  /-- a queue nobody consumes from expires -/
  | expire (i : Nat)
deriving Repr

/-- The consumer can be delivered to. Broker side of `basic_consume`, amqp.rs:488-494. -/
def St.canDeliver (s : St N B) (c : Consumer) : Bool :=
  !c.cancelled && !s.closed.contains c.conn && (match s.queues[c.inst]? with | some q => q.present | none => false)

/-- One step; `dec` decodes the bytes of a message and `prefetch` is the limit set by `basic_qos` (amqp.rs:179-181; per consumer in RabbitMQ, 0 means none). Polling
(amqp.rs:512-537) an undecodable message returns `Pending` and forgets the delivery without settling it; lapin registers the waker in every poll. -/
def step [DecidableEq N] (dec : B → Option V) (prefetch : Nat) (s : St N B) : Label N B → Option (St N B)
  | .begin conn c => some { s with calls := s.calls ++ [⟨conn, c, c.methods, none⟩] }
  | .exec k => match s.calls[k]? with
    | none => none
    | some r =>
      if r.result.isSome then none
      else if s.closed.contains r.conn then some { s with calls := s.calls.set k { r with result := some none } }
      else match r.rest with
        | [] => some { s with calls := s.calls.set k { r with result := some (some .ok) } }
        | m :: rest =>
          if (method s r.conn m).2 = .ok then some { (method s r.conn m).1 with calls := s.calls.set k { r with rest := rest } }
          else some { (method s r.conn m).1 with calls := s.calls.set k { r with result := some (some (method s r.conn m).2) }, closed := r.conn :: s.closed }
  | .deliver k => match s.consumers[k]? with
    | none => none
    | some c =>
      if s.canDeliver c && (prefetch = 0 || c.unacked.length < prefetch) then
        match s.queues[c.inst]? with
        | none => none
        | some q => match q.ready with
          | [] => none
          | m :: rest => some { s with
              queues := s.queues.set c.inst { q with ready := rest },
              consumers := s.consumers.set k { c with unacked := c.unacked ++ [m], buffer := c.buffer ++ [m], woken := c.woken || c.parked },
              dlv := s.dlv ++ [(m, k)] }
      else none
  | .poll k => match s.consumers[k]? with
    | none => none
    | some c => match c.buffer with
      | [] => some { s with consumers := s.consumers.set k { c with parked := true, woken := false } }
      | m :: rest => match (s.msgs[m]?).bind (fun g => dec g.bytes) with
        | some _ => some { s with
            consumers := s.consumers.set k { c with buffer := rest, held := c.held ++ [m], parked := true, woken := false }, yielded := s.yielded ++ [(m, k)] }
        | none => some { s with consumers := s.consumers.set k { c with buffer := rest, stuck := c.stuck ++ [m], parked := true, woken := false } }
  | .ack k m => match s.consumers[k]? with
    | none => none
    | some c =>
      if c.held.contains m && !s.closed.contains c.conn then
        some { s with consumers := s.consumers.set k { c with held := c.held.erase m, unacked := c.unacked.erase m }, acked := s.acked ++ [m] }
      else none
  | .nack k m => match s.consumers[k]? with
    | none => none
    | some c =>
      if c.held.contains m && !s.closed.contains c.conn then
        some { s with consumers := s.consumers.set k { c with held := c.held.erase m, unacked := c.unacked.erase m }, nacked := s.nacked ++ [m] }
      else none
  | .cancel k => match s.consumers[k]? with
    | none => none
    | some c => some { s with consumers := s.consumers.set k { c with cancelled := true } }
  | .lose conn => some { s with closed := conn :: s.closed }
  | .requeue k => match s.consumers[k]? with
    | none => none
    | some c => match c.unacked.getLast? with
      | none => none
      | some m =>
        if s.closed.contains c.conn then
          match s.queues[c.inst]? with
          | none => none
          | some q =>
            if q.present then some { s with
                consumers := s.consumers.set k { c with unacked := c.unacked.dropLast }, queues := s.queues.set c.inst { q with ready := m :: q.ready }, requeued := s.requeued ++ [m] }
            else some { s with consumers := s.consumers.set k { c with unacked := c.unacked.dropLast }, lost := s.lost ++ [m] }
        else none
  | .expire i => match s.queues[i]? with
    | none => none
    | some q =>
      if q.present && q.args.expires.isSome && s.consumers.all (fun c => c.inst ≠ i || !s.canDeliver c) then some (remove s i q) else none

/-- Executions of the system of amqp.rs:155-554 and a broker. -/
abbrev run [DecidableEq N] (dec : B → Option V) (prefetch : Nat) (s : St N B) (ls : List (Label N B)) : Option (St N B) := Lts.run (step dec prefetch) s ls

end Amqp
end Paladin
