import Verif.Model.Amqp
/-! # Words for the properties of AMQP queues -/
namespace Paladin
namespace Amqp

/-- Message `m` can be decoded. -/
def decodable (dec : B → Option V) (s : St N B) (m : Nat) : Prop := ∃ g v, s.msgs[m]? = some g ∧ dec g.bytes = some v

/-- Message `m` was published to the name of queue `i`. -/
def addressed (s : St N B) (m i : Nat) : Prop := ∃ g q, s.msgs[m]? = some g ∧ s.queues[i]? = some q ∧ q.name = g.name

/-- The broker and the user of consumer `k` do their work: deliver, poll, acknowledge. -/
def Label.serves (k : Nat) : Label N B → Prop
  | .deliver j => j = k
  | .poll j => j = k
  | .ack j _ => j = k
  | _ => False

/-- How often a message is to be found: ready in a queue, delivered and not settled, acknowledged, negatively acknowledged, lost with its queue, or published to a name that had
no queue. -/
def places (s : St N B) (m : Nat) : Nat :=
  (s.queues.flatMap Queue.ready).count m + (s.consumers.flatMap Consumer.unacked).count m + s.acked.count m + s.nacked.count m + s.lost.count m + s.unroutable.count m

/-- A message published to the name with the given mode arrives in queue `i`: for exactly-once the queue has the name, for broadcast it is bound to the exchange with the name. -/
def routes [DecidableEq N] (s : St N B) (mode : Syndication) (name : N) (i : Nat) : Prop :=
  match mode with
  | .exactlyOnce => s.find name = some i
  | .broadcast => (s.exchanges.lookup name).isSome ∧ (name, i) ∈ s.bindings

/-- The calls a channel makes to its connection: `sender` and `receiver`, channel/queue.rs:159-180, and `release`, channel/queue.rs:183-190. -/
def senderCalls (id : N) (t : ChannelType) : List (Call N B) := [.declareQueue id t.options]
def receiverCalls (id : N) (t : ChannelType) : List (Call N B) := [.declareQueue id t.options, .declareConsumer id]
def releaseCalls (id : N) : List (Call N B) := [.deleteQueue id]

/-- A call made by a channel: one of the above, or a publish through a sender. -/
def Call.ofChannel (c : Call N B) : Prop :=
  ∃ id t, c ∈ senderCalls id t ∨ c ∈ receiverCalls id t ∨ c ∈ releaseCalls id ∨ ∃ b, c = .publish id t.options b

end Amqp
end Paladin
