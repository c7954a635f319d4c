import Verif.Model.Restart
import Verif.Spec.Amqp
/-! # Words for what survives a restart of the broker -/
namespace Paladin
namespace Restart
open Amqp

/-- Message `m` is the broker's, in queue `i`: it is ready, or it was delivered to a consumer of the queue and has not been settled. -/
def unsettled (s : Amqp.St N B) (m i : Nat) : Prop := (∃ q, s.queues[i]? = some q ∧ m ∈ q.ready) ∨ ∃ c ∈ s.consumers, c.inst = i ∧ m ∈ c.unacked

/-- Everybody who declares the queue `name` does so with the given durability. -/
def DeclaredAs (ls : List (RLabel N B)) (name : N) (d : Durability) : Prop := ∀ conn o, .base (.begin conn (.declareQueue name o)) ∈ ls → o.durability = d

/-- Everybody who publishes to `name` does so with the given delivery mode. -/
def PublishedAs (ls : List (RLabel N B)) (name : N) (d : Delivery) : Prop := ∀ conn o b, .base (.begin conn (.publish name o b)) ∈ ls → o.delivery = d

/-- Nobody deletes `name`. -/
def NotDeleted (ls : List (RLabel N B)) (name : N) : Prop := ∀ conn, .base (.begin conn (.deleteQueue name)) ∉ ls

end Restart
end Paladin
