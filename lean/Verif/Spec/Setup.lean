import Verif.Model.Setup
/-!
# Specification of the set-up (C77)

When do a leader and a separately started worker work on the same tasks? Only the configurations are looked at.
-/
namespace Paladin
namespace Setup

/-- The task bus a configuration names; without a name it is the default one. -/
def bus (c : Config) : String :=
  match c.taskKey with
  | some k => k
  | none => "task-ipc-routing-key"

/-- A leader and a worker, each started from a configuration, are on the same bus: both use AMQP, the same broker address and the same bus name. -/
def Together (leader worker : Config) : Prop :=
  leader.runtime = .amqp ∧ worker.runtime = .amqp ∧ leader.amqpUri = worker.amqpUri ∧ bus leader = bus worker

instance (a b : Config) : Decidable (Together a b) := inferInstanceAs (Decidable (_ ∧ _))

/-- Two configurations lead to the same broker. -/
def SameBroker (a b : Config) : Prop := a.runtime = .amqp ∧ b.runtime = .amqp ∧ a.amqpUri = b.amqpUri

instance (a b : Config) : Decidable (SameBroker a b) := inferInstanceAs (Decidable (_ ∧ _))

/-- Worker `W` shares its connection with leader number `l`, with configuration `c`: it is one of the workers the leader brought along, or they use the same broker. -/
def Near (W : Worker) (l : Nat) (c : Config) : Prop := W.owner = some l ∨ (W.owner = none ∧ SameBroker c W.cfg)

/-- Two workers share their connection. -/
def Peers (w w' : Nat) (W W' : Worker) : Prop :=
  (W.owner ≠ none ∧ W.owner = W'.owner) ∨ (W.owner = none ∧ W'.owner = none ∧ (w = w' ∨ SameBroker W.cfg W'.cfg))

/-- What is written in a format can be read in it again. -/
structure Lawful (fm : Formats T C R B) : Prop where
  task : ∀ s t b, fm.encT s t = some b → fm.decT s b = some t
  command : ∀ s t b, fm.encC s t = some b → fm.decC s b = some t
  result : ∀ s t b, fm.encR s t = some b → fm.decR s b = some t

/-- Worker `W` serves leader number `l`, with configuration `c`. -/
def Serves (W : Worker) (l : Nat) (c : Config) : Prop := W.owner = some l ∨ (W.owner = none ∧ Together c W.cfg)

end Setup
end Paladin
