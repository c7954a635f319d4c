import Verif.Spec.Share
/-! # Who executes a task: the words of C95 -/
namespace Paladin
namespace SystemAmqp

/-- Worker `w` has received message `m`. -/
def ReceivedBy {κ : Type} {σ : κ → Type} [DecidableEq κ] (s : St κ σ T O ε χ) (w m : Nat) : Prop := ∃ k, s.ties.lookup (.worker w) = some k ∧ (m, k) ∈ s.net.yielded

/-- Worker `w` has message `m` in hand: it has received it, and is looking at it, executing it or reporting the outcome, and has not settled it. -/
def Has {κ : Type} {σ : κ → Type} (s : St κ σ T O ε χ) (w m : Nat) : Prop := s.cur w = some m ∧ holdsTask (s.worker w).pc = true

/-- Worker `w` executes the operation of message `m`. -/
def Executes {κ : Type} {σ : κ → Type} (s : St κ σ T O ε χ) (w m : Nat) : Prop := s.cur w = some m ∧ ∃ i j seen b, (s.worker w).pc = .running i j seen b

end SystemAmqp
end Paladin
