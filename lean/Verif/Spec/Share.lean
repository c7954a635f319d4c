import Verif.Model.SystemAmqp
/-! # Who gets a task: the words of C94 -/
namespace Paladin
namespace SystemAmqp

/-- The worker has received a task and neither acknowledged nor rejected it. -/
def holdsTask : Worker.Pc κ O χ → Bool
  | .got _ _ | .checked _ _ | .skipping _ _ | .starting _ _ | .running _ _ _ _ | .failing _ _ _ | .interrupted _ _ => true
  | .settleOk _ _ _ acked _ => !acked
  | .settleErr _ _ _ nacked _ _ => !nacked
  | _ => false

/-- The worker's loop receives no more tasks: it sleeps before it ends, or has ended. -/
def leaving : Worker.Pc κ O χ → Bool
  | .draining _ _ | .stopped | .errored | .crashed => true
  | _ => false

/-- The broker has sent message `m` to worker `w`, which has not received it. -/
def WaitsAt {κ : Type} {σ : κ → Type} [DecidableEq κ] (s : St κ σ T O ε χ) (w m : Nat) : Prop :=
  ∃ k c, s.ties.lookup (.worker w) = some k ∧ s.net.consumers[k]? = some c ∧ m ∈ c.buffer

/-- Message `m` is in the broker's queue that worker `w` consumes; the worker's consumer is there and connected. -/
def Waiting {κ : Type} {σ : κ → Type} [DecidableEq κ] (nt : Net κ) (s : St κ σ T O ε χ) (w m : Nat) : Prop :=
  ∃ k c q, s.ties.lookup (.worker w) = some k ∧ s.net.consumers[k]? = some c ∧ c.cancelled = false ∧ nt.wconn w ∉ s.net.closed ∧ s.net.queues[c.inst]? = some q ∧ q.present = true ∧ m ∈ q.ready

/-- Message `m` was sent to no worker but perhaps to `w`. -/
def OnlyTo {κ : Type} {σ : κ → Type} [DecidableEq κ] (s : St κ σ T O ε χ) (w m : Nat) : Prop := ∀ k, (m, k) ∈ s.net.dlv → s.ties.lookup (.worker w) = some k

/-- Message `m` has been received by somebody. -/
def Received {κ : Type} {σ : κ → Type} (s : St κ σ T O ε χ) (m : Nat) : Prop := ∃ k, (m, k) ∈ s.net.yielded

end SystemAmqp
end Paladin
