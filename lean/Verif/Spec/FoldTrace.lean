import Verif.Model.Fold
import Verif.Spec.Fold
/-! # What an execution of fold shows to its user: inputs and events of a trace -/
namespace Paladin

/-- The indices of a range. -/
def Seg.idxs (x : Seg α) : List Nat := List.range' x.lo (x.hi + 1 - x.lo)

namespace Fold

def CTask.idxs (t : CTask α) : List Nat := List.range' t.lo (t.hi + 1 - t.lo)

def Res.idxs : Res α ε → List Nat
  | .ok x => x.idxs
  | .err _ => []

def Res.isErr : Res α ε → Bool
  | .ok _ => false
  | .err _ => true

/-- Indices of everything alive: queued, waiting for publication, published, returned. -/
def cover (s : St α ε) : List Nat :=
  s.q.flatMap Seg.idxs ++ (s.outbox.flatMap CTask.idxs ++ (s.tasks.flatMap CTask.idxs ++ s.results.flatMap Res.idxs))


/-- The items the input stream yielded, in arrival order. -/
def inputs : List (Label α ε ω) → List (Nat × α)
  | [] => []
  | .item i a :: ls => (i, a) :: inputs ls
  | _ :: ls => inputs ls

/-- Number of combine tasks published. -/
def publishes : List (Label α ε ω) → Nat
  | [] => 0
  | .publish _ :: ls => publishes ls + 1
  | _ :: ls => publishes ls

/-- Number of combine executions. -/
def execs : List (Label α ε ω) → Nat
  | [] => 0
  | .exec _ _ :: ls => execs ls + 1
  | _ :: ls => execs ls

/-- Number of results received. -/
def recvs : List (Label α ε ω) → Nat
  | [] => 0
  | .recv _ :: ls => recvs ls + 1
  | _ :: ls => recvs ls

/-- The broker delivers every task and result once. -/
def Label.exactlyOnce : Label α ε ω → Bool
  | .dupTask _ | .dupResult _ => false
  | _ => true

/-- Additionally nothing vanishes. -/
def Label.lossless : Label α ε ω → Bool
  | .dupTask _ | .dupResult _ | .loseTask _ | .loseResult _ => false
  | _ => true

/-- A task or a result vanishes. -/
def Label.loses : Label α ε ω → Bool
  | .loseTask _ | .loseResult _ => true
  | _ => false

/-- Nothing goes wrong outside the combine function: no loss, duplication, input or I/O failure, disconnection. -/
def Label.reliable : Label α ε ω → Bool
  | .item _ _ | .inputEnd | .publish _ | .exec _ _ | .recv _ | .finish => true
  | _ => false

/-- Steps the system takes by itself (everything but the arrival of input). -/
def Label.internal : Label α ε ω → Bool
  | .publish _ | .exec _ _ | .recv _ | .finish => true
  | _ => false

/-- "Some remote execution of combine on `a`, `b` returns `c`". -/
def Returns (comb : ω → α → α → Except ε α) (a b c : α) : Prop := ∃ w, comb w a b = .ok c

end Fold
end Paladin
