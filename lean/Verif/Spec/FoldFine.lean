import Verif.Model.FoldFine
import Verif.Spec.FoldTrace
/-! # What an execution of fold with bounded concurrency shows -/
namespace Paladin
namespace FoldFine

/-- The steps that fold has in common with the description without limits. -/
def folds (ls : List (Label α ε ω)) : List (Fold.Label α ε ω) := ls.filterMap fun l => match l with
  | .fold l => some l
  | _ => none

/-- What happens outside the leader, and to its input: everything but the publishing of tasks and the receipt of results. Which of several results is lost or repeated does not matter. -/
def seen : Fold.Label α ε ω → Option (Fold.Label α ε ω)
  | .publish _ | .recv _ => none
  | .loseResult _ => some (.loseResult 0)
  | .dupResult _ => some (.dupResult 0)
  | l => some l

/-- Steps the leader takes by itself to get rid of what it has in hand. -/
def Label.clears : Label α ε ω → Bool
  | .take | .published _ | .flushed _ | .acked _ => true
  | _ => false

/-- Steps the system takes by itself. -/
def Label.internal : Label α ε ω → Bool
  | .fold l => l.internal
  | _ => true

/-- Nothing goes wrong outside the combine function. -/
def Label.reliable : Label α ε ω → Bool
  | .fold l => l.reliable
  | _ => true

end FoldFine
end Paladin
