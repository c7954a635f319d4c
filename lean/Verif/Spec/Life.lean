import Verif.Model.Life
/-! # Specification: what a loop leaves behind -/
namespace Paladin
namespace Life

/-- What happened to loop `w`, in order. -/
def actsOf (w : Nat) (ls : List Label) : List Act := ls.filterMap fun
  | .act v a => if v = w then some a else none
  | _ => none

/-- The ends of a loop after which line 811 is reached. -/
def Act.normal : Act → Bool
  | .streamEnd | .flagStop | .drained => true
  | _ => false

/-- The ends of a loop. -/
def Act.ends : Act → Bool
  | .streamEnd | .flagStop | .drained | .openFail | .cmdFail | .skipFail | .settleFail | .panic | .dropped => true
  | _ => false

/-- The loop has ended. -/
def Ended (w : Nat) (ls : List Label) : Prop := ∃ a ∈ actsOf w ls, a.ends = true

/-- The loop has ended by returning `Ok`. -/
def EndedOk (w : Nat) (ls : List Label) : Prop := ∃ a ∈ actsOf w ls, a.normal = true

/-- Tasks and operations started by the loop that still run although it has ended. -/
def W.left (w : W) : Nat := (if w.reaper then 1 else 0) + (if w.handler then 1 else 0) + w.stray

/-- Attempts at operations that have begun and not returned. -/
def opsRunning (as : List Act) : Nat := as.count .opStart - (as.count .opReturn + as.count .opEnd)

end Life
end Paladin
