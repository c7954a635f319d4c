import Verif.Model.Notice
/-! # Words for noticing that the connection is lost -/
namespace Paladin
namespace Notice
open Worker (Pc)

/-- The loop has a task in hand and still has to call the broker for it: to settle it, or to publish its result. -/
def owes : Pc κ ο χ → Prop
  | .got _ _ | .checked _ _ | .skipping _ _ | .starting _ _ | .running _ _ _ _ | .failing _ _ _ => True
  | .settleOk _ _ _ acked published => ¬ (acked = true ∧ published = true)
  | .settleErr _ _ _ nacked published sent => ¬ (nacked = true ∧ published = true ∧ sent = true)
  | _ => False

/-- The loop has returned. -/
def returned : Pc κ ο χ → Prop
  | .stopped | .errored => True
  | _ => False

/-- The next poll will happen, and will yield a message. -/
def Str.hears (s : Str τ) : Prop := s.asleep = false ∧ ∃ t r, s.items = .msg t :: r

/-- The next poll will happen, and will return the end of the stream. -/
def Str.ends (s : Str τ) : Prop := s.asleep = false ∧ ∃ r, s.items = .fin :: r

/-- The steps the loop makes by itself for the task in hand, when every call to the broker fails and the execution ends with `r`. -/
def ownSteps (r : Except (Retry.OpError χ) ο) : List (WLabel κ ο χ) :=
  [.work .checkFlag, .work .checkTerm, .work .skipNackFail, .work .start, .work (.finish r), .work .sigRead, .work .mark, .work .settleFail, .work .intNackFail, .work .intStop]

/-- The process is not killed. -/
def Survives (ls : List (WLabel κ ο χ)) : Prop := .work .crash ∉ ls

end Notice
end Paladin
