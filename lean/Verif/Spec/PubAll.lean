import Verif.Model.PubAll
/-! # What an execution of `publish_all` shows -/
namespace Paladin
namespace PubAll

/-- The items the stream yielded or is ready to yield. -/
def itemsOf : List (Label α ε) → List α
  | [] => []
  | .answer (.item a) :: ls => a :: itemsOf ls
  | _ :: ls => itemsOf ls

/-- The stream ended. -/
def ends (ls : List (Label α ε)) : Prop := Label.answer .fin ∈ ls

/-- With `n` publishes running, another one may be started: there is no limit, or it is 0 (which means none), or it is not reached. -/
def MayStart (limit : Option Nat) (n : Nat) : Prop := ∀ l, limit = some l → l = 0 ∨ n < l

end PubAll
end Paladin
