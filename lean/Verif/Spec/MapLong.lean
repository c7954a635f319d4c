import Verif.Model.MapLong
/-! # Endless inputs: the words of C93 -/
namespace Paladin
namespace MapLong

/-- The step happens when the next item of the input, or its end, is there whenever it is asked for (as with `IndexedStream::from` of an iterator), and publishing neither waits nor fails
(as on the in-memory runtime): the input is not polled in vain and does not fail, and a publish that is polled is through. -/
def allowed (s : St α ε) : Label α ε → Bool
  | .outer (.answer (.err _)) => false
  | .outer (.resolve _ r) => r.isOk
  | .inner .stream => s.pub.ready.isSome
  | .inner .futPending | .inner .futYield => false
  | _ => true

/-- The steps of executions with such an input and such a runtime. -/
def stepReady (limit : Option Nat) (s : St α ε) (l : Label α ε) : Option (St α ε) := if allowed s l then step limit s l else none

/-- A step of the thread that polls the map's stream. -/
def Label.isOwn : Label α ε → Bool
  | .inner _ | .leave | .recv => true
  | _ => false

/-- The input ends. -/
def Label.isEnd : Label α ε → Bool
  | .outer (.answer .fin) => true
  | _ => false

/-- The user polls the map's stream. -/
def Label.isPoll : Label α ε → Bool
  | .poll => true
  | _ => false

/-- A result arrives. -/
def Label.isArrive : Label α ε → Bool
  | .arrive => true
  | _ => false

/-- A publish finishes. -/
def Label.isResolve : Label α ε → Bool
  | .outer (.resolve _ _) => true
  | _ => false

/-- The sending side makes a step. -/
def Label.isInner : Label α ε → Bool
  | .inner _ => true
  | _ => false

end MapLong
end Paladin
