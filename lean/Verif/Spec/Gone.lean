import Verif.Spec.Broadcast
/-! # What a broadcast queue keeps when its consumers are gone: the words of C92 -/
namespace Paladin
namespace InMem

/-- From here on nobody receives on consumer `name`: no handle on it is left, or none is polled any more. Dropping handles is allowed. -/
def Deserted (name : Nat) (os : List (BOp M)) : Prop := ∀ o ∈ os, ∀ h, o ≠ .pop name h

/-- No thread has called `declare_consumer` with this name. -/
def NeverDeclared (name : Nat) (os : List (BOp M)) : Prop := ∀ o ∈ os, o ≠ .declare name

/-- The messages, with their ids, that were put in the queue of consumer `name` so far. -/
def BSt.givenTo (s : BSt M) (name : Nat) : List (Nat × M) := s.receivedBy name ++ s.queuedFor name

end InMem
end Paladin
