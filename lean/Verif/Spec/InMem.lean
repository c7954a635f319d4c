import Verif.Model.InMem
/-! # Specification vocabulary for the in-memory queue -/
namespace Paladin
namespace InMem

/-- A consumer polled and has neither been served nor dropped since. -/
def Wants (os : List (Op M)) (k : Nat) : Prop := ∃ pre post, os = pre ++ .poll k :: post ∧ ∀ o ∈ post, o ≠ .drop k ∧ o ≠ .pop k

end InMem
end Paladin
