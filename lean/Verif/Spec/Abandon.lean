import Verif.Spec.System
/-! # Words for a job that is given up -/
namespace Paladin
namespace System

/-- The tasks that job `j` has published, each as often as it was published, whatever has become of them: they are in the task queue, or were delivered and not returned to it. -/
def owned {κ : Type} {σ : κ → Type} [DecidableEq κ] (j : κ) (s : St κ σ T O ε χ) : List T :=
  (s.queue.filter fun m => m.key = j).map (·.task) ++ (s.dels.filter fun d => d.msg.key = j ∧ d.fate ≠ .returned).map (·.msg.task)

/-- The tasks of job `j` that were executed and whose result was published, once for each time. -/
def executed {κ : Type} {σ : κ → Type} [DecidableEq κ] (j : κ) (s : St κ σ T O ε χ) : List T := (s.dels.filter fun d => d.msg.key = j ∧ d.answered = true).map (·.msg.task)

/-- The leader of job `j` does nothing any more: its future or stream was dropped. -/
def GivenUp {κ : Type} {ℓ : κ → Type} (j : κ) (ls : List (Label κ ℓ O χ ω)) : Prop := ∀ l, .lead j l ∉ ls

end System
end Paladin
