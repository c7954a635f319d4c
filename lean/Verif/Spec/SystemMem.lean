import Verif.Model.SystemMem
import Verif.Spec.SystemClients
/-! # Specification vocabulary for the whole system over the in-memory queue -/
namespace Paladin
namespace SystemMem
open Retry System

/-- The system without its semaphores: what is in the queues, the leaders and the workers. -/
def St.view {κ : Type} {σ : κ → Type} (s : St κ σ T O ε χ) : System.St κ σ T O ε χ :=
  { s.sys with queue := s.tq.msgs, results := fun j => (s.rq j).msgs }

/-- What a step is for leaders and workers; `none` for the steps that concern only a semaphore. -/
def Label.sys {κ : Type} {ℓ : κ → Type} : Label κ ℓ O χ ω → Option (System.Label κ ℓ O χ ω)
  | .lead j l | .recv j l => some (.lead j l)
  | .deliver w => some (.deliver w 0)
  | .finish w x => some (.finish w x)
  | .work w l => some (.work w l)
  | .resPoll _ | .resRelease _ | .taskPoll _ | .taskRelease => none

/-- The steps of leaders and workers in an execution. -/
abbrev actions {κ : Type} {ℓ : κ → Type} (ls : List (Label κ ℓ O χ ω)) : List (System.Label κ ℓ O χ ω) := ls.filterMap Label.sys

/-- Nothing goes wrong with the workers, which are those of `W` (see `System.Label.steady`). -/
def Label.steady {κ : Type} {ℓ : κ → Type} (W : Nat → Bool) : Label κ ℓ O χ ω → Bool
  | .lead _ _ | .recv _ _ | .resPoll _ | .resRelease _ | .taskRelease => true
  | .taskPoll w | .deliver w | .finish w _ => W w
  | .work w l => System.Label.steady W (.work w l : System.Label κ ℓ O χ ω)

/-- What happens without new input: steps `int` of the leaders, the work of the workers `W`, polls and the second halves of publishes; for result queues, those of the jobs `K`. -/
def Label.moves {κ : Type} {ℓ : κ → Type} (W : Nat → Bool) (K : κ → Bool) (int : (j : κ) → ℓ j → Bool) : Label κ ℓ O χ ω → Bool
  | .lead j l | .recv j l => int j l
  | .resPoll j | .resRelease j => K j
  | .taskRelease => true
  | .taskPoll w | .deliver w | .finish w _ => W w
  | .work w l => W w && routine l

/-- Time passes for a worker, or its record of terminated jobs is cleaned up. -/
def Label.idles {κ : Type} {ℓ : κ → Type} : Label κ ℓ O χ ω → Bool
  | .work _ (.tick _) | .work _ .reap => true
  | _ => false

/-- The state after an execution of maps and folds side by side on the in-memory queues. -/
abbrev memRun {A B : Type} [DecidableEq A] [DecidableEq B] {α β : A → Type} {γ : B → Type} (op : (a : A) → ω → α a → Except ε (β a))
    (comb : (b : B) → ω → γ b → γ b → Except ε (γ b)) (empty : (b : B) → γ b) (dupErr : ε) (encM : (a : A) → Nat × α a → Option T) (decM : (a : A) → O → Except ε (Nat × β a))
    (encF : (b : B) → Fold.CTask (γ b) → Option T) (decF : (b : B) → O → Except ε (Seg (γ b))) (cfg : Worker.Cfg (A ⊕ B)) (exec : ω → T → Except (OpError χ) O) (text : OpError χ → ε)
    (ls : List (Label (A ⊕ B) (DirLabel α γ ε ω) O χ ω)) : Option (St (A ⊕ B) (DirSt α β γ ε) T O ε χ) :=
  run (dirs op comb empty dupErr encM decM encF decF) dirListens cfg exec text (init (dirs op comb empty dupErr encM decM encF decF)) ls

end SystemMem
end Paladin
