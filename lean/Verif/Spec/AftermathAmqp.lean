import Verif.Spec.SystemAmqp
/-! # Specification: workers on a broker after an abort-all command (see `Verif/Spec/Aftermath.lean`) -/
namespace Paladin
namespace SystemAmqp
open Retry System
variable {κ : Type} {σ ℓ : κ → Type} [DecidableEq κ] {T O ε χ ω : Type}

/-- The command handler of worker `w` has put a command on the watch channel (`runtime/mod.rs` 702). -/
def Heard (w : Nat) (ls : List (Label κ ℓ T O ε χ ω)) : Prop := .work w .hSend ∈ ls

/-- Every command a worker receives is an abort-all command: the only one the library sends (`dispatch_fatal`, `runtime/mod.rs` 577-581). -/
def OnlyAbortAll (cfg : Worker.Cfg κ) (ls : List (Label κ ℓ T O ε χ ω)) : Prop := ∀ w k, .work w (.cmd k) ∈ ls → k = cfg.abortAll

/-- In the execution `ls` every task of job `j` is received by a worker that has heard a command before. -/
def AfterAbort (cl : (j : κ) → Client (σ j) (ℓ j) T (Except ε O)) (listens : (j : κ) → σ j → Bool) (nt : Net κ) (cfg : Worker.Cfg κ) (exec : ω → T → Except (OpError χ) O) (text : OpError χ → ε) (j : κ)
    (ls : List (Label κ ℓ T O ε χ ω)) : Prop :=
  ∀ pre w post s i, ls = pre ++ .deliver w :: post → run cl listens nt cfg exec text (init cl) (pre ++ [.deliver w]) = some s → (s.worker w).pc = .got i j → Heard w pre

/-- In the execution `ls` no task of job `j` ends while a command that its `select!` has not looked at is waiting (`runtime/mod.rs` 771). -/
def Prompt (cl : (j : κ) → Client (σ j) (ℓ j) T (Except ε O)) (listens : (j : κ) → σ j → Bool) (nt : Net κ) (cfg : Worker.Cfg κ) (exec : ω → T → Except (OpError χ) O) (text : OpError χ → ε) (j : κ)
    (ls : List (Label κ ℓ T O ε χ ω)) : Prop :=
  ∀ pre w x post s i seen r, ls = pre ++ .finish w x :: post → run cl listens nt cfg exec text (init cl) pre = some s → (s.worker w).pc = .running i j seen r → seen = (s.worker w).watch.length

end SystemAmqp
end Paladin
