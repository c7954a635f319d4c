import Verif.Spec.SystemClients
/-! # Specification: workers after an abort-all command

A worker has heard an abort-all command once its command handler has put it on the watch channel (`runtime/mod.rs` 702); until then nobody but the handler knows of it. -/
namespace Paladin

namespace Worker
/-- Number of executions started. -/
def starts : List (Label κ ο χ) → Nat
  | [] => 0
  | .start :: ls => starts ls + 1
  | _ :: ls => starts ls
end Worker

namespace System
open Retry
variable {κ : Type} {σ ℓ : κ → Type} [DecidableEq κ] {T O ε χ ω : Type}

/-- The command handler of worker `w` has put a command on the watch channel. -/
def Heard (w : Nat) (ls : List (Label κ ℓ O χ ω)) : Prop := .work w .hSend ∈ ls

/-- Every command a worker receives is an abort-all command: the only one the library sends (`dispatch_fatal`, `runtime/mod.rs` 577-581). -/
def OnlyAbortAll (cfg : Worker.Cfg κ) (ls : List (Label κ ℓ O χ ω)) : Prop := ∀ w k, .work w (.cmd k) ∈ ls → k = cfg.abortAll

/-- In the execution `ls` every task of job `j` is delivered to a worker that has heard a command before. -/
def AfterAbort (cl : (j : κ) → Client (σ j) (ℓ j) T (Except ε O)) (cfg : Worker.Cfg κ) (exec : ω → T → Except (OpError χ) O) (text : OpError χ → ε) (j : κ) (ls : List (Label κ ℓ O χ ω)) : Prop :=
  ∀ pre w k post s m, ls = pre ++ .deliver w k :: post → run cl cfg exec text (init cl) pre = some s → s.queue[k]? = some m → m.key = j → Heard w pre

/-- In the execution `ls` no task of job `j` ends while a command that its `select!` has not looked at is waiting (`runtime/mod.rs` 771: an execution takes longer than the first poll of the two
branches, and the branch of a waiting command is ready in its first poll). -/
def Prompt (cl : (j : κ) → Client (σ j) (ℓ j) T (Except ε O)) (cfg : Worker.Cfg κ) (exec : ω → T → Except (OpError χ) O) (text : OpError χ → ε) (j : κ) (ls : List (Label κ ℓ O χ ω)) : Prop :=
  ∀ pre w x post s i seen r, ls = pre ++ .finish w x :: post → run cl cfg exec text (init cl) pre = some s → (s.worker w).pc = .running i j seen r → seen = (s.worker w).watch.length

end System
end Paladin
