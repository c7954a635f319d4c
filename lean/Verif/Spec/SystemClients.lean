import Verif.Spec.System
import Verif.Model.SystemClients
import Verif.Spec.FoldTrace
import Verif.Spec.MapTrace
/-! # Specification: transparent encodings -/
namespace Paladin
namespace System
open Retry

/-- Executing and decoding an encoded task of a map is executing the operation, with the index of the input. -/
def MapFaithful (exec : ω → T → Except (OpError χ) O) (text : OpError χ → ε) (op : ω → α → Except ε β) (enc : Nat × α → Option T) (dec : O → Except ε (Nat × β)) : Prop :=
  ∀ x i a t, enc (i, a) = some t → (outcome exec text x t).bind dec = (op x a).map fun b => (i, b)

/-- Executing and decoding an encoded combine task is combining, with the range of the task. -/
def FoldFaithful (exec : ω → T → Except (OpError χ) O) (text : OpError χ → ε) (comb : ω → α → α → Except ε α) (enc : Fold.CTask α → Option T) (dec : O → Except ε (Seg α)) : Prop :=
  ∀ x t m, enc t = some m → (outcome exec text x m).bind dec = (comb x t.a t.b).map fun c => ⟨t.lo, t.hi, c⟩

/-- The state after an execution of maps and folds side by side. -/
abbrev dirRun {A B : Type} [DecidableEq A] [DecidableEq B] {α β : A → Type} {γ : B → Type} (op : (a : A) → ω → α a → Except ε (β a))
    (comb : (b : B) → ω → γ b → γ b → Except ε (γ b)) (empty : (b : B) → γ b) (dupErr : ε) (encM : (a : A) → Nat × α a → Option T) (decM : (a : A) → O → Except ε (Nat × β a))
    (encF : (b : B) → Fold.CTask (γ b) → Option T) (decF : (b : B) → O → Except ε (Seg (γ b))) (cfg : Worker.Cfg (A ⊕ B)) (exec : ω → T → Except (OpError χ) O) (text : OpError χ → ε)
    (ls : List (Label (A ⊕ B) (DirLabel α γ ε ω) O χ ω)) : Option (St (A ⊕ B) (DirSt α β γ ε) T O ε χ) :=
  run (dirs op comb empty dupErr encM decM encF decF) cfg exec text (init (dirs op comb empty dupErr encM decM encF decF)) ls

/-- The leader of map `a`. -/
def mapOf {A B : Type} {α β : A → Type} {γ : B → Type} (s : St (A ⊕ B) (DirSt α β γ ε) T O ε χ) (a : A) : MapS.St (α a) (β a) ε := s.lead (.inl a)

/-- The leader of fold `b`. -/
def foldOf {A B : Type} {α β : A → Type} {γ : B → Type} (s : St (A ⊕ B) (DirSt α β γ ε) T O ε χ) (b : B) : Fold.St (γ b) ε := s.lead (.inr b)

/-- The steps of the leader of map `a`. -/
def mapSteps {A B : Type} [DecidableEq A] [DecidableEq B] {α : A → Type} {γ : B → Type} (ls : List (Label (A ⊕ B) (DirLabel α γ ε ω) O χ ω)) (a : A) :
    List (MapS.Label (α a) ε ω) := Label.leads (Sum.inl a : A ⊕ B) ls

/-- The steps of the leader of fold `b`. -/
def foldSteps {A B : Type} [DecidableEq A] [DecidableEq B] {α : A → Type} {γ : B → Type} (ls : List (Label (A ⊕ B) (DirLabel α γ ε ω) O χ ω)) (b : B) :
    List (Fold.Label (γ b) ε ω) := Label.leads (Sum.inr b : A ⊕ B) ls

/-- Steps of the leaders of the jobs in `K` that need no new input. -/
def dirInternal {A B : Type} {α : A → Type} {γ : B → Type} (K : A ⊕ B → Bool) : (j : A ⊕ B) → DirLabel α γ ε ω j → Bool
  | .inl a, l => K (.inl a) && MapS.Label.internal (α := α a) (ε := ε) (ω := ω) l
  | .inr b, l => K (.inr b) && Fold.Label.internal (α := γ b) (ε := ε) (ω := ω) l

end System
end Paladin
