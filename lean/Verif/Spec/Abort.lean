import Verif.Spec.AmqpPipe
/-! # Specification: the abort signal

The signal is the worker's flag `abort_worker_execution` (`runtime/mod.rs` 687), handed to every operation (746). -/
namespace Paladin

namespace System
open Retry
variable {κ : Type} {σ ℓ : κ → Type} [DecidableEq κ] {T O ε χ ω : Type}

/-- In the execution `ls` operations only read the abort signal, and read what is there. `sees x`: under the circumstances `x` the operation finds the signal set at some moment of its execution. -/
structure Truthful (cl : (j : κ) → Client (σ j) (ℓ j) T (Except ε O)) (cfg : Worker.Cfg κ) (exec : ω → T → Except (OpError χ) O) (text : OpError χ → ε) (sees : ω → Prop)
    (ls : List (Label κ ℓ O χ ω)) : Prop where
  /-- no operation sets the signal -/
  readOnly : ∀ w, .work w .setFlag ∉ ls
  /-- an operation that has found the signal set by the time its outcome is taken ran on a worker whose flag is set by then -/
  reads : ∀ pre w x post s, ls = pre ++ .finish w x :: post → run cl cfg exec text (init cl) pre = some s → sees x → (s.worker w).flag = true
end System

namespace SystemAmqp
open System Retry
variable {κ : Type} {σ ℓ : κ → Type} [DecidableEq κ] {T O ε χ ω : Type}

/-- The same on a broker. -/
structure Truthful (cl : (j : κ) → Client (σ j) (ℓ j) T (Except ε O)) (listens : (j : κ) → σ j → Bool) (nt : Net κ) (cfg : Worker.Cfg κ) (exec : ω → T → Except (OpError χ) O) (text : OpError χ → ε)
    (sees : ω → Prop) (ls : List (Label κ ℓ T O ε χ ω)) : Prop where
  /-- no operation sets the signal -/
  readOnly : ∀ w, .work w .setFlag ∉ ls
  /-- an operation that has found the signal set by the time its outcome is taken ran on a worker whose flag is set by then -/
  reads : ∀ pre w x post s, ls = pre ++ .finish w x :: post → run cl listens nt cfg exec text (init cl) pre = some s → sees x → (s.worker w).flag = true
end SystemAmqp

namespace Hello

open Exec Wire System

/-- `CharToString` finds the signal set in one of its nine looks (ops/src/lib.rs:22-30), in some attempt. -/
def Sees (flag : Nat → Nat → Bool) (x : System.Circ) : Prop := ∃ i n, 1 ≤ n ∧ n ≤ 9 ∧ flag (x.moment i) n = true

/-- `CharToString` reads the abort signal of its worker. -/
abbrev Truth {ε L : Type} [DecidableEq L] [Anyhow ε] (join dupErr : ε) (ops : List (OpDef ε)) (k kt : Serializer) (flag : Nat → Nat → Bool) (dbg : Char → String) (keyM keyF : L → Str) (idM idF : U8)
    (cfg : Worker.Cfg (L ⊕ L))
    (ls : List (Label (L ⊕ L) (DirLabel (fun l => (mapJob (ε := ε) flag dbg (keyM l) idM).d.In) (fun l => (foldJob (ε := ε) (keyF l) idF).Elem) ε Circ) Buf ε Circ)) : Prop :=
  Truthful (dirs (fun l => (mapJob (ε := ε) flag dbg (keyM l) idM).run join k kt) (fun l => (foldJob (ε := ε) (keyF l) idF).run join k kt) (fun l => (foldJob (ε := ε) (keyF l) idF).empty) dupErr
    (fun l => encMap k kt (mapJob flag dbg (keyM l) idM)) (fun l => decMap k (mapJob flag dbg (keyM l) idM)) (fun l => encFold k kt (foldJob (keyF l) idF))
    (fun l => decFold k (foldJob (keyF l) idF))) cfg (execBytes join ops k) (textBytes k) (Sees flag) ls
end Hello

namespace SystemAmqp
open Exec Wire System Hello

/-- `CharToString` reads the abort signal of its worker; leaders and workers of the example on a broker. -/
abbrev Truth {ε L : Type} [DecidableEq L] [Anyhow ε] (join dupErr : ε) (ops : List (OpDef ε)) (k kt : Serializer) (flag : Nat → Nat → Bool) (dbg : Char → String) (keyM keyF : L → Str) (idM idF : U8)
    (nt : Net (L ⊕ L)) (cfg : Worker.Cfg (L ⊕ L))
    (ls : List (Label (L ⊕ L) (DirLabel (fun l => (mapJob (ε := ε) flag dbg (keyM l) idM).d.In) (fun l => (foldJob (ε := ε) (keyF l) idF).Elem) ε Circ) Buf Buf ε ε Circ)) : Prop :=
  Truthful (dirs (fun l => (mapJob (ε := ε) flag dbg (keyM l) idM).run join k kt) (fun l => (foldJob (ε := ε) (keyF l) idF).run join k kt) (fun l => (foldJob (ε := ε) (keyF l) idF).empty) dupErr
    (fun l => encMap k kt (mapJob flag dbg (keyM l) idM)) (fun l => decMap k (mapJob flag dbg (keyM l) idM)) (fun l => encFold k kt (foldJob (keyF l) idF))
    (fun l => decFold k (foldJob (keyF l) idF))) SystemMem.dirListens nt cfg (execBytes join ops k) (textBytes k) (Sees flag) ls
end SystemAmqp
end Paladin
