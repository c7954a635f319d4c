import Verif.Model.SystemBytes
import Verif.Spec.SystemClients
import Verif.Spec.Exec
/-! # Specification: maps and folds whose messages are bytes -/
namespace Paladin
namespace System
open Retry Exec Wire

/-- Executing operation `d` on a value at the leader, with the same retries: no messages, no bytes. -/
def localOp [Anyhow ε] (join : ε) (k kt : Serializer) (d : OpDef ε) (op : d.Op) (x : Circ) (a : d.In) : Except ε d.Out :=
  match (remoteExecute x.env x.fuel fun i => localAttempt join d kt op a (x.moment i)).2 with
  | some (.ok v) => .ok v
  | some (.error e) => .error (textBytes k e)
  | none => .error (textBytes k (.fatal join .terminate))

/-- The operation of a map. -/
abbrev MapJob.run [Anyhow ε] (join : ε) (k kt : Serializer) (J : MapJob ε) : Circ → J.d.In → Except ε J.d.Out := localOp join k kt J.d J.op

/-- Combining by the monoid of a fold. -/
def FoldJob.run [Anyhow ε] (join : ε) (k kt : Serializer) (J : FoldJob ε) (x : Circ) (a b : J.Elem) : Except ε J.Elem := localOp join k kt J.d J.op x (a, b)

/-- A successful call of the operation: at some moment `execute` returned `b`. -/
def MapJob.Gives (J : MapJob ε) (a : J.d.In) (b : J.d.Out) : Prop := ∃ i, J.d.execute J.op a i = .ok b

/-- A successful call of `combine`. -/
def FoldJob.Gives (J : FoldJob ε) (a b c : J.Elem) : Prop := ∃ i, J.combine J.op a b i = .ok c

/-- The operation's type is registered under its id, and its `Serialize` and `Deserialize` implementations fit together. -/
structure Registered (ops : List (OpDef ε)) (d : OpDef ε) (id : U8) : Prop where
  found : ops[id.1]? = some d
  op : d.opC.Lawful
  inp : d.inC.Lawful
  out : d.outC.Lawful

/-- `e` reports the failure of an attempt of `op` on `a`: its text is that of the error, with the words of a fatal error before it (and nothing if it has `2^64` bytes or more). -/
def Reports [Anyhow ε] (join : ε) (kt : Serializer) (d : OpDef ε) (op : d.Op) (a : d.In) (e : ε) : Prop :=
  ∃ i e', localAttempt join d kt op a i = .error e' ∧ e = Anyhow.msg (toStr ("Fatal operation error: " ++ Anyhow.display e'.intoErr)).1

variable {A B : Type} [DecidableEq A] [DecidableEq B] [Anyhow ε]

/-- The system running maps `M` and folds `F`. -/
abbrev bytesRun (join dupErr : ε) (ops : List (OpDef ε)) (k kt : Serializer) (M : A → MapJob ε) (F : B → FoldJob ε) (cfg : Worker.Cfg (A ⊕ B))
    (ls : List (Label (A ⊕ B) (DirLabel (fun a => (M a).d.In) (fun b => (F b).Elem) ε Circ) Buf ε Circ)) :
    Option (St (A ⊕ B) (DirSt (fun a => (M a).d.In) (fun a => (M a).d.Out) (fun b => (F b).Elem) ε) Buf Buf ε ε) :=
  dirRun (fun a => (M a).run join k kt) (fun b => (F b).run join k kt) (fun b => (F b).empty) dupErr (fun a => encMap k kt (M a)) (fun a => decMap k (M a))
    (fun b => encFold k kt (F b)) (fun b => decFold k (F b)) cfg (execBytes join ops k) (textBytes k) ls

/-- The routing key of a job. -/
def keyOf {A B : Type} (M : A → MapJob ε) (F : B → FoldJob ε) : A ⊕ B → Str
  | .inl a => (M a).key
  | .inr b => (F b).key

/-- The operation id of a job. -/
def idOf {A B : Type} (M : A → MapJob ε) (F : B → FoldJob ε) : A ⊕ B → U8
  | .inl a => (M a).id
  | .inr b => (F b).id

end System
end Paladin
