import Verif.Spec.SystemBytes
import Verif.Spec.SystemMem
/-! # Specification: maps and folds in one process, whose messages are bytes on the in-memory queues -/
namespace Paladin
namespace SystemMem
open Retry Exec Wire Paladin.System

/-- Labels of the system of one process with messages as bytes. -/
abbrev BLabel {A B : Type} (ε : Type) (M : A → MapJob ε) (F : B → FoldJob ε) := Label (A ⊕ B) (DirLabel (fun a => (M a).d.In) (fun b => (F b).Elem) ε Circ) Buf ε Circ

/-- Its states. -/
abbrev BSt {A B : Type} (ε : Type) (M : A → MapJob ε) (F : B → FoldJob ε) := St (A ⊕ B) (DirSt (fun a => (M a).d.In) (fun a => (M a).d.Out) (fun b => (F b).Elem) ε) Buf Buf ε ε

/-- One process running maps `M` and folds `F` on its in-memory queues; messages are serialized there too (`queue/in_memory.rs` 146-151). -/
abbrev memBytesRun {A B : Type} [DecidableEq A] [DecidableEq B] {ε : Type} [Anyhow ε] (join dupErr : ε) (ops : List (OpDef ε)) (k kt : Serializer) (M : A → MapJob ε) (F : B → FoldJob ε)
    (cfg : Worker.Cfg (A ⊕ B)) (ls : List (BLabel ε M F)) : Option (BSt ε M F) :=
  memRun (fun a => (M a).run join k kt) (fun b => (F b).run join k kt) (fun b => (F b).empty) dupErr (fun a => encMap k kt (M a)) (fun a => decMap k (M a))
    (fun b => encFold k kt (F b)) (fun b => decFold k (F b)) cfg (execBytes join ops k) (textBytes k) ls

end SystemMem
end Paladin
