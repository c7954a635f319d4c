import Verif.Spec.SystemAmqp
import Verif.Spec.SystemMem
import Verif.Spec.SystemPipe
import Verif.Spec.Hello
/-! # Specification: chained directives, as bytes, on an AMQP broker and on the in-memory queues

`Verif/Spec/SystemPipe.lean` and `Verif/Spec/Hello.lean`, for the executions of `Verif/Model/SystemAmqp.lean` and `Verif/Model/SystemMem.lean`. -/
namespace Paladin

namespace SystemAmqp
open Retry Exec Wire System

section
variable {A B : Type} [DecidableEq A] [DecidableEq B] {α β : A → Type} {γ : B → Type} {T O ε χ ω X : Type}

/-- In the execution `ls`, which has led to `s`, the maps `as` (the last one first) form the pipeline `IndexedStream::from(xs).map(..)…map(..)`: each reads what the one before has yielded.
The pipeline has yielded `items` so far (`en`: and has ended). `G a` says what the operation of map `a` may return. `R` relates an element of `xs` to what the operations, one after the other, may
return for it. -/
inductive Pipeline (G : (a : A) → α a → β a → Prop) (ls : List (Label (A ⊕ B) (DirLabel α γ ε ω) T O ε χ ω)) (s : St (A ⊕ B) (DirSt α β γ ε) T O ε χ) (xs : List X) :
    List A → (Y : Type) → (X → Y → Prop) → List (MapS.Item Y ε) → Bool → Prop
  | source : Pipeline G ls s xs [] X Eq ((indexed 0 xs).map .ok) true
  | map {as : List A} {items : List (MapS.Item (α a) ε)} {en : Bool} {R : X → α a → Prop} (h : Pipeline G ls s xs as (α a) R items en) (feeds : MapS.Feeds (mapSteps ls a) items en) :
    Pipeline G ls s xs (a :: as) (β a) (fun x z => ∃ y, R x y ∧ G a y z) (mapOf s a).outs (mapOf s a).ended

/-- The same, and every map has taken everything its input stream has yielded, and its end. -/
inductive Drained (G : (a : A) → α a → β a → Prop) (ls : List (Label (A ⊕ B) (DirLabel α γ ε ω) T O ε χ ω)) (s : St (A ⊕ B) (DirSt α β γ ε) T O ε χ) (xs : List X) :
    List A → (Y : Type) → (X → Y → Prop) → List (MapS.Item Y ε) → Bool → Prop
  | source : Drained G ls s xs [] X Eq ((indexed 0 xs).map .ok) true
  | map {as : List A} {items : List (MapS.Item (α a) ε)} {en : Bool} {R : X → α a → Prop} (h : Drained G ls s xs as (α a) R items en)
    (reads : MapS.reads (mapSteps ls a) = items) (ended : en = true → .inputEnd ∈ mapSteps ls a) :
    Drained G ls s xs (a :: as) (β a) (fun x z => ∃ y, R x y ∧ G a y z) (mapOf s a).outs (mapOf s a).ended

/-- A task of job `j` was received by two workers. -/
def TaskTwice {κ : Type} {σ : κ → Type} (s : St κ σ T O ε χ) (j : κ) : Prop := ∃ m t, s.net.msgs[m]? = some ⟨.bus, .task t⟩ ∧ t.key = j ∧ Redelivered s.net m
end

section
variable {ε A B : Type} [DecidableEq A] [DecidableEq B] [Anyhow ε]

/-- Maps `M` and folds `F` on a broker, with messages as bytes. -/
abbrev bytesRun (join dupErr : ε) (ops : List (OpDef ε)) (k kt : Serializer) (M : A → MapJob ε) (F : B → FoldJob ε) (nt : Net (A ⊕ B)) (cfg : Worker.Cfg (A ⊕ B))
    (ls : List (Label (A ⊕ B) (DirLabel (fun a => (M a).d.In) (fun b => (F b).Elem) ε Circ) Buf Buf ε ε Circ)) :
    Option (St (A ⊕ B) (DirSt (fun a => (M a).d.In) (fun a => (M a).d.Out) (fun b => (F b).Elem) ε) Buf Buf ε ε) :=
  amqpRun (fun a => (M a).run join k kt) (fun b => (F b).run join k kt) (fun b => (F b).empty) dupErr (fun a => encMap k kt (M a)) (fun a => decMap k (M a))
    (fun b => encFold k kt (F b)) (fun b => decFold k (F b)) nt cfg (execBytes join ops k) (textBytes k) ls

/-- One step of `bytesRun`. -/
abbrev bytesStep (join dupErr : ε) (ops : List (OpDef ε)) (k kt : Serializer) (M : A → MapJob ε) (F : B → FoldJob ε) (nt : Net (A ⊕ B)) (cfg : Worker.Cfg (A ⊕ B))
    (s : St (A ⊕ B) (DirSt (fun a => (M a).d.In) (fun a => (M a).d.Out) (fun b => (F b).Elem) ε) Buf Buf ε ε)
    (l : Label (A ⊕ B) (DirLabel (fun a => (M a).d.In) (fun b => (F b).Elem) ε Circ) Buf Buf ε ε Circ) :=
  step (dirs (fun a => (M a).run join k kt) (fun b => (F b).run join k kt) (fun b => (F b).empty) dupErr (fun a => encMap k kt (M a)) (fun a => decMap k (M a))
    (fun b => encFold k kt (F b)) (fun b => decFold k (F b))) SystemMem.dirListens nt cfg (execBytes join ops k) (textBytes k) s l
end

section
variable {ε L : Type} [DecidableEq L] [Anyhow ε]
open Hello

/-- Leader `l` runs `IndexedStream::from(input.chars()).map(&CharToString).fold(&StringConcat)`: its map reads the characters, its fold what the map yields. -/
structure Runs (l : L) (input : String) (flag : Nat → Nat → Bool) (dbg : Char → String) (keyM keyF : L → Str) (idM idF : U8)
    (ls : List (Label (L ⊕ L) (DirLabel (fun l => (mapJob (ε := ε) flag dbg (keyM l) idM).d.In) (fun l => (foldJob (ε := ε) (keyF l) idF).Elem) ε Circ) Buf Buf ε ε Circ))
    (s : St (L ⊕ L) (DirSt (fun l => (mapJob (ε := ε) flag dbg (keyM l) idM).d.In) (fun l => (mapJob (ε := ε) flag dbg (keyM l) idM).d.Out) (fun l => (foldJob (ε := ε) (keyF l) idF).Elem) ε) Buf Buf ε ε) :
    Prop where
  mapped : MapS.Feeds (mapSteps ls l) ((indexed 0 input.toList).map .ok) true
  folded : Fold.Feeds (foldSteps ls l) (mapOf s l).outs (mapOf s l).ended

/-- Any number of leaders `L` of the example program, each with the routing keys of its map and its fold, share a broker and the workers. -/
abbrev helloRun (join dupErr : ε) (ops : List (OpDef ε)) (k kt : Serializer) (flag : Nat → Nat → Bool) (dbg : Char → String) (keyM keyF : L → Str) (idM idF : U8) (nt : Net (L ⊕ L)) (cfg : Worker.Cfg (L ⊕ L))
    (ls : List (Label (L ⊕ L) (DirLabel (fun l => (mapJob (ε := ε) flag dbg (keyM l) idM).d.In) (fun l => (foldJob (ε := ε) (keyF l) idF).Elem) ε Circ) Buf Buf ε ε Circ)) :=
  bytesRun join dupErr ops k kt (fun l => mapJob flag dbg (keyM l) idM) (fun l => foldJob (keyF l) idF) nt cfg ls
end
end SystemAmqp

namespace SystemMem
open Retry Exec Wire System
variable {ε A B : Type} [DecidableEq A] [DecidableEq B] [Anyhow ε]

/-- Maps `M` and folds `F` on the in-memory queues, with messages as bytes. -/
abbrev bytesRun (join dupErr : ε) (ops : List (OpDef ε)) (k kt : Serializer) (M : A → MapJob ε) (F : B → FoldJob ε) (cfg : Worker.Cfg (A ⊕ B))
    (ls : List (Label (A ⊕ B) (DirLabel (fun a => (M a).d.In) (fun b => (F b).Elem) ε Circ) Buf ε Circ)) :
    Option (St (A ⊕ B) (DirSt (fun a => (M a).d.In) (fun a => (M a).d.Out) (fun b => (F b).Elem) ε) Buf Buf ε ε) :=
  memRun (fun a => (M a).run join k kt) (fun b => (F b).run join k kt) (fun b => (F b).empty) dupErr (fun a => encMap k kt (M a)) (fun a => decMap k (M a))
    (fun b => encFold k kt (F b)) (fun b => decFold k (F b)) cfg (execBytes join ops k) (textBytes k) ls

/-- One step of `bytesRun`. -/
abbrev bytesStep (join dupErr : ε) (ops : List (OpDef ε)) (k kt : Serializer) (M : A → MapJob ε) (F : B → FoldJob ε) (cfg : Worker.Cfg (A ⊕ B))
    (s : St (A ⊕ B) (DirSt (fun a => (M a).d.In) (fun a => (M a).d.Out) (fun b => (F b).Elem) ε) Buf Buf ε ε)
    (l : Label (A ⊕ B) (DirLabel (fun a => (M a).d.In) (fun b => (F b).Elem) ε Circ) Buf ε Circ) :=
  step (dirs (fun a => (M a).run join k kt) (fun b => (F b).run join k kt) (fun b => (F b).empty) dupErr (fun a => encMap k kt (M a)) (fun a => decMap k (M a))
    (fun b => encFold k kt (F b)) (fun b => decFold k (F b))) dirListens cfg (execBytes join ops k) (textBytes k) s l

end SystemMem
end Paladin
