import Verif.Spec.Feeds
import Verif.Spec.SystemClients
import Verif.Spec.SystemBytes
/-! # Specification: directives chained in the whole system

`IndexedStream::from(xs).map(&op₁)…map(&opₙ)` (`paladin-core/src/directive/mod.rs` 191-225, 309-311, 366-368): the mapped stream of one directive is the input stream of the next. -/
namespace Paladin

namespace System

variable {A B : Type} [DecidableEq A] [DecidableEq B] {α β : A → Type} {γ : B → Type} {T O ε χ ω X : Type}

/-- In the execution `ls`, which has led to `s`, the maps `as` (the last one first) form the pipeline `IndexedStream::from(xs).map(..)…map(..)`: each reads what the one before has yielded.
The pipeline has yielded `items` so far (`en`: and has ended). `G a` says what the operation of map `a` may return. `R` relates an element of `xs` to what the operations, one after the other, may
return for it. -/
inductive Pipeline (G : (a : A) → α a → β a → Prop) (ls : List (Label (A ⊕ B) (DirLabel α γ ε ω) O χ ω)) (s : St (A ⊕ B) (DirSt α β γ ε) T O ε χ) (xs : List X) :
    List A → (Y : Type) → (X → Y → Prop) → List (MapS.Item Y ε) → Bool → Prop
  | source : Pipeline G ls s xs [] X Eq ((indexed 0 xs).map .ok) true
  | map {as : List A} {items : List (MapS.Item (α a) ε)} {en : Bool} {R : X → α a → Prop} (h : Pipeline G ls s xs as (α a) R items en) (feeds : MapS.Feeds (mapSteps ls a) items en) :
    Pipeline G ls s xs (a :: as) (β a) (fun x z => ∃ y, R x y ∧ G a y z) (mapOf s a).outs (mapOf s a).ended

/-- The same, and every map has taken everything its input stream has yielded, and its end. -/
inductive Drained (G : (a : A) → α a → β a → Prop) (ls : List (Label (A ⊕ B) (DirLabel α γ ε ω) O χ ω)) (s : St (A ⊕ B) (DirSt α β γ ε) T O ε χ) (xs : List X) :
    List A → (Y : Type) → (X → Y → Prop) → List (MapS.Item Y ε) → Bool → Prop
  | source : Drained G ls s xs [] X Eq ((indexed 0 xs).map .ok) true
  | map {as : List A} {items : List (MapS.Item (α a) ε)} {en : Bool} {R : X → α a → Prop} (h : Drained G ls s xs as (α a) R items en)
    (reads : MapS.reads (mapSteps ls a) = items) (ended : en = true → .inputEnd ∈ mapSteps ls a) :
    Drained G ls s xs (a :: as) (β a) (fun x z => ∃ y, R x y ∧ G a y z) (mapOf s a).outs (mapOf s a).ended

end System
end Paladin
