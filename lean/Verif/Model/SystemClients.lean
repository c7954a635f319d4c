import Verif.Model.System
import Verif.Model.MapS
/-!
# The directives as leaders of the whole system

`IndexedStream::map` and `IndexedStream::fold` (`Verif/Model/MapS.lean`, `Verif/Model/Fold.lean`) without the parts that stand for queue and workers. `enc` makes the task that
travels to a worker (`AnyTask`, `paladin-core/src/task/mod.rs` 64-80, `as_any_task`, 121-135); it is `none` if the task cannot be serialized: then the task is not sent, and the publish fails
(`publishErr`, `ioErr`). `dec` reads the output that comes back (`task/mod.rs` 94-108, 140-147); it fails if the bytes cannot be decoded.
-/
namespace Paladin
namespace System

/-- Steps of the leader in the model of map. Code: indexed_stream/functor.rs:40-67. -/
def mapLead : MapS.Label α ε ω → Bool
  | .exec _ _ | .loseTask _ | .loseResult _ | .dupTask _ | .dupResult _ => false
  | _ => true

/-- The results left after a step of the leader of a map: the one received is gone. Code: indexed_stream/functor.rs:57-62. -/
def mapLeft (l : MapS.Label α ε ω) (rs : List R) : List R :=
  match l with
  | .recv k | .recvAckErr k _ => rs.eraseIdx k
  | _ => rs

/-- The leader of a map: the steps of `MapS.step` on the results waiting, with the tasks it sends taken out of the state. `op` is not used by these steps. Code: indexed_stream/functor.rs:28-68. -/
def mapClient (op : ω → α → Except ε β) (enc : Nat × α → Option T) (dec : O → Except ε (Nat × β)) :
    Client (MapS.St α β ε) (MapS.Label α ε ω) T (Except ε O) where
  init := MapS.init
  step s l rs :=
    if mapLead l then
      match MapS.step op { s with tasks := [], results := rs.map fun r => r.bind dec } l with
      | some s' => (s'.tasks.mapM enc).map fun ts => ({ s' with tasks := [], results := [] }, ts, mapLeft l rs)
      | none => none
    else none

/-- Steps of the leader in the model of fold. Code: foldable.rs:171-296. -/
def foldLead : Fold.Label α ε ω → Bool
  | .exec _ _ | .loseTask _ | .loseResult _ | .dupTask _ | .dupResult _ => false
  | _ => true

/-- The results left after a step of the leader of a fold, foldable.rs:244. -/
def foldLeft (l : Fold.Label α ε ω) (rs : List R) : List R :=
  match l with
  | .recv k => rs.eraseIdx k
  | _ => rs

/-- A result as fold sees it. Code: foldable.rs:250. -/
def toRes : Except ε (Seg α) → Fold.Res α ε
  | .ok x => .ok x
  | .error e => .err e

/-- The leader of a fold. Code: foldable.rs:133-297. -/
def foldClient (comb : ω → α → α → Except ε α) (empty : α) (dupErr : ε) (enc : Fold.CTask α → Option T) (dec : O → Except ε (Seg α)) :
    Client (Fold.St α ε) (Fold.Label α ε ω) T (Except ε O) where
  init := Fold.init
  step s l rs :=
    if foldLead l then
      match Fold.step comb empty dupErr { s with tasks := [], results := rs.map fun r => toRes (r.bind dec) } l with
      | some s' => (s'.tasks.mapM enc).map fun ts => ({ s' with tasks := [], results := [] }, ts, foldLeft l rs)
      | none => none
    else none

/-! ## Maps and folds side by side

Keys `.inl a` belong to maps, keys `.inr b` to folds; each job has its own types and its own operation. -/

/-- State of the leader of a job. Code: indexed_stream/functor.rs:28-68, foldable.rs:133-297. -/
def DirSt {A B : Type} (α β : A → Type) (γ : B → Type) (ε : Type) : A ⊕ B → Type
  | .inl a => MapS.St (α a) (β a) ε
  | .inr b => Fold.St (γ b) ε

/-- Steps of the leader of a job. Code: indexed_stream/functor.rs:28-68, foldable.rs:133-297. -/
def DirLabel {A B : Type} (α : A → Type) (γ : B → Type) (ε ω : Type) : A ⊕ B → Type
  | .inl a => MapS.Label (α a) ε ω
  | .inr b => Fold.Label (γ b) ε ω

/-- The leaders of all jobs. Code: indexed_stream/functor.rs:28-68, foldable.rs:133-297. -/
def dirs {A B : Type} {α β : A → Type} {γ : B → Type} (op : (a : A) → ω → α a → Except ε (β a)) (comb : (b : B) → ω → γ b → γ b → Except ε (γ b)) (empty : (b : B) → γ b)
    (dupErr : ε) (encM : (a : A) → Nat × α a → Option T) (decM : (a : A) → O → Except ε (Nat × β a)) (encF : (b : B) → Fold.CTask (γ b) → Option T) (decF : (b : B) → O → Except ε (Seg (γ b))) :
    (j : A ⊕ B) → Client (DirSt α β γ ε j) (DirLabel α γ ε ω j) T (Except ε O)
  | .inl a => mapClient (op a) (encM a) (decM a)
  | .inr b => foldClient (comb b) (empty b) dupErr (encF b) (decF b)

end System
end Paladin
