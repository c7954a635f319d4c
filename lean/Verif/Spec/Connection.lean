import Verif.Model.Connection
/-! # What a connection promises: one independent queue for each name and each time the name was free -/
namespace Paladin
namespace Connection

/-- A queue is known by its name and by how often that name had been deleted when it was declared. -/
structure Spec (N Q : Type) where
  deletes : N → Nat
  queue : N → Nat → Option Q
  owner : List (N × Nat)

def Spec.init : Spec N Q := { deletes := fun _ => 0, queue := fun _ _ => none, owner := [] }

/-- Declaring opens the queue of the name, made with the options if it is not there yet; deleting makes the name free; an operation acts on the handle's queue alone. -/
def Spec.step [DecidableEq N] (new : Opts → Q) (act : Q → O → Q × R) (s : Spec N Q) : Op N Opts O → Spec N Q × Out R
  | .declare name options =>
    ({ s with
       queue := fun n e => if n = name ∧ e = s.deletes name then some ((s.queue n e).getD (new options)) else s.queue n e, owner := s.owner ++ [(name, s.deletes name)] },
     .handle s.owner.length)
  | .delete name => ({ s with deletes := fun n => if n = name then s.deletes n + 1 else s.deletes n }, .done)
  | .use h o =>
    match s.owner[h]? with
    | none => (s, .noHandle)
    | some (n, e) =>
      match s.queue n e with
      | none => (s, .noHandle)
      | some q => ({ s with queue := fun n' e' => if n' = n ∧ e' = e then some (act q o).1 else s.queue n' e' }, .result (act q o).2)

def Spec.outputs [DecidableEq N] (new : Opts → Q) (act : Q → O → Q × R) (s : Spec N Q) : List (Op N Opts O) → List (Out R)
  | [] => []
  | o :: os => (s.step new act o).2 :: Spec.outputs new act (s.step new act o).1 os

end Connection
end Paladin
