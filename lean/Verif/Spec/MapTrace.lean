import Verif.Model.MapS
import Verif.Spec.Fold
/-! # What an execution of map shows to its user -/
namespace Paladin
namespace MapS

/-- The items the input stream yielded, in arrival order. -/
def inputs : List (Label α ε ω) → List (Nat × α)
  | [] => []
  | .item i a :: ls => (i, a) :: inputs ls
  | _ :: ls => inputs ls

/-- Every task and result is delivered at most once. -/
def Label.exactlyOnce : Label α ε ω → Bool
  | .dupTask _ | .dupResult _ => false
  | _ => true

/-- The broker's consumer stream does not end. -/
def Label.connected : Label α ε ω → Bool
  | .disconnect => false
  | _ => true

/-- A task or a result vanishes. -/
def Label.loses : Label α ε ω → Bool
  | .loseTask _ | .loseResult _ => true
  | _ => false

/-- A failure on the leader's side: the input stream, publishing, closing, acknowledging. -/
def Label.fails : Label α ε ω → Bool
  | .inputErr _ | .publishErr _ _ | .confirmErr _ | .closeErr _ | .recvAckErr _ _ => true
  | _ => false

/-- Nothing goes wrong outside the operation. -/
def Label.reliable : Label α ε ω → Bool
  | .item _ _ | .send _ | .confirm | .inputEnd | .exec _ _ | .recv _ | .recvEnd | .finish => true
  | _ => false

/-- Steps the system takes by itself (everything but the arrival of input). -/
def Label.internal : Label α ε ω → Bool
  | .send _ | .confirm | .exec _ _ | .recv _ | .recvEnd | .finish => true
  | _ => false

/-- The outputs among the items yielded. -/
def oks : List (Item β ε) → List (Nat × β)
  | [] => []
  | .ok x :: l => x :: oks l
  | .error _ :: l => oks l

/-- The errors among the items yielded. -/
def errs : List (Item β ε) → List ε
  | [] => []
  | .ok _ :: l => errs l
  | .error e :: l => e :: errs l

/-- "Some execution of the operation on `a` returns `b`". -/
def Returns (op : ω → α → Except ε β) (a : α) (b : β) : Prop := ∃ w, op w a = .ok b

/-- `outs` holds exactly one output per input: there is a list of triples (index, input, output) whose inputs are, in some order, `ins`, whose
outputs are `outs`, and each output is what some execution of the operation returned for its input. -/
def OneEach (R : α → β → Prop) (ins : List (Nat × α)) (outs : List (Nat × β)) : Prop :=
  ∃ T : List (Nat × α × β), (T.map fun t => (t.1, t.2.1)).Perm ins ∧ (T.map fun t => (t.1, t.2.2)) = outs ∧
    ∀ t ∈ T, R t.2.1 t.2.2

end MapS
end Paladin
