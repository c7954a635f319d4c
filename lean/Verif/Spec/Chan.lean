import Verif.Model.Chan
/-! # Vocabulary for leased channels -/
namespace Paladin
namespace Chan

/-- No two leases drew the same identifier. -/
def Distinct (s : St N) : Prop := (s.leases.map Lease.id).Nodup

/-- A queue with this name exists. -/
def Exists (s : St N) (name : N) : Prop := ∃ q ∈ s.insts, q.present = true ∧ q.name = name

/-- The label creates a queue with this name if there is none. -/
def Label.mayCreate (s : St N) (name : N) : Label N → Prop
  | .declare l => ∃ x, s.leases[l]? = some x ∧ x.id = name
  | .sender n => n = name
  | _ => False

/-- A history in which, from state `s` on, nothing asks for a queue of this name. -/
def Quiet [DecidableEq N] (byName : Bool) (name : N) : St N → List (Label N) → Prop
  | _, [] => True
  | s, l :: ls => ¬ l.mayCreate s name ∧ ∀ s', step byName s l = some s' → Quiet byName name s' ls

end Chan
end Paladin
