import Verif.Model.MapPoll
/-! # What the polls of a mapped stream gave -/
namespace Paladin
namespace MapPoll

/-- The number of polls among `ls`, from the state `s`, that returned an item. -/
def yielded : St → List Label → Nat
  | _, [] => 0
  | s, l :: ls => match step s l, l with
    | some s', .poll _ _ => (if s'.last = some .item then 1 else 0) + yielded s' ls
    | some s', _ => yielded s' ls
    | none, _ => 0

end MapPoll
end Paladin
