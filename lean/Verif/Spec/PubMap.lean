import Verif.Model.MapS
/-! # The sending side of a map, as seen by its user -/
namespace Paladin
namespace PubAll

/-- A step of the sending side of a map. -/
def sending : MapS.Label α ε ω → Bool
  | .item _ _ | .send _ | .confirm | .inputErr _ | .publishErr _ _ | .confirmErr _ | .inputEnd => true
  | _ => false

/-- What the user of the map gets from the sending side if `publish_all` returns this. -/
def forwarded : Option (Except ε Unit) → List (Except ε (Nat × β))
  | some (.error e) => [.error e]
  | _ => []

end PubAll
end Paladin
