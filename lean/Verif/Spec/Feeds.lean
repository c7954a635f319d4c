import Verif.Model.MapS
import Verif.Model.Fold
/-! # Specification: directives reading a stream -/
namespace Paladin

/-- What the labels of a map say was read from its input stream. -/
def MapS.reads : List (MapS.Label α ε ω) → List (MapS.Item α ε)
  | [] => []
  | .item i a :: ls => .ok (i, a) :: MapS.reads ls
  | .inputErr e :: ls => .error e :: MapS.reads ls
  | _ :: ls => MapS.reads ls

/-- What the labels of a fold say was read from its input stream. -/
def Fold.reads : List (Fold.Label α ε ω) → List (MapS.Item α ε)
  | [] => []
  | .item i a :: ls => .ok (i, a) :: Fold.reads ls
  | .inputErr e :: ls => .error e :: Fold.reads ls
  | _ :: ls => Fold.reads ls

/-- The map execution `ls` reads a stream that yielded `items` (`ended`: and then ended). -/
def MapS.Feeds (ls : List (MapS.Label α ε ω)) (items : List (MapS.Item α ε)) (ended : Bool) : Prop :=
  MapS.reads ls <+: items ∧ (.inputEnd ∈ ls → ended = true ∧ MapS.reads ls = items)

/-- The fold execution `ls` reads a stream that yielded `items` (`ended`: and then ended). -/
def Fold.Feeds (ls : List (Fold.Label α ε ω)) (items : List (MapS.Item α ε)) (ended : Bool) : Prop :=
  Fold.reads ls <+: items ∧ (.inputEnd ∈ ls → ended = true ∧ Fold.reads ls = items)

end Paladin
