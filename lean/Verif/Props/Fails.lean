import Verif.Proofs.Fails
/-! # Properties C09 and C15: where the errors of a single map or fold come from -/
namespace Paladin

/-- **C15, provenance.** Every error a mapped stream yields is an error on the leader's side (of the input stream, of publishing, closing or acknowledging), or the error of the operation on
one of the inputs. Whatever the broker does. -/
theorem MapS.C15_error_provenance (op : ω → α → Except ε β) (ls : List (MapS.Label α ε ω)) (s : MapS.St α β ε) (h : MapS.run op MapS.init ls = some s) (e : ε)
    (he : e ∈ MapS.errs s.outs) : (∃ l ∈ ls, l.failure = some e) ∨ MapS.OpFails op (MapS.inputs ls) e :=
  (MapS.from_run ls s h).out e (MapS.mem_errs.1 he)

/-- **C09, provenance with operands.** The error a fold returns is an error on the leader's side, or the error of combining two values that are combinations, in order, of two
neighbouring runs of the inputs, or the error of a second final result. Whatever the broker does. -/
theorem Fold.C09_error_operands (comb : ω → α → α → Except ε α) (empty : α) (dupErr : ε) (ls : List (Fold.Label α ε ω)) (s : Fold.St α ε)
    (h : Fold.run comb empty dupErr Fold.init ls = some s) (e : ε) (he : s.outcome = some (.err e)) :
    (∃ l ∈ ls, l.failure = some e) ∨ Fold.CombineFails comb (Fold.inputs ls) e ∨ e = dupErr := (Fold.from_run ls s h).out e he

/-! ## Examples -/

/-- Division, which fails on zero. -/
def divBy (_ : Unit) (a : Nat) : Except String Nat := if a = 0 then .error "division by zero" else .ok (100 / a)

/-- A map with an error of the operation and one of the broker, in this order. -/
example : ∃ s, MapS.run divBy MapS.init [.item 0 0, .send 0, .item 1 5, .exec 0 (), .recv 0, .publishErr 0 "closed"] = some s ∧
    MapS.errs s.outs = ["division by zero", "closed"] ∧ MapS.OpFails divBy [(0, 0), (1, 5)] "division by zero" :=
  ⟨_, rfl, rfl, (), (0, 0), by simp, rfl⟩

/-- Adding, which fails from 10 on. -/
def addTo9 (_ : Unit) (a b : Nat) : Except String Nat := if a + b < 10 then .ok (a + b) else .error "overflow"

/-- The second combination of a fold fails: of `[3, 4]`, combined, with `5`. -/
example : ∃ s, Fold.run addTo9 0 "twice" Fold.init [.item 0 3, .item 1 4, .publish 0, .item 2 5, .exec 0 (), .recv 0, .publish 0, .exec 0 (), .recv 0] = some s ∧
    s.outcome = some (.err "overflow") ∧ Fold.CombineFails addTo9 [(0, 3), (1, 4), (2, 5)] "overflow" :=
  ⟨_, rfl, rfl, (), 0, [3, 4], [5], 7, 5, .node (xs := [3]) (ys := [4]) (.leaf 3) (.leaf 4) ⟨(), rfl⟩, .leaf 5, by simp [indexed, List.range, List.range.loop], rfl⟩

end Paladin
