import Verif.Model.ContigConc
import Verif.Spec.Contig
/-! # Specification vocabulary for threads sharing a `ContiguousQueue` -/
namespace Paladin
namespace Conc

/-- Values in the map. -/
def queued (s : St α) : List (Seg α) := s.nodes.filterMap fun n => if n.linked then n.cell else none

/-- The values a running call holds: its argument, and what it has taken from the map. -/
def held (c : Call α) : List (Seg α) :=
  match c.pc with
  | .removeR _ v => [c.x, v]
  | .removeL _ v => [c.x, v]
  | _ => [c.x]

def inCalls (s : St α) : List (Seg α) := s.calls.flatMap held

/-- Values in returned pairs. -/
def returned (s : St α) : List (Seg α) := s.outs.flatMap fun o => match o with
  | some (l, r) => [l, r]
  | none => []

/-- Values in the map or in running calls. -/
def live (s : St α) : List (Seg α) := queued s ++ inCalls s

/-- Values offered in a trace. -/
def offered (ls : List (Label α)) : List (Seg α) := ls.filterMap fun l => match l with
  | .start x => some x
  | _ => none

/-- Executions all of whose steps satisfy `ok`. -/
inductive Exec (ok : St α → Label α → Prop) : List (Label α) → St α → Prop
  | nil : Exec ok [] init
  | snoc {ls s l s'} : Exec ok ls s → ok s l → step s l = some s' → Exec ok (ls ++ [l]) s'

/-- Callers offer only values whose key differs from those of the values in the map and in running calls. -/
def DistinctKeys (s : St α) (l : Label α) : Prop := ∀ x, l = .start x → ∀ v ∈ live s, v.lo ≠ x.lo

/-- Callers offer only non-empty ranges disjoint from those of the values in the map and in running calls. -/
def DisjointRanges (s : St α) (l : Label α) : Prop := ∀ x, l = .start x → x.Valid ∧ ∀ v ∈ live s, Disjoint v x

/-- `w` is the entry of the map with the least key `≥ k`. -/
def IsNext (s : St α) (k : Nat) (w : Option Nat) : Prop :=
  match w with
  | none => ∀ n ∈ s.nodes, n.linked = true → n.key < k
  | some id => ∃ n, s.nodes[id]? = some n ∧ n.linked = true ∧ k ≤ n.key ∧ ∀ m ∈ s.nodes, m.linked = true → k ≤ m.key → n.key ≤ m.key

/-- `w` is the entry of the map with the greatest key `< k`. -/
def IsPrev (s : St α) (k : Nat) (w : Option Nat) : Prop :=
  match w with
  | none => ∀ n ∈ s.nodes, n.linked = true → k ≤ n.key
  | some id => ∃ n, s.nodes[id]? = some n ∧ n.linked = true ∧ n.key < k ∧ ∀ m ∈ s.nodes, m.linked = true → m.key < k → m.key ≤ n.key

/-- Lookups are atomic: they return the neighbouring entry of the map at that moment. -/
def ExactLookup (s : St α) (l : Label α) : Prop :=
  ∀ k w c rest, l = .act k w → Fold.takeAt s.calls k = some (c, rest) → (c.pc = .findR → IsNext s c.x.lo w) ∧ (c.pc = .findL → IsPrev s c.x.lo w)

/-- Calls do not overlap: a call begins only when none is running. -/
def OneAtATime (s : St α) (l : Label α) : Prop := ∀ x, l = .start x → s.calls = []

end Conc
end Paladin
