import Verif.Model.IdxStream
import Verif.Proofs.FoldTree
import Verif.Proofs.FoldPart
/-! # Property C54: index assignment

`indexed 0 xs` (Spec/Fold) is `xs` numbered 0, 1, 2, …; `(it.answers n s).filterMap (fun x => x)` are the items among the first `n` answers of an iterator. -/
namespace Paladin
namespace IdxStream

/-- The items among some answers. -/
def items (l : List (Option α)) : List α := l.filterMap fun x => x

theorem enumerate_next (it : Iter σ α) (c : Nat) (s : σ) :
    it.enumerate.next (c, s) = match it.next s with
      | (some a, s') => (some (c, a), (c + 1, s'))
      | (none, s') => (none, (c, s')) := rfl

theorem enumerate_answers (it : Iter σ α) (n c : Nat) (s : σ) : items (it.enumerate.answers n (c, s)) = indexed c (items (it.answers n s)) := by
  induction n generalizing c s with
  | zero => rfl
  | succ n ih =>
    simp only [Iter.answers, enumerate_next]
    cases h : it.next s with
    | mk o s' =>
      cases o with
      | none => simpa [items] using ih c s'
      | some a => simpa [items, indexed] using ih (c + 1) s'

theorem map_answers (f : α → β) (it : Iter σ α) (n : Nat) (s : σ) : (it.map f).answers n s = (it.answers n s).map (Option.map f) := by
  induction n generalizing s with
  | zero => rfl
  | succ n ih => simp only [Iter.answers, Iter.map, List.map_cons]; rw [← ih]; rfl

theorem items_map (f : α → β) (l : List (Option α)) : items (l.map (Option.map f)) = (items l).map f := by
  induction l with
  | nil => rfl
  | cons o l ih => cases o <;> simp_all [items]

/-- **C54.** Whatever the iterator, finite or not, and however many items have been read: the stream made from it has yielded the same items, numbered 0, 1, 2, … -/
theorem C54_numbered (it : Iter σ α) (n : Nat) (s : σ) :
    items ((ofIter (ε := ε) it).answers n (0, s)) = (indexed 0 (items (it.answers n s))).map .ok := by
  rw [ofIter, map_answers, items_map, enumerate_answers]

/-- **C54, fallible iterators.** The number of an item is its position, errors counted; errors are passed on. -/
theorem C54_try_numbered (it : Iter σ (Except ε α)) (n : Nat) (s : σ) :
    items ((tryOfIter it).answers n (0, s)) = (indexed 0 (items (it.answers n s))).map fun p => p.2.map fun a => (p.1, a) := by
  rw [tryOfIter, map_answers, items_map, enumerate_answers]

/-- The stream answers `None` exactly when the iterator does. -/
theorem C54_same_end (it : Iter σ α) (n c : Nat) (s : σ) :
    ((ofIter (ε := ε) it).answers n (c, s)).map Option.isSome = (it.answers n s).map Option.isSome := by
  rw [ofIter, map_answers]
  induction n generalizing c s with
  | zero => rfl
  | succ n ih =>
    simp only [Iter.answers, enumerate_next]
    cases h : it.next s with
    | mk o s' => cases o <;> simpa using ih _ _

theorem indexed_fst (c : Nat) (xs : List α) : (indexed c xs).map (·.1) = List.range' c xs.length := by
  induction xs generalizing c with
  | nil => rfl
  | cons x xs ih => simp [indexed, ih, List.range'_succ]

/-- **C54.** The indices are distinct. -/
theorem C54_distinct (it : Iter σ α) (n : Nat) (s : σ) :
    ((items ((ofIter (ε := ε) it).answers n (0, s))).filterMap fun r => r.toOption.map (·.1)).Nodup := by
  rw [C54_numbered, List.filterMap_map]
  have : ((indexed 0 (items (it.answers n s))).filterMap ((fun r : Except ε (Nat × α) => r.toOption.map (·.1)) ∘ Except.ok)) =
      (indexed 0 (items (it.answers n s))).map (·.1) := by
    rw [← List.filterMap_eq_map]; rfl
  rw [this, indexed_fst]
  exact List.nodup_range'

/-- Two ways of sorting by index give the same list when the indices are distinct. -/
theorem sorts_unique {l1 l2 : List (Nat × α)} (hp : l1.Perm l2) (h1 : l1.Pairwise (fun a b => a.1 ≤ b.1)) (h2 : l2.Pairwise (fun a b => a.1 < b.1)) : l1 = l2 := by
  refine hp.eq_of_pairwise (le := fun p q => p.1 ≤ q.1) ?_ h1 (h2.imp Nat.le_of_lt)
  intro a b ha hb hab hba
  have ha' := hp.mem_iff.1 ha
  have hpos : ∀ (l : List (Nat × α)), l.Pairwise (fun a b => a.1 < b.1) → ∀ a ∈ l, ∀ b ∈ l, a.1 = b.1 → a = b := by
    intro l hl
    induction hl with
    | nil => simp
    | cons h _ ih =>
      intro a ha b hb hab
      simp only [List.mem_cons] at ha hb
      rcases ha with rfl | ha <;> rcases hb with rfl | hb
      · rfl
      · have := h b hb; omega
      · have := h a ha; omega
      · exact ih a ha b hb hab
  exact hpos l2 h2 a ha' b hb (by omega)

theorem tryCollect_ofList (xs : List α) (c : Nat) (acc : List (Nat × α)) :
    tryCollect (ofIter (ε := ε) ofList) (xs.length + 1) (c, xs) acc = some (.ok (acc ++ indexed c xs)) := by
  induction xs generalizing c acc with
  | nil => simp [tryCollect, ofIter, Iter.map, Iter.enumerate, ofList, indexed]
  | cons x xs ih =>
    rw [List.length_cons, tryCollect]
    have : (ofIter (ε := ε) ofList).next (c, x :: xs) = (some (.ok (c, x)), (c + 1, xs)) := rfl
    rw [this]
    simp only [ih, indexed]
    simp

/-- **C54.** `into_values_sorted` of an unmapped stream is the identity, whatever sorting algorithm is used. -/
theorem C54_sorted_id (sort : List (Nat × α) → List (Nat × α)) (hs : Sorts sort) (xs : List α) :
    intoValuesSorted sort (ofIter (ε := ε) ofList) (xs.length + 1) (0, xs) = some (.ok xs) := by
  rw [intoValuesSorted, tryCollect_ofList]
  simp only [List.nil_append, Option.map_some, Except.map]
  rw [sorts_unique (hs _).1 (hs _).2 ((Fold.pairwise_indexed 0 xs).imp fun h => h)]
  congr 2
  generalize 0 = c
  induction xs generalizing c with
  | nil => rfl
  | cons x xs ih => simp [indexed, ih]

/-- **C54.** In whatever order the items of a stream arrive, `into_values_sorted` gives the values in the order of their numbers. -/
theorem C54_sorted_any (sort : List (Nat × α) → List (Nat × α)) (hs : Sorts sort) (xs : List α) (l : List (Nat × α)) (hl : l.Perm (indexed 0 xs)) :
    intoValuesSorted (ε := ε) sort (ofList.map .ok) (l.length + 1) l = some (.ok xs) := by
  have : ∀ (l acc : List (Nat × α)), tryCollect (ε := ε) (ofList.map .ok) (l.length + 1) l acc = some (.ok (acc ++ l)) := by
    intro l
    induction l with
    | nil => intro acc; simp [tryCollect, Iter.map, ofList]
    | cons x l ih =>
      intro acc
      rw [List.length_cons, tryCollect]
      have : ((ofList (α := Nat × α)).map (Except.ok (ε := ε))).next (x :: l) = (some (.ok x), l) := rfl
      rw [this]
      simp only [ih]
      simp
  rw [intoValuesSorted, this]
  simp only [List.nil_append, Option.map_some, Except.map]
  rw [sorts_unique ((hs _).1.trans hl) (hs _).2 ((Fold.pairwise_indexed 0 xs).imp fun h => h)]
  congr 2
  clear hl this
  generalize 0 = c
  induction xs generalizing c with
  | nil => rfl
  | cons x xs ih => simp [indexed, ih]

/-- **C54, fallible iterators.** With an error among the items, `into_values_sorted` returns the first one. -/
theorem C54_sorted_error (sort : List (Nat × α) → List (Nat × α)) (xs : List α) (e : ε) (rest : List (Except ε α)) :
    intoValuesSorted sort (tryOfIter ofList) (xs.length + 1) (0, xs.map .ok ++ .error e :: rest) = some (.error e) := by
  have : ∀ (c : Nat) acc, tryCollect (tryOfIter ofList) (xs.length + 1) (c, xs.map .ok ++ .error e :: rest) acc = some (.error e) := by
    intro c acc
    induction xs generalizing c acc with
    | nil => rfl
    | cons x xs ih =>
      rw [List.length_cons, tryCollect]
      have : (tryOfIter ofList).next (c, (x :: xs).map Except.ok ++ Except.error e :: rest) = (some (.ok (c, x)), (c + 1, xs.map .ok ++ .error e :: rest)) := rfl
      rw [this]
      exact ih _ _
  rw [intoValuesSorted, this]; rfl

/-- A sorting function exists (so the hypothesis of `C54_sorted_id` can be met), and a concrete case. -/
example : ∃ sort : List (Nat × Nat) → List (Nat × Nat), Sorts sort :=
  ⟨fun l => l.mergeSort fun a b => decide (a.1 ≤ b.1), fun l => ⟨List.mergeSort_perm .., by
    have := List.pairwise_mergeSort (le := fun a b : Nat × Nat => decide (a.1 ≤ b.1)) (by intro a b c; simp; omega) (by intro a b; simp; omega) l
    simpa using this⟩⟩

example : items ((tryOfIter ofList).answers 5 (0, [.ok "a", .error 7, .ok "b"])) = [Except.ok (0, "a"), .error 7, .ok (2, "b")] := by decide

/-- An infinite iterator: the even numbers. -/
example : items ((ofIter (ε := Unit) ⟨fun n : Nat => (some (2 * n), n + 1)⟩).answers 3 (0, 0)) = [.ok (0, 0), .ok (1, 2), .ok (2, 4)] := by decide

end IdxStream
end Paladin
