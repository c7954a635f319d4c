import Verif.Spec.Contig
/-! # Lemmas about the sequential contiguous queue -/
namespace Paladin
namespace CQueue

/-- Keys strictly increase: the representation invariant of the ordered map. -/
def Sorted (q : CQueue α) : Prop := q.Pairwise (fun a b => a.lo < b.lo)

theorem mem_queue {q : CQueue α} {x y : Seg α} (h : y ∈ q.queue x) : y = x ∨ y ∈ q := by
  induction q with
  | nil => simp [queue] at h; exact .inl h
  | cons z zs ih =>
    simp only [queue] at h
    split at h
    · simpa using h
    · split at h
      · simp at h; rcases h with h | h
        · exact .inl h
        · exact .inr (by simp [h])
      · simp at h; rcases h with h | h
        · exact .inr (by simp [h])
        · rcases ih h with h | h
          · exact .inl h
          · exact .inr (by simp [h])

theorem self_mem_queue (q : CQueue α) (x : Seg α) : x ∈ q.queue x := by
  induction q with
  | nil => simp [queue]
  | cons z zs ih =>
    simp only [queue]; split
    · simp
    · split <;> simp [ih]

theorem sorted_queue {q : CQueue α} (h : Sorted q) (x : Seg α) : Sorted (q.queue x) := by
  induction q with
  | nil => simp [queue, Sorted]
  | cons z zs ih =>
    have hz := List.pairwise_cons.1 h
    simp only [queue]; split
    · rename_i hlt
      refine List.pairwise_cons.2 ⟨?_, h⟩
      intro b hb; simp at hb; rcases hb with rfl | hb
      · exact hlt
      · have := hz.1 b hb; omega
    · split
      · rename_i h1 h2
        exact List.pairwise_cons.2 ⟨fun b hb => by have := hz.1 b hb; omega, hz.2⟩
      · refine List.pairwise_cons.2 ⟨?_, ih hz.2⟩
        intro b hb
        rcases mem_queue hb with rfl | hb
        · omega
        · exact hz.1 b hb

theorem sorted_remove {q : CQueue α} (h : Sorted q) (k : Nat) : Sorted (q.remove k) :=
  List.Pairwise.filter _ h

theorem mem_remove {q : CQueue α} {k : Nat} {y : Seg α} : y ∈ q.remove k ↔ y ∈ q ∧ y.lo ≠ k := by
  simp [remove]

/-- In a sorted queue removing the key of a member removes exactly that member. -/
theorem perm_remove {q : CQueue α} (h : Sorted q) {e : Seg α} (he : e ∈ q) :
    q.Perm (e :: q.remove e.lo) := by
  induction q with
  | nil => simp at he
  | cons z zs ih =>
    have hz := List.pairwise_cons.1 h
    by_cases hez : e = z
    · subst hez
      have : remove (e :: zs) e.lo = zs := by
        simp only [remove, List.filter_cons]
        simp
        intro a ha; have := hz.1 a ha; omega
      rw [this]
    · have hm : e ∈ zs := by simpa [hez] using he
      have hlt := hz.1 e hm
      have : remove (z :: zs) e.lo = z :: remove zs e.lo := by
        simp only [remove, List.filter_cons]
        have : z.lo ≠ e.lo := by omega
        simp [this]
      rw [this]
      exact ((ih hz.2 hm).cons z).trans (List.Perm.swap e z _)

/-- Queueing a key that is not present keeps everything. -/
theorem perm_queue {q : CQueue α} {x : Seg α} (h : ∀ y ∈ q, y.lo ≠ x.lo) : (q.queue x).Perm (x :: q) := by
  induction q with
  | nil => simp [queue]
  | cons z zs ih =>
    simp only [queue]; split
    · exact .refl _
    · split
      · rename_i h2; exact absurd h2.symm (h z (by simp))
      · exact ((ih fun y hy => h y (by simp [hy])).cons z).trans (List.Perm.swap x z zs)

/-- The first entry at or after `k` has the least such key. -/
theorem rangeFromNext_spec {q : CQueue α} (h : Sorted q) {k : Nat} :
    (∀ e, q.rangeFromNext k = some e → e ∈ q ∧ k ≤ e.lo ∧ ∀ y ∈ q, k ≤ y.lo → e.lo ≤ y.lo) ∧
    (q.rangeFromNext k = none → ∀ y ∈ q, y.lo < k) := by
  induction q with
  | nil => simp [rangeFromNext]
  | cons z zs ih =>
    have hz := List.pairwise_cons.1 h
    have ih := ih hz.2
    simp only [rangeFromNext, List.find?_cons] at ih ⊢
    by_cases hk : k ≤ z.lo
    · simp only [hk, decide_true]
      refine ⟨?_, by simp⟩
      intro e he; simp at he; subst he
      refine ⟨by simp, hk, ?_⟩
      intro y hy _; simp at hy; rcases hy with rfl | hy
      · omega
      · have := hz.1 y hy; omega
    · simp only [hk, decide_false]
      refine ⟨fun e he => ?_, fun he y hy => ?_⟩
      · obtain ⟨a, b, c⟩ := ih.1 e he
        refine ⟨by simp [a], b, ?_⟩
        intro y hy hky; simp at hy; rcases hy with rfl | hy
        · omega
        · exact c y hy hky
      · simp at hy; rcases hy with rfl | hy
        · omega
        · exact ih.2 he y hy

/-- The last entry before `k` has the greatest such key. -/
theorem rangeToNextBack_spec {q : CQueue α} (h : Sorted q) {k : Nat} :
    (∀ e, q.rangeToNextBack k = some e → e ∈ q ∧ e.lo < k ∧ ∀ y ∈ q, y.lo < k → y.lo ≤ e.lo) ∧
    (q.rangeToNextBack k = none → ∀ y ∈ q, k ≤ y.lo) := by
  simp only [rangeToNextBack]
  constructor
  · intro e he
    have hm := List.mem_of_getLast? he
    simp at hm
    refine ⟨hm.1, hm.2, ?_⟩
    intro y hy hyk
    have hy' : y ∈ q.filter (fun s => decide (s.lo < k)) := by simp [hy, hyk]
    have hs : Sorted (q.filter (fun s => decide (s.lo < k))) := List.Pairwise.filter _ h
    obtain ⟨l, hl⟩ := List.getLast?_eq_some_iff.1 he
    rw [hl] at hy' hs
    simp at hy'; rcases hy' with hy' | rfl
    · have := (List.pairwise_append.1 hs).2.2 y hy' e (by simp); omega
    · omega
  · intro he y hy
    rw [List.getLast?_eq_none_iff] at he
    by_cases hk : k ≤ y.lo
    · exact hk
    · have : y ∈ q.filter (fun s => decide (s.lo < k)) := by simp [hy]; omega
      rw [he] at this; simp at this

theorem takeIfContiguous_some {q : CQueue α} {x e : Seg α} {o : Option (Seg α)} {q' : CQueue α}
    (h : takeIfContiguous q x o = some (e, q')) : o = some e ∧ x.isContiguous e = true ∧ q' = q.remove e.lo := by
  unfold takeIfContiguous at h
  split at h
  · split at h
    · rename_i hc; simp at h; obtain ⟨rfl, rfl⟩ := h; exact ⟨rfl, hc, rfl⟩
    · simp at h
  · simp at h

theorem takeIfContiguous_none {q : CQueue α} {x : Seg α} {o : Option (Seg α)}
    (h : takeIfContiguous q x o = none) : ∀ e, o = some e → x.isContiguous e = false := by
  unfold takeIfContiguous at h
  split at h
  · split at h
    · simp at h
    · rename_i hc; intro e he; simp at he; subst he; simpa using hc
  · simp

theorem isContiguous_iff {x e : Seg α} : x.isContiguous e = true ↔ Adjacent x e := by
  simp [Seg.isContiguous, Adjacent, Before]

/-- What `find_contiguous` does on any key-ordered queue (ranges may overlap). -/
theorem findContiguous_sound {q : CQueue α} (h : Sorted q) (hv : ∀ s ∈ q, s.Valid) {x : Seg α} (hx : x.Valid) :
    match findContiguous q x with
    | (some (.rhs r), q') => r ∈ q ∧ Before x r ∧ q' = q.remove r.lo
    | (some (.lhs l), q') => l ∈ q ∧ Before l x ∧ q' = q.remove l.lo
    | (none, q') => q' = q := by
  unfold findContiguous
  rcases heq : takeIfContiguous q x (q.rangeFromNext x.lo) with _ | ⟨r, q'⟩
  rotate_left
  · obtain ⟨ho, hc, rfl⟩ := takeIfContiguous_some heq
    obtain ⟨hm, hk, -⟩ := (rangeFromNext_spec h).1 _ ho
    refine ⟨hm, ?_, rfl⟩
    have := hv _ hm
    rcases isContiguous_iff.1 hc with hb | hb
    · exact hb
    · simp only [Before, Seg.Valid] at *; omega
  · rcases heq : takeIfContiguous q x (q.rangeToNextBack x.lo) with _ | ⟨l, q'⟩
    rotate_left
    · obtain ⟨ho, hc, rfl⟩ := takeIfContiguous_some heq
      obtain ⟨hm, hk, -⟩ := (rangeToNextBack_spec h).1 _ ho
      refine ⟨hm, ?_, rfl⟩
      rcases isContiguous_iff.1 hc with hb | hb
      · simp only [Before, Seg.Valid] at *; omega
      · exact hb
    · rfl

theorem QueueOk.sorted {q : CQueue α} (h : QueueOk q) : Sorted q := by
  have := h.2
  refine List.Pairwise.imp_of_mem ?_ h.1
  intro a b ha _ hab
  have := h.2 a ha
  simp only [Seg.Valid] at this; omega

/-- Nearest-neighbour search is complete when ranges are disjoint. -/
theorem findContiguous_complete {q : CQueue α} (h : QueueOk q) {x : Seg α} (hx : x.Valid)
    (hd : ∀ s ∈ q, Disjoint s x) (hn : (findContiguous q x).1 = none) : ∀ a ∈ q, ¬ Adjacent a x := by
  have hs := QueueOk.sorted h
  unfold findContiguous at hn
  split at hn
  · simp at hn
  · split at hn
    · simp at hn
    · rename_i _ h1 _ h2
      have h1 := takeIfContiguous_none h1
      have h2 := takeIfContiguous_none h2
      intro a ha hadj
      have hva := h.2 a ha
      rcases hadj with hb | hb
      · -- a before x: a is the greatest entry below x.lo
        cases hr : q.rangeToNextBack x.lo with
        | none =>
          have := (rangeToNextBack_spec hs).2 hr a ha
          simp only [Before, Seg.Valid] at *; omega
        | some e =>
          obtain ⟨hm, hk, hmax⟩ := (rangeToNextBack_spec hs).1 _ hr
          have hle := hmax a ha (by simp only [Before, Seg.Valid] at *; omega)
          have hc := h2 e hr
          have hve := h.2 e hm
          have hde := hd e hm
          have hea : e.hi = a.hi := by
            have hp : a = e ∨ a.hi < e.lo ∨ e.hi < a.lo := by
              have := h.1
              rcases List.mem_iff_getElem.1 ha with ⟨i, hi, rfl⟩
              rcases List.mem_iff_getElem.1 hm with ⟨j, hj, rfl⟩
              rcases Nat.lt_trichotomy i j with hij | rfl | hij
              · exact .inr (.inl (List.pairwise_iff_getElem.1 this i j hi hj hij))
              · exact .inl rfl
              · exact .inr (.inr (List.pairwise_iff_getElem.1 this j i hj hi hij))
            rcases hp with rfl | hp | hp
            · rfl
            · simp only [Before, Disjoint, Seg.Valid] at *; omega
            · simp only [Before, Disjoint, Seg.Valid] at *; omega
          have : x.isContiguous e = true := isContiguous_iff.2 (.inr (by simp only [Before] at *; omega))
          simp [this] at hc
      · cases hr : q.rangeFromNext x.lo with
        | none =>
          have := (rangeFromNext_spec hs).2 hr a ha
          simp only [Before, Seg.Valid] at *; omega
        | some e =>
          obtain ⟨hm, hk, hmin⟩ := (rangeFromNext_spec hs).1 _ hr
          have hle := hmin a ha (by simp only [Before, Seg.Valid] at *; omega)
          have hc := h1 e hr
          have hve := h.2 e hm
          have hde := hd e hm
          have : x.isContiguous e = true :=
            isContiguous_iff.2 (.inl (by simp only [Before, Disjoint, Seg.Valid] at *; omega))
          simp [this] at hc

theorem queueOk_of_perm_sub {q q' : CQueue α} (h : QueueOk q) (hs : q'.Sublist q) : QueueOk q' :=
  ⟨h.1.sublist hs, fun s hm => h.2 s (hs.subset hm)⟩

theorem queueOk_remove {q : CQueue α} (h : QueueOk q) (k : Nat) : QueueOk (q.remove k) :=
  queueOk_of_perm_sub h List.filter_sublist

theorem queueOk_queue {q : CQueue α} (h : QueueOk q) {x : Seg α} (hx : x.Valid)
    (hd : ∀ s ∈ q, Disjoint s x) : QueueOk (q.queue x) := by
  have hs := QueueOk.sorted h
  have hss := sorted_queue hs x
  refine ⟨?_, ?_⟩
  · refine List.Pairwise.imp_of_mem ?_ hss
    intro a b ha hb hab
    have va : a = x ∨ a ∈ q := mem_queue ha
    have vb : b = x ∨ b ∈ q := mem_queue hb
    rcases va with rfl | va <;> rcases vb with rfl | vb
    · omega
    · have h1 := hd b vb; have := h.2 b vb
      simp only [Disjoint, Seg.Valid] at *; omega
    · have h1 := hd a va; have := h.2 a va
      simp only [Disjoint, Seg.Valid] at *; omega
    · rcases List.mem_iff_getElem.1 va with ⟨i, hi, rfl⟩
      rcases List.mem_iff_getElem.1 vb with ⟨j, hj, rfl⟩
      rcases Nat.lt_trichotomy i j with hij | rfl | hij
      · exact List.pairwise_iff_getElem.1 h.1 i j hi hj hij
      · omega
      · have := List.pairwise_iff_getElem.1 h.1 j i hj hi hij
        have := h.2 _ vb; simp only [Seg.Valid] at *; omega
  · intro s hm
    rcases mem_queue hm with rfl | hm
    · exact hx
    · exact h.2 s hm

/-- What `acquire_contiguous_pair_or_queue` does on any key-ordered queue (ranges may overlap). -/
theorem acquire_sound {q : CQueue α} (h : Sorted q) (hv : ∀ s ∈ q, s.Valid) {x : Seg α} (hx : x.Valid) :
    match acquire q x with
    | (some (l, r), q') => Before l r ∧
        ((l = x ∧ r ∈ q ∧ q' = q.remove r.lo) ∨ (r = x ∧ l ∈ q ∧ q' = q.remove l.lo))
    | (none, q') => q' = q.queue x := by
  have := findContiguous_sound h hv hx
  unfold acquire
  rcases hf : findContiguous q x with ⟨_ | (c | c), q'⟩ <;> rw [hf] at this <;> simp only at this ⊢
  · rw [this]
  · exact ⟨this.2.1, .inr ⟨trivial, this.1, this.2.2⟩⟩
  · exact ⟨this.2.1, .inl ⟨trivial, this.1, this.2.2⟩⟩

theorem acquire_none {q : CQueue α} {x : Seg α} (h : (acquire q x).1 = none) :
    (findContiguous q x).1 = none := by
  unfold acquire at h
  rcases hf : findContiguous q x with ⟨_ | (c | c), q'⟩ <;> rw [hf] at h <;> simp at h ⊢

theorem mem_disjoint {q : CQueue α} (h : QueueOk q) {a b : Seg α} (ha : a ∈ q) (hb : b ∈ q) :
    a = b ∨ Disjoint a b := by
  rcases List.mem_iff_getElem.1 ha with ⟨i, hi, rfl⟩
  rcases List.mem_iff_getElem.1 hb with ⟨j, hj, rfl⟩
  rcases Nat.lt_trichotomy i j with hij | rfl | hij
  · exact .inr (.inl (List.pairwise_iff_getElem.1 h.1 i j hi hj hij))
  · exact .inl rfl
  · exact .inr (.inr (List.pairwise_iff_getElem.1 h.1 j i hj hi hij))

end CQueue
end Paladin
