import Verif.Model.Arith
/-! # Property C55: 64-bit index arithmetic -/
namespace Paladin
namespace Arith

/-- The mathematical notion: one range begins right after the other ends. -/
def Adjacent (s o : Range) : Prop := s.stop.toNat + 1 = o.start.toNat ∨ o.stop.toNat + 1 = s.start.toNat

instance : Decidable (Adjacent s o) := by unfold Adjacent; infer_instance

/-- The largest 64-bit value. -/
def max : UInt64 := 18446744073709551615

theorem max_toNat : max.toNat = 2 ^ 64 - 1 := rfl

theorem add_one_toNat {a : UInt64} (h : a.toNat + 1 < 2 ^ 64) : (a + 1).toNat = a.toNat + 1 := by
  rw [UInt64.toNat_add]; exact Nat.mod_eq_of_lt h

theorem lt_max {a : UInt64} (h : a ≠ max) : a.toNat + 1 < 2 ^ 64 := by
  have h1 := a.toNat_lt
  have : a.toNat ≠ max.toNat := fun h' => h (UInt64.toNat_inj.1 h')
  rw [max_toNat] at this; omega

theorem addChecked_one (a : UInt64) : addChecked a 1 = if a = max then none else some (a + 1) := by
  have h1 : (1 : UInt64).toNat = 1 := rfl
  by_cases h : a = max
  · subst h; simp [addChecked, h1, max_toNat]
  · simp only [addChecked, h1, lt_max h, if_true, if_neg h]

theorem beq_toNat (a b : UInt64) : (a == b) = decide (a.toNat = b.toNat) := by
  by_cases h : a = b
  · simp [h]
  · simp [h, UInt64.toNat_inj]

/-- **C55.** Below the largest value, `is_contiguous` is mathematical adjacency, with and without overflow checks. -/
theorem C55_contiguous (s o : Range) (hs : s.stop ≠ max) (ho : o.stop ≠ max) :
    isContiguousChecked s o = some (decide (Adjacent s o)) ∧ isContiguousWrapping s o = decide (Adjacent s o) := by
  have h1 := add_one_toNat (lt_max hs)
  have h2 := add_one_toNat (lt_max ho)
  constructor
  · simp only [isContiguousChecked, addChecked_one, hs, ho, if_false, beq_toNat, h1, h2, Adjacent, bind, pure, Option.bind]
    by_cases h : s.stop.toNat + 1 = o.start.toNat <;> simp [h]
  · simp only [isContiguousWrapping, beq_toNat, h1, h2, Adjacent]
    by_cases h : s.stop.toNat + 1 = o.start.toNat <;> simp [h]

/-- **C55.** For a proper range whose end is below the largest value, `is_final` compares the number of indices, with and without overflow checks. -/
theorem C55_final (s : Range) (n : UInt64) (hr : s.start ≤ s.stop) (hs : s.stop ≠ max) :
    isFinalChecked s n = some (decide (s.stop.toNat - s.start.toNat + 1 = n.toNat)) ∧
    isFinalWrapping s n = decide (s.stop.toNat - s.start.toNat + 1 = n.toNat) := by
  have hsub : (s.stop - s.start).toNat = s.stop.toNat - s.start.toNat := UInt64.toNat_sub_of_le _ _ hr
  have h0 := lt_max hs
  have h1 : (s.stop - s.start + 1).toNat = s.stop.toNat - s.start.toNat + 1 := by rw [add_one_toNat (by rw [hsub]; omega), hsub]
  have hm : s.stop - s.start ≠ max := by
    intro h
    have := congrArg UInt64.toNat h
    rw [hsub, max_toNat] at this; omega
  constructor
  · simp only [isFinalChecked, subChecked, hr, if_true, addChecked_one, hm, if_false, bind, Option.bind, pure, beq_toNat, h1]
  · simp only [isFinalWrapping, beq_toNat, h1]

/-- **C55.** At the largest value the addition overflows: with checks the call panics; without, the range counts as adjacent to any range that begins at 0. -/
theorem C55_overflow (s o : Range) (hs : s.stop = max) :
    isContiguousChecked s o = none ∧ (o.start = 0 → isContiguousWrapping s o = true) := by
  constructor
  · simp [isContiguousChecked, addChecked_one, hs]
  · intro h; simp [isContiguousWrapping, hs, h]; left; decide

/-- **C55.** The only proper range for which `is_final` overflows is the full one: it panics with checks and is never final without, except for a job of size 0. -/
theorem C55_final_overflow (s : Range) (n : UInt64) (hr : s.start ≤ s.stop) :
    (isFinalChecked s n = none ↔ s.start = 0 ∧ s.stop = max) ∧ (s.start = 0 → s.stop = max → isFinalWrapping s n = (n == 0)) := by
  constructor
  · have hsub : (s.stop - s.start).toNat = s.stop.toNat - s.start.toNat := UInt64.toNat_sub_of_le _ _ hr
    have h1 := s.stop.toNat_lt
    have key : s.stop - s.start = max ↔ s.start = 0 ∧ s.stop = max := by
      constructor
      · intro h
        have := congrArg UInt64.toNat h
        rw [hsub, max_toNat] at this
        constructor
        · apply UInt64.toNat_inj.1; rw [UInt64.toNat_zero]; omega
        · apply UInt64.toNat_inj.1; rw [max_toNat]; omega
      · rintro ⟨h, h'⟩; rw [h, h']; decide
    simp only [isFinalChecked, subChecked, hr, if_true, addChecked_one, bind, Option.bind, pure]
    by_cases h : s.stop - s.start = max
    · simp [h, key.1 h]
    · simp only [h, if_false]
      constructor
      · intro h'; simp at h'
      · intro h'; exact absurd (key.2 h') h
  · intro h h'
    have : s.stop - s.start + 1 = 0 := by rw [h, h']; decide
    rw [isFinalWrapping, this]
    exact Bool.beq_comm

/-- **C55, link to the fold model.** The natural-number tests used in the models of the queue and of fold are the machine's, below the largest value. -/
theorem C55_model {α : Type} (a b : Seg α) (s o : Range) (hs : s.stop ≠ max) (ho : o.stop ≠ max) (ha : a.lo = s.start.toNat ∧ a.hi = s.stop.toNat)
    (hb : b.lo = o.start.toNat ∧ b.hi = o.stop.toNat) (n : UInt64) (hr : s.start ≤ s.stop) :
    a.isContiguous b = isContiguousWrapping s o ∧ a.isFinal n.toNat = isFinalWrapping s n := by
  rw [(C55_contiguous s o hs ho).2, (C55_final s n hr hs).2]
  constructor
  · simp only [Seg.isContiguous, Adjacent, ha, hb]
    by_cases h1 : s.stop.toNat + 1 = o.start.toNat <;> by_cases h2 : o.stop.toNat + 1 = s.start.toNat <;> simp [h1, h2]
  · simp only [Seg.isFinal, ha]
    rfl

example : isContiguousChecked ⟨3, 5⟩ ⟨6, 6⟩ = some true ∧ isContiguousChecked ⟨3, 5⟩ ⟨7, 7⟩ = some false ∧ isFinalChecked ⟨3, 5⟩ 3 = some true ∧
    isContiguousWrapping ⟨5, max⟩ ⟨0, 4⟩ = true := by decide

end Arith
end Paladin
