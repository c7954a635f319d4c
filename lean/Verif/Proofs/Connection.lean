import Verif.Spec.Connection
/-! # Simulation between the connection and its specification -/
namespace Paladin
namespace Connection

theorem lookup_filter [DecidableEq N] (l : List (N × Nat)) (n m : N) : (l.filter fun e => e.1 ≠ n).lookup m = if m = n then none else l.lookup m := by
  induction l with
  | nil => simp
  | cons a l ih =>
    obtain ⟨x, i⟩ := a
    simp only [ne_eq] at ih
    by_cases hx : x = n
    · subst hx
      simp only [List.filter_cons, ne_eq, not_true, decide_false, Bool.false_eq_true, if_false]
      rw [ih]
      by_cases hm : m = x
      · simp [hm]
      · have : (m == x) = false := by simpa using hm
        simp [hm, List.lookup_cons, this]
    · simp only [List.filter_cons, ne_eq, hx, not_false_eq_true, decide_true, if_true, List.lookup_cons]
      rw [ih]
      by_cases hm : m = x
      · subst hm; simp [hx]
      · have : (m == x) = false := by simpa using hm
        simp [this]

/-- The implementation's cells are the specification's queues: `keys` names each cell. -/
structure Sim [DecidableEq N] (keys : List (N × Nat)) (s : St N Q) (t : Spec N Q) : Prop where
  len : keys.length = s.cells.length
  nodup : keys.Nodup
  cell : ∀ (i : Nat) n e, keys[i]? = some (n, e) → t.queue n e = s.cells[i]?
  only : ∀ n e q, t.queue n e = some q → (n, e) ∈ keys
  epoch : ∀ n e, (n, e) ∈ keys → e ≤ t.deletes n
  map : ∀ n (i : Nat), s.map.lookup n = some i ↔ keys[i]? = some (n, t.deletes n)
  owner : t.owner.map some = s.handles.map fun i => keys[i]?

theorem idx_eq {l : List α} (hn : l.Nodup) {i j : Nat} {x : α} (h1 : l[i]? = some x) (h2 : l[j]? = some x) : i = j := by
  obtain ⟨hi, h1⟩ := List.getElem?_eq_some_iff.1 h1
  obtain ⟨hj, h2⟩ := List.getElem?_eq_some_iff.1 h2
  exact (List.getElem_inj hn).1 (h1.trans h2.symm)

theorem sim_step [DecidableEq N] {new : Opts → Q} {act : Q → O → Q × R} {keys : List (N × Nat)} {s : St N Q} {t : Spec N Q} (h : Sim keys s t) (o : Op N Opts O) :
    (step new act s o).2 = (t.step new act o).2 ∧ ∃ keys', Sim keys' (step new act s o).1 (t.step new act o).1 := by
  have hol : s.handles.length = t.owner.length := by have := congrArg List.length h.owner; simpa using this.symm
  cases o with
  | declare name options =>
    cases hl : s.map.lookup name with
    | some i =>
      have hk := (h.map name i).1 hl
      have hi : i < s.cells.length := by rw [← h.len]; exact (List.getElem?_eq_some_iff.1 hk).1
      have hq := h.cell i _ _ hk
      rw [List.getElem?_eq_getElem hi] at hq
      have hqu : (fun n e => if n = name ∧ e = t.deletes name then some ((t.queue n e).getD (new options)) else t.queue n e) = t.queue := by
        funext n e
        by_cases hne : n = name ∧ e = t.deletes name
        · obtain ⟨rfl, rfl⟩ := hne; simp [hq]
        · simp [hne]
      simp only [step, hl, Spec.step, hol, true_and, hqu]
      refine ⟨keys, h.len, h.nodup, h.cell, h.only, h.epoch, h.map, ?_⟩
      simp [h.owner, hk]
    | none =>
      have hnk : (name, t.deletes name) ∉ keys := by
        intro hm
        obtain ⟨i, hi⟩ := List.getElem?_of_mem hm
        rw [(h.map name i).2 hi] at hl; simp at hl
      have hqn : t.queue name (t.deletes name) = none := by
        cases hq : t.queue name (t.deletes name) with
        | none => rfl
        | some q => exact absurd (h.only _ _ _ hq) hnk
      simp only [step, hl, Spec.step, hol, true_and]
      refine ⟨keys ++ [(name, t.deletes name)], by simp [h.len], ?_, ?_, ?_, ?_, ?_, ?_⟩
      · rw [List.nodup_append]
        exact ⟨h.nodup, by simp, by intro a ha b hb; simp at hb; subst hb; rintro rfl; exact hnk ha⟩
      · intro i n e hk
        simp only [List.getElem?_append] at hk ⊢
        rw [h.len] at hk
        split at hk
        · rename_i hlt
          have hne : ¬ (n = name ∧ e = t.deletes name) := by
            rintro ⟨rfl, rfl⟩; exact hnk (List.mem_of_getElem? hk)
          simp only [hne, if_false, hlt, if_true]
          exact h.cell i n e hk
        · rename_i hlt
          have hlen := (List.getElem?_eq_some_iff.1 hk).1
          simp at hlen
          have hz : i - s.cells.length = 0 := by omega
          rw [hz] at hk
          simp at hk
          obtain ⟨rfl, rfl⟩ := hk
          simp [hlt, hz, hqn]
      · intro n e q hq
        simp only at hq
        split at hq
        · rename_i hne; obtain ⟨rfl, rfl⟩ := hne; simp
        · simp [h.only n e q hq]
      · intro n e hm
        simp at hm
        rcases hm with hm | ⟨rfl, rfl⟩
        · exact h.epoch n e hm
        · exact Nat.le_refl _
      · intro n i
        simp only [List.lookup_cons]
        by_cases hn : n = name
        · subst hn
          simp only [beq_self_eq_true]
          constructor
          · intro hi; simp at hi; subst hi; simp [← h.len]
          · intro hk
            have hself : (keys ++ [(n, t.deletes n)])[s.cells.length]? = some (n, t.deletes n) := by simp [← h.len]
            have hnd : (keys ++ [(n, t.deletes n)]).Nodup := by
              rw [List.nodup_append]
              exact ⟨h.nodup, by simp, by intro a ha b hb; simp at hb; subst hb; rintro rfl; exact hnk ha⟩
            rw [idx_eq hnd hk hself]
        · have : (n == name) = false := by simpa using hn
          rw [this]
          simp only
          rw [h.map n i]
          constructor
          · intro hk
            have hi := (List.getElem?_eq_some_iff.1 hk).1
            rw [List.getElem?_append_left hi]; exact hk
          · intro hk
            rw [List.getElem?_append] at hk
            split at hk
            · exact hk
            · exfalso
              have := List.mem_of_getElem? hk
              simp at this
              exact hn this.1
      · simp only [List.map_append, h.owner, List.map_cons, List.map_nil]
        congr 1
        · apply List.map_congr_left
          intro i hi
          have : some i = some i := rfl
          have hm : keys[i]? ∈ s.handles.map fun i => keys[i]? := List.mem_map_of_mem hi
          rw [← h.owner] at hm
          obtain ⟨x, _, hx⟩ := List.mem_map.1 hm
          have hlt := (List.getElem?_eq_some_iff.1 hx.symm).1
          rw [List.getElem?_append_left hlt]
        · simp [← h.len]
  | delete name =>
    simp only [step, Spec.step, true_and]
    refine ⟨keys, h.len, h.nodup, h.cell, h.only, ?_, ?_, h.owner⟩
    · intro n e hm
      have := h.epoch n e hm
      simp only
      split <;> omega
    · intro n i
      rw [lookup_filter]
      by_cases hn : n = name
      · subst hn
        simp only [if_true]
        constructor
        · intro hi; simp at hi
        · intro hk
          have := h.epoch n _ (List.mem_of_getElem? hk)
          omega
      · simp only [hn, if_false]; exact h.map n i
  | use hd o =>
    have hget : (t.owner[hd]?).map some = (s.handles[hd]?).map fun i => keys[i]? := by
      rw [← List.getElem?_map, ← List.getElem?_map, h.owner]
    cases hs : s.handles[hd]? with
    | none =>
      rw [hs] at hget
      simp at hget
      have ho : t.owner[hd]? = none := by simpa using hget
      simp only [step, hs, Spec.step, ho, true_and]
      exact ⟨keys, h⟩
    | some i =>
      rw [hs] at hget
      cases ho : t.owner[hd]? with
      | none => rw [ho] at hget; simp at hget
      | some ne =>
        obtain ⟨n, e⟩ := ne
        rw [ho] at hget
        simp at hget
        have hk : keys[i]? = some (n, e) := hget.symm
        have hq := h.cell i n e hk
        have hi : i < s.cells.length := by rw [← h.len]; exact (List.getElem?_eq_some_iff.1 hk).1
        rw [List.getElem?_eq_getElem hi] at hq
        simp only [step, hs, Spec.step, ho, hq, List.getElem?_eq_getElem hi, true_and]
        refine ⟨keys, by simp [h.len], h.nodup, ?_, ?_, h.epoch, h.map, h.owner⟩
        · intro j n' e' hk'
          simp only [List.getElem?_set]
          by_cases hji : i = j
          · subst hji
            rw [hk] at hk'
            simp at hk'
            obtain ⟨rfl, rfl⟩ := hk'
            simp [hi]
          · have hne : ¬ (n' = n ∧ e' = e) := by
              rintro ⟨rfl, rfl⟩
              exact hji (idx_eq h.nodup hk hk')
            simp only [hne, if_false, hji]
            exact h.cell j n' e' hk'
        · intro n' e' q hq'
          simp only at hq'
          split at hq'
          · rename_i hne; obtain ⟨rfl, rfl⟩ := hne; exact List.mem_of_getElem? hk
          · exact h.only n' e' q hq'

theorem sim_outputs [DecidableEq N] {new : Opts → Q} {act : Q → O → Q × R} (os : List (Op N Opts O)) {keys : List (N × Nat)} {s : St N Q} {t : Spec N Q} (h : Sim keys s t) :
    outputs new act s os = Spec.outputs new act t os := by
  induction os generalizing keys s t with
  | nil => rfl
  | cons o os ih =>
    obtain ⟨h1, keys', h2⟩ := sim_step (new := new) (act := act) h o
    simp only [outputs, Spec.outputs, h1, ih h2]

theorem sim_init [DecidableEq N] : Sim (N := N) (Q := Q) [] init Spec.init := by
  refine ⟨rfl, by simp, by simp, by simp [Spec.init], by simp, ?_, rfl⟩
  intro n i; simp [init]

end Connection
end Paladin
