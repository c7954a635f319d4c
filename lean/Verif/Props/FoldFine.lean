import Verif.Proofs.FoldFine
import Verif.Props.FoldLive
/-!
# Property C85 (and C08): the bounded concurrency of fold

`f_fold` handles a bounded number of items and results at a time, and its tasks go through a bounded channel. Model: `Verif/Model/FoldFine.lean`; vocabulary: `Verif/Spec/FoldFine.lean`.
-/
namespace Paladin
namespace FoldFine
open Fold (CTask Res)

section
variable {comb : ω → α → α → Except ε α} {empty : α} {dupErr : ε}

/-- **C85, refinement.** Every execution of fold with its limits ends as one without limits ends, on the same input and with the same executions, losses and failures in the same order. What is proved about folds
without limits (C05 to C11) holds with them. -/
theorem C85_refines (ls : List (Label α ε ω)) (s : St α ε) (h : run comb empty dupErr init ls = some s) :
    ∃ as a, Fold.run comb empty dupErr Fold.init as = some a ∧ a.outcome = s.core.outcome ∧ as.filterMap seen = (folds ls).filterMap seen := by
  obtain ⟨as, a, h1, ⟨o, r, rfl, _⟩, h3, _⟩ := sim_run inv_init (fun x hx => by simp [finals, init] at hx) sim_init h
  exact ⟨as, _, h1, rfl, h3⟩

/-- **C85, the value.** If fold returns a value, the input was empty and it is the empty element, or the items form a contiguous block and it is a tree of combines over them in index order. -/
theorem C85_value (ls : List (Label α ε ω)) (s : St α ε) (v : α) (h : run comb empty dupErr init ls = some s) (hv : s.core.outcome = some (.ok v)) :
    (Fold.inputs (folds ls) = [] ∧ v = empty) ∨ ∃ start xs, (Fold.inputs (folds ls)).Perm (indexed start xs) ∧ Tree (Fold.Returns comb) xs v := by
  obtain ⟨as, a, h1, h2, h3⟩ := C85_refines ls s h
  have := Fold.C05_fold_ok as a v h1 (h2.trans hv)
  rwa [inputs_seen as, h3, ← inputs_seen] at this

/-- **C85, bounds.** At no time are more than ten items or ten results in hand, more than ten tasks being published, or more than thirty waiting in the channel, however long the input is and however slow the
broker. -/
theorem C85_bounded (ls : List (Label α ε ω)) (s : St α ε) (h : run comb empty dupErr init ls = some s) :
    s.inits.length ≤ 10 ∧ s.ress.length ≤ 10 ∧ s.sending.length ≤ 10 ∧ s.core.outbox.length ≤ 30 := by
  have hi := inv_run h
  exact ⟨hi.inits, hi.ress, hi.sending, (load_bound hi).1⟩

/-- **C85, back-pressure.** With ten items in hand the input is not read, and with ten results none is received. The end of the input is acted upon when no item is in hand, that of the results when no result
is. -/
theorem C85_not_read (s s' : St α ε) (l : Label α ε ω) (h : step comb empty dupErr s l = some s') :
    (∀ i a, l = .fold (.item i a) → s.inits.length < 10) ∧ (∀ k, l = .fold (.recv k) → s.ress.length < 10) ∧
    (l = .fold .inputEnd → s.inits = []) ∧ (l = .fold .disconnect → s.ress = []) := by
  unfold step at h
  split at h
  · simp at h
  refine ⟨?_, ?_, ?_, ?_⟩
  · rintro i a rfl
    simp only at h
    split at h
    · assumption
    · simp at h
  · rintro k rfl
    simp only at h
    split at h
    · rename_i hl; exact hl.1
    · simp at h
  · rintro rfl
    simp only at h
    split at h
    · assumption
    · simp at h
  · rintro rfl
    simp only at h
    split at h
    · assumption
    · simp at h

/-- **C85, no deadlock.** As long as fold has not returned and something is in hand, waiting in the channel or being published, the leader can go on by itself, provided that publishes and acknowledgements complete. -/
theorem C85_no_deadlock (ls : List (Label α ε ω)) (s : St α ε) (h : run comb empty dupErr init ls = some s) (ho : s.core.outcome = none)
    (hb : s.inits ≠ [] ∨ s.ress ≠ [] ∨ s.core.outbox ≠ [] ∨ s.sending ≠ []) : ∃ (l : Label α ε ω) (s' : St α ε), l.clears = true ∧ step comb empty dupErr s l = some s' := by
  refine Classical.byContradiction fun hn => ?_
  have hc := clear (comb := comb) (empty := empty) (dupErr := dupErr) (inv_run h) ho fun l hl => by
    cases hs : step comb empty dupErr s l with
    | none => rfl
    | some s' => exact absurd ⟨l, s', hl, hs⟩ hn
  obtain ⟨h1, h2, h3, h4⟩ := hc
  rcases hb with hb | hb | hb | hb
  · exact hb h1
  · exact hb h2
  · exact hb h3
  · exact hb h4

/-- **C85, finiteness.** At most 110 such steps follow one another before something else happens. -/
theorem C85_clears (ls more : List (Label α ε ω)) (s s' : St α ε) (h : run comb empty dupErr init ls = some s) (h' : run comb empty dupErr s more = some s')
    (hm : ∀ l ∈ more, l.clears = true) : more.length ≤ 110 := by
  have h1 := load_run h' hm
  have h2 := (load_bound (inv_run h)).2
  unfold limit at h2
  omega

/-- Nothing left to do with limits: nothing left to do without. -/
theorem stuck_fold {s : St α ε} {a : Fold.St α ε} (hi : Inv s) (hs : Sim s a) (hst : ∀ l : Label α ε ω, l.internal = true → step comb empty dupErr s l = none) :
    ∀ l : Fold.Label α ε ω, l.internal = true → Fold.step comb empty dupErr a l = none := by
  obtain ⟨o, r, rfl, ho, hr⟩ := hs
  intro l hl
  by_cases hout : s.core.outcome = none
  case neg =>
    have : s.core.outcome.isSome = true := Option.isSome_iff_ne_none.2 hout
    simp [Fold.step, this]
  obtain ⟨h1, h2, h3, h4⟩ := clear hi hout fun l hc => hst l (by cases l <;> first | rfl | simp [Label.clears] at hc)
  rw [h3, h4] at ho
  have ho := ho.eq_nil
  rw [h2] at hr
  simp [finals] at hr
  subst ho
  cases l with
  | publish k => simp [Fold.step, hout, Fold.takeAt]
  | exec k w =>
    have := hst (.fold (.exec k w)) rfl
    simp only [step, hout, Option.isSome_none, Bool.false_eq_true, if_false, Option.map_eq_none_iff] at this
    simp only [Fold.step, hout, Option.isSome_none, Bool.false_eq_true, if_false] at this ⊢
    split at this
    · simp at this
    · rename_i hn; simp [hn]
  | recv k =>
    simp only [Fold.step, hout, Option.isSome_none, Bool.false_eq_true, if_false]
    split
    · rfl
    rename_i hn
    split
    · rename_i x rest hx
      exfalso
      have hne : s.core.results ≠ [] := by
        intro he
        rw [he] at hr
        rw [hr.eq_nil] at hx
        simp [Fold.takeAt] at hx
      obtain ⟨y, rest', hy⟩ := Fold.takeAt_zero hne
      have := hst (.fold (.recv 0)) rfl
      simp only [step, hout, Option.isSome_none, Bool.false_eq_true, if_false] at this
      rw [if_pos ⟨by simp [h2, limit], by simpa using hn⟩, hy] at this
      cases y <;> simp at this
    · rfl
  | finish =>
    have := hst (.fold .finish) rfl
    simp only [step, hout, Option.isSome_none, Bool.false_eq_true, if_false, Option.map_eq_none_iff] at this
    simp only [Fold.step, hout, Option.isSome_none, Bool.false_eq_true, if_false] at this ⊢
    split at this
    · simp at this
    · rename_i hn; simp [hn]
  | _ => simp [Fold.Label.internal] at hl

theorem split_seen {as : List (Fold.Label α ε ω)} {l : Fold.Label α ε ω} (h : as.filterMap seen = [l]) (hl : ∀ k, l ≠ .loseResult k ∧ l ≠ .dupResult k) :
    ∃ p q, as = p ++ l :: q ∧ p.filterMap seen = [] ∧ q.filterMap seen = [] := by
  obtain ⟨p, x, q, h1, h2, h3, h4⟩ := List.filterMap_eq_cons_iff.1 h
  have : x = l := by
    cases x <;> simp [seen] at h3 <;> first | exact h3 | (subst h3; simp at hl)
  subst this
  exact ⟨p, q, h1, List.filterMap_eq_nil_iff.2 h2, h4⟩

/-- **C08 with limits, completion (partial).** Missing: the case in which all results were received before the end of the input was observed (C08_hang), and a single item with an index other than 0 (C10_single). Otherwise, when
the indices form a block and nothing fails outside the combines, a fold with its limits that can do nothing more has returned: `Ok`, or the error of a failed combine. -/
theorem C08_limits_completes_partial [Inhabited ω] (pre post : List (Label α ε ω)) (s : St α ε) (start : Nat) (xs : List α)
    (h : run comb empty dupErr init (pre ++ .fold .inputEnd :: post) = some s) (hrel : ∀ l ∈ pre ++ .fold .inputEnd :: post, l.reliable = true)
    (hin : (Fold.inputs (folds pre)).Perm (indexed start xs)) (hrc : xs = [] ∨ (xs.length = 1 ∧ start = 0) ∨ Fold.recvs (folds pre) + 1 < xs.length)
    (hstuck : ∀ l : Label α ε ω, l.internal = true → step comb empty dupErr s l = none) :
    (∃ v, s.core.outcome = some (.ok v)) ∨
    ∃ e k w a b, s.core.outcome = some (.err e) ∧ .fold (.exec k w) ∈ pre ++ .fold .inputEnd :: post ∧ comb w a b = .error e := by
  obtain ⟨s0, h0, h⟩ := Lts.run_append.1 h
  obtain ⟨s1, h1, h2⟩ := Lts.run_cons.1 h
  obtain ⟨as0, a0, g1, g2, g3, g4⟩ := sim_run inv_init (fun x hx => by simp [finals, init] at hx) sim_init h0
  obtain ⟨as1, a1, k1, k2, k3, k4⟩ := sim_step (inv_run h0) (finOk_run h0) g2 h1
  have hi1 := inv_step (inv_run h0) h1
  obtain ⟨as2, a2, m1, m2, m3, m4⟩ := sim_run hi1 (finOk_step (inv_run h0) (finOk_run h0) h1) k2 h2
  have hi2 : Inv s := Lts.run_inv hi1 (fun _ _ _ h1 h2 => inv_step h1 h2) h2
  have k3' : as1.filterMap seen = [.inputEnd] := k3
  obtain ⟨p, q, rfl, hp, hq⟩ := split_seen k3' (by simp)
  have hrun : Fold.run comb empty dupErr Fold.init ((as0 ++ p) ++ .inputEnd :: (q ++ as2)) = some a2 := by
    have : (as0 ++ p) ++ Fold.Label.inputEnd :: (q ++ as2) = as0 ++ ((p ++ .inputEnd :: q) ++ as2) := by simp
    rw [this, Fold.run_append, g1]
    simp only [Option.bind_some]
    rw [Fold.run_append, k1]
    exact m1
  have hseen : ((as0 ++ p) ++ Fold.Label.inputEnd :: (q ++ as2)).filterMap seen = (folds (pre ++ .fold .inputEnd :: post)).filterMap seen := by
    rw [folds_append, folds_cons (.fold .inputEnd) post]
    simp only [List.filterMap_append, hp, List.append_nil, List.filterMap_cons, hq, List.nil_append]
    rw [g3, m3]
    simp [folds, seen]
  have hrel' := reliable_seen hseen (fun l hl => by
    obtain ⟨m, hm, he⟩ := List.mem_filterMap.1 hl
    cases m with
    | fold l' => simp at he; subst he; exact hrel _ hm
    | _ => simp at he)
  have hin' : (Fold.inputs (as0 ++ p)).Perm (indexed start xs) := by
    rw [inputs_seen, List.filterMap_append, hp, List.append_nil, g3, ← inputs_seen]; exact hin
  have hrc' : Fold.recvs (as0 ++ p) ≤ Fold.recvs (folds pre) := by
    rw [recvs_append] at k4 ⊢
    have e1 : (finals (init : St α ε).ress).length = 0 := rfl
    have e2 : Fold.recvs (folds [(.fold .inputEnd : Label α ε ω)]) = 0 := rfl
    omega
  obtain ⟨o, r, ha2, _⟩ := id m2
  have hout : a2.outcome = s.core.outcome := by rw [ha2]
  rcases Fold.C08_completes_partial (as0 ++ p) (q ++ as2) a2 start xs hrun hrel' hin' (hrc.imp_right (Or.imp_right (by omega))) (stuck_fold hi2 m2 hstuck) with
    ⟨v, hv⟩ | ⟨e, k, w, a, b, he, hm, hc⟩
  · exact .inl ⟨v, hout ▸ hv⟩
  · refine .inr ⟨e, k, w, a, b, hout ▸ he, ?_, hc⟩
    have : Fold.Label.exec k w ∈ (folds (pre ++ .fold .inputEnd :: post)).filterMap seen := hseen ▸ List.mem_filterMap.2 ⟨_, hm, rfl⟩
    obtain ⟨l, hl, hs⟩ := List.mem_filterMap.1 this
    have hl' : l = .exec k w := by cases l <;> simp [seen] at hs ⊢ <;> exact hs
    subst hl'
    obtain ⟨m, hm, he⟩ := List.mem_filterMap.1 hl
    cases m with
    | fold l' => simp at he; subst he; exact hm
    | _ => simp at he

end

/-! ## Concrete executions -/
namespace FineDemo
open Fold (catComb)

/-- `n` items, none of whose tasks is published. -/
def items (n : Nat) : List (Label String String Unit) := (List.range n).map fun i => .fold (.item i "x")

/-- Hypotheses of C85_bounded and C85_not_read: 22 items send 11 tasks, and the eleventh has its closure wait; after 40 items ten are in hand, twenty tasks wait in the channel, and no 41st item is read until a task has
been taken from the channel and the first closure has found out. -/
example : (run catComb "" "dup" init (items 21)).map (fun s => (s.core.outbox.length, s.inits.length)) = some (10, 0) ∧
    (run catComb "" "dup" init (items 22)).map (fun s => (s.core.outbox.length, s.inits.length)) = some (11, 1) ∧
    (run catComb "" "dup" init (items 40)).map (fun s => (s.core.outbox.length, s.inits.length)) = some (20, 10) ∧
    (run catComb "" "dup" init (items 41)).isNone = true ∧
    (run catComb "" "dup" init (items 40 ++ [.take, .flushed 1])).isNone = true ∧
    (run catComb "" "dup" init (items 40 ++ [.take, .flushed 0, .fold (.item 40 "x")])).map (fun s => (s.core.outbox.length, s.inits.length, s.sending.length)) = some (19, 9, 1) := by
  refine ⟨?_, ?_, ?_, ?_, ?_, ?_⟩ <;> decide +kernel

/-- Three items; the end of the input is seen before the last result comes. -/
def pre : List (Label String String Unit) := [.fold (.item 0 "a"), .fold (.item 1 "b"), .take, .fold (.item 2 "c"), .published 0, .fold (.exec 0 ()), .fold (.recv 0), .acked 0]
def post : List (Label String String Unit) := [.take, .published 0, .fold (.exec 0 ()), .fold (.recv 0), .acked 1, .fold .finish]

/-- Hypotheses of C85_value and C08_limits_completes_partial: met, with result `"abc"`. -/
example : ∃ s, run catComb "" "dup" init (pre ++ .fold .inputEnd :: post) = some s ∧ s.core.outcome = some (.ok "abc") ∧ (∀ l ∈ pre ++ .fold .inputEnd :: post, l.reliable = true) ∧
    (Fold.inputs (folds pre)).Perm (indexed 0 ["a", "b", "c"]) ∧ Fold.recvs (folds pre) + 1 < 3 := by
  refine ⟨_, rfl, by decide, by decide, by decide, by decide⟩

/-- Hypotheses of C85_no_deadlock and C85_clears: met. -/
example : ∃ s, run catComb "" "dup" init (pre.take 7) = some s ∧ s.core.outcome = none ∧ s.ress ≠ [] ∧ (∃ s', run catComb "" "dup" s [.take, .acked 0, .published 0] = some s') := by
  refine ⟨_, rfl, by decide, by decide, ⟨_, rfl⟩⟩

/-- **C08 with limits, the hang.** With the limits fold hangs as it does without: the result of the only task is received before the end of the input is seen. -/
theorem C08_limits_hang_witness : ∃ s, run catComb "" "dup" init [.fold (.item 0 "a"), .fold (.item 1 "b"), .take, .published 0, .fold (.exec 0 ()), .fold (.recv 0), .acked 0, .fold .inputEnd] = some s ∧
    s.core.outcome = none ∧ ∀ l : Label String String Unit, l.reliable = true → step catComb "" "dup" s l = none := by
  refine ⟨_, rfl, rfl, ?_⟩
  intro l hl
  cases l with
  | fold l => cases l <;> first | rfl | (simp [Label.reliable, Fold.Label.reliable] at hl)
  | _ => rfl

end FineDemo
end FoldFine
end Paladin
