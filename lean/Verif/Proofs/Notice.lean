import Verif.Spec.Notice
import Verif.Proofs.Lts
/-! # Lemmas about noticing that the connection is lost -/
namespace Paladin
namespace Notice
open Worker (Pc)
open Retry (OpError)

variable {κ ο χ τ : Type} [DecidableEq κ] {c : Worker.Cfg κ} {s s' : WSt κ ο χ} {ls : List (WLabel κ ο χ)}

theorem down_event {x y : Str τ} {e : Event τ} (hd : x.conn = .down) (h : x.event e = some y) : False := by
  cases e <;> simp [Str.event, hd] at h

theorem poll_conn (x : Str τ) : x.poll.1.conn = x.conn := by
  unfold Str.poll
  split <;> rfl

theorem work_step {l : Worker.Label κ ο χ} (h : wstep c s (.work l) = some s') :
    (∀ k, l ≠ .deliver k) ∧ l ≠ .streamEnd ∧ ¬ (call l = true ∧ s.str.conn = .down) ∧ ∃ w, Worker.step c s.w l = some w ∧ s' = { s with w := w } := by
  by_cases hc : call l = true ∧ s.str.conn = .down
  · cases l <;> simp [wstep, hc.1, hc.2] at h
  · refine ⟨?_, ?_, hc, ?_⟩
    · rintro k rfl; simp [wstep] at h
    · rintro rfl; simp [wstep] at h
    · cases l <;> simp only [wstep, if_neg hc, Bool.false_eq_true, if_false, if_true, reduceCtorEq, Option.map_eq_some_iff] at h <;> (obtain ⟨w, hw, e⟩ := h; exact ⟨w, hw, e.symm⟩)

theorem asleep_silent {x : Str τ} (h : x.asleep = true) : ¬ x.hears ∧ ¬ x.ends := ⟨fun k => (by have := k.1; simp [h] at this), fun k => (by have := k.1; simp [h] at this)⟩

/-- What is left for a loop with a task in hand when the connection is lost. -/
def doomed : Pc κ ο χ → Prop
  | .interrupted _ _ | .draining _ _ | .stopped | .errored | .crashed => True
  | p => owes p

theorem doomed_of_owes {p : Pc κ ο χ} (h : owes p) : doomed p := by
  cases p <;> first | exact h | trivial

theorem doomed_step {l : WLabel κ ο χ} (hd : s.str.conn = .down) (hp : doomed s.w.pc) (h : wstep c s l = some s') : s'.str.conn = .down ∧ doomed s'.w.pc := by
  cases l with
  | event e =>
    simp only [wstep, Option.map_eq_some_iff] at h
    obtain ⟨x, hx, -⟩ := h
    exact (down_event hd hx).elim
  | poll =>
    cases hpc : s.w.pc <;> rw [hpc] at hp <;> simp [doomed, owes, wstep, hpc] at hp h
  | work l =>
    obtain ⟨n1, n2, n3, w, hw, rfl⟩ := work_step h
    refine ⟨hd, ?_⟩
    have n3 : call l = false := by simpa [hd] using n3
    cases hpc : s.w.pc <;> rw [hpc] at hp <;> cases l <;> simp only [call, reduceCtorEq] at n3 <;> simp only [Worker.step, hpc] at hw <;>
      (repeat' split at hw) <;> simp only [Option.some.injEq, reduceCtorEq] at hw <;> (try subst hw) <;> simp_all [doomed, owes]

/-- What a loop that can reach its end looks like. -/
def Over (c : Worker.Cfg κ) (r : Except (OpError χ) ο) (s : WSt κ ο χ) : Prop := ∃ ls s', wrun c s ls = some s' ∧ returned s'.w.pc ∧ ∀ l ∈ ls, l ∈ ownSteps r

theorem over_step {r : Except (OpError χ) ο} {l : Worker.Label κ ο χ} (w : Worker.St κ ο χ) (hl : .work l ∈ ownSteps r) (hs : Worker.step c s.w l = some w) (h : Over c r { s with w := w }) : Over c r s := by
  obtain ⟨ls, s', h1, h2, h3⟩ := h
  refine ⟨.work l :: ls, s', Lts.run_cons.2 ⟨_, ?_, h1⟩, h2, ?_⟩
  · simp only [ownSteps, List.mem_cons, List.not_mem_nil, WLabel.work.injEq, or_false] at hl
    rcases hl with rfl | rfl | rfl | rfl | rfl | rfl | rfl | rfl | rfl | rfl <;> simp [wstep, call, hs]
  · intro x hx
    rcases List.mem_cons.1 hx with rfl | hx
    · exact hl
    · exact h3 x hx

theorem over_now {r : Except (OpError χ) ο} (h : returned s.w.pc) : Over c r s := ⟨[], s, rfl, h, by simp⟩

theorem over_draining {r : Except (OpError χ) ο} (h : s.w.pc = .draining i k) : Over c r s :=
  over_step (l := .intStop) { s.w with pc := .stopped } (by simp [ownSteps]) (by simp [Worker.step, h]) (over_now trivial)

theorem over_interrupted {r : Except (OpError χ) ο} (h : s.w.pc = .interrupted i k) : Over c r s :=
  over_step (l := .intNackFail) { s.w with pc := .draining i k } (by simp [ownSteps]) (by simp [Worker.step, h]) (over_draining rfl)

theorem over_ok {r : Except (OpError χ) ο} (h : s.w.pc = .settleOk i k o a p) : Over c r s :=
  over_step (l := .settleFail) { s.w with pc := .errored } (by simp [ownSteps]) (by simp [Worker.step, h]) (over_now trivial)

theorem over_err {r : Except (OpError χ) ο} (h : s.w.pc = .settleErr i k e n p q) : Over c r s :=
  over_step (l := .settleFail) { s.w with pc := .errored } (by simp [ownSteps]) (by simp [Worker.step, h]) (over_now trivial)

theorem over_failing {r : Except (OpError χ) ο} (h : s.w.pc = .failing i k e) : Over c r s := by
  by_cases hm : Worker.marked s.w.term k = true
  · exact over_step (l := .mark) _ (by simp [ownSteps]) (by simp only [Worker.step, h, if_pos hm]; rfl) (over_err rfl)
  · exact over_step (l := .mark) _ (by simp [ownSteps]) (by simp only [Worker.step, h, if_neg hm]; rfl) (over_err rfl)

theorem over_running {r : Except (OpError χ) ο} (h : s.w.pc = .running i k n false) : Over c r s := by
  cases r with
  | ok o => exact over_step (l := .finish (.ok o)) _ (by simp [ownSteps]) (by simp only [Worker.step, h]; rfl) (over_ok rfl)
  | error e => exact over_step (l := .finish (.error e)) _ (by simp [ownSteps]) (by simp only [Worker.step, h]; rfl) (over_failing rfl)

theorem over_reading {r : Except (OpError χ) ο} (h : s.w.pc = .running i k n true) : Over c r s := by
  by_cases hm : s.w.watch.getLast? = some c.abortAll
  · exact over_step (l := .sigRead) _ (by simp [ownSteps]) (by simp only [Worker.step, h, if_pos hm]; rfl) (over_interrupted rfl)
  · exact over_step (l := .sigRead) _ (by simp [ownSteps]) (by simp only [Worker.step, h, if_neg hm]; rfl) (over_running rfl)

theorem over_starting {r : Except (OpError χ) ο} (h : s.w.pc = .starting i k) : Over c r s :=
  over_step (l := .start) { s.w with pc := .running i k 0 false, log := s.w.log ++ [.start i k s.w.now] } (by simp [ownSteps]) (by simp [Worker.step, h]) (over_running rfl)

theorem over_skipping {r : Except (OpError χ) ο} (h : s.w.pc = .skipping i k) : Over c r s :=
  over_step (l := .skipNackFail) { s.w with pc := .errored } (by simp [ownSteps]) (by simp [Worker.step, h]) (over_now trivial)

theorem over_checked {r : Except (OpError χ) ο} (h : s.w.pc = .checked i k) : Over c r s := by
  refine over_step (l := .checkTerm) { s.w with pc := if Worker.marked s.w.term k then .skipping i k else .starting i k } (by simp [ownSteps]) (by simp [Worker.step, h]) ?_
  split
  · exact over_skipping rfl
  · exact over_starting rfl

theorem over_got {r : Except (OpError χ) ο} (h : s.w.pc = .got i k) : Over c r s := by
  refine over_step (l := .checkFlag) { s.w with pc := if s.w.flag then .stopped else .checked i k } (by simp [ownSteps]) (by simp [Worker.step, h]) ?_
  split
  · exact over_now trivial
  · exact over_checked rfl

theorem silent_step {l : WLabel κ ο χ} (hd : s.str.conn = .down) (hw : s.w.pc = .waiting) (hh : ¬ s.str.hears) (he : ¬ s.str.ends) (hl : l ≠ .work .crash) (h : wstep c s l = some s') :
    s'.str.conn = .down ∧ s'.w.pc = .waiting ∧ ¬ s'.str.hears ∧ ¬ s'.str.ends := by
  cases l with
  | event e =>
    simp only [wstep, Option.map_eq_some_iff] at h
    obtain ⟨x, hx, -⟩ := h
    exact (down_event hd hx).elim
  | poll =>
    simp only [wstep, hw, true_and] at h
    split at h
    · rename_i ha
      have ha : s.str.asleep = false := by simpa using ha
      cases hi : s.str.items with
      | nil =>
        simp only [Str.poll, hi, Option.some.injEq] at h; subst h
        exact ⟨hd, hw, asleep_silent rfl⟩
      | cons i r =>
        cases i with
        | msg t => exact (hh ⟨ha, t, r, hi⟩).elim
        | fin => exact (he ⟨ha, r, hi⟩).elim
        | bad =>
          simp only [Str.poll, hi, Option.some.injEq] at h; subst h
          exact ⟨hd, hw, asleep_silent rfl⟩
        | err =>
          simp only [Str.poll, hi, Option.some.injEq] at h; subst h
          exact ⟨hd, hw, asleep_silent rfl⟩
    · cases h
  | work l =>
    obtain ⟨n1, n2, n3, w, hw', rfl⟩ := work_step h
    refine ⟨hd, ?_, hh, he⟩
    cases l <;> simp at n1 n2 hl <;> simp only [Worker.step, hw] at hw' <;> (repeat' split at hw') <;> simp only [Option.some.injEq, reduceCtorEq] at hw' <;> subst hw' <;> first | exact hw | rfl

end Notice
end Paladin
