import Verif.Props.System
import Verif.Proofs.SystemLoss
/-!
# Properties C69, C70: how tasks get lost, and whether the failure of one job hurts the others

Vocabulary: `Verif/Spec/System.lean`. A delivery is lost when the broker has forgotten it and no result was or will be published for it; the leader then waits for ever
(C08, C14).
-/
namespace Paladin
namespace System
open Retry

section
variable {κ : Type} {σ ℓ : κ → Type} {T O ε χ ω : Type} [DecidableEq κ] {cl : (j : κ) → Client (σ j) (ℓ j) T (Except ε O)} {cfg : Worker.Cfg κ} {exec : ω → T → Except (OpError χ) O}
  {text : OpError χ → ε}

/-- **C69.** In any execution a step makes delivery `n` lost if and only if it is one of: the rejection of a task whose job the worker holds for terminated, the rejection of
a task whose execution an abort-all command interrupted, the rejection of a task that failed with an error to be ignored, or the death of the worker or the failure of a
broker call between the acknowledgement (or rejection) and the publication of the result. -/
theorem C69_exact (ls : List (Label κ ℓ O χ ω)) (s s' : St κ σ T O ε χ) (l : Label κ ℓ O χ ω) (h : run cl cfg exec text (init cl) ls = some s)
    (hst : step cl cfg exec text s l = some s') (n : Nat) (d d' : Del κ T) (hd : s.dels[n]? = some d) (hd' : s'.dels[n]? = some d') (hn : ¬ Lost s n d) :
    Lost s' n d' ↔ Loses s n d l := by
  obtain ⟨hi, h2⟩ := inv2_run h
  exact lost_eff hi h2 (eff_of_step hi hst) hd hd' hn

/-- A new delivery is not lost. -/
theorem C69_new (ls : List (Label κ ℓ O χ ω)) (s s' : St κ σ T O ε χ) (l : Label κ ℓ O χ ω) (h : run cl cfg exec text (init cl) ls = some s)
    (hst : step cl cfg exec text s l = some s') (n : Nat) (d' : Del κ T) (hn : s.dels.length ≤ n) (hd' : s'.dels[n]? = some d') : ¬ Lost s' n d' := by
  obtain ⟨hi, h2⟩ := inv2_run h
  intro hl
  have := (new_held (eff_of_step hi hst) hn hd').1
  rw [hl.1] at this
  simp at this

/-- Lost is lost: no continuation publishes a result for the delivery or returns it to the queue. -/
theorem C69_forever (ls ls' : List (Label κ ℓ O χ ω)) (s s' : St κ σ T O ε χ) (h : run cl cfg exec text (init cl) ls = some s) (h' : run cl cfg exec text s ls' = some s')
    (n : Nat) (d : Del κ T) (hd : s.dels[n]? = some d) (hl : Lost s n d) : ∃ d', s'.dels[n]? = some d' ∧ d'.msg = d.msg ∧ Lost s' n d' := by
  induction ls' generalizing s ls d with
  | nil => cases h'; exact ⟨d, hd, rfl, hl⟩
  | cons l ls' ih =>
    obtain ⟨s1, h1, h2⟩ := Lts.run_cons.1 h'
    have hi := inv_run h
    obtain ⟨d1, e1, e2, _, e4⟩ := del_mono hi (eff_of_step hi h1) hd
    obtain ⟨d2, g1, g2, g3⟩ := ih (ls ++ [l]) s1 (Lts.run_snoc.2 ⟨s, h, h1⟩) h2 d1 e1 (e4 hl)
    exact ⟨d2, g1, g2.trans e2, g3⟩

/-- **C69, nothing gets lost by itself.** If no execution of a task of job `j` fails, no worker dies, no broker call fails between executing and publishing, and no worker is told to
abort job `j` or everything, then no delivery of job `j` is lost. -/
theorem C69_calm (ls : List (Label κ ℓ O χ ω)) (s : St κ σ T O ε χ) (j : κ) (h : run cl cfg exec text (init cl) ls = some s) (hc : ∀ l ∈ ls, l.calm cfg j = true)
    (hf : NeverFails exec j s) : NoLoss j s := (calm_run h hc hf).2

theorem commands_false {ls : List (Label κ ℓ O χ ω)} (h : commandsSent cfg false ls = true) (hp : ∀ l ∈ ls, l.abortsAll = false) : ∀ w k, .work w (.cmd k) ∉ ls := by
  induction ls with
  | nil => simp
  | cons l ls ih =>
    have hp' := fun l hl => hp l (List.mem_cons_of_mem _ hl)
    have hl := hp l (by simp)
    intro w k hm
    unfold commandsSent at h
    split at h
    · simp_all
    · simp at h
    · rename_i heq
      cases heq
      simp [Label.abortsAll] at hl
    · rename_i hne _ heq
      cases heq
      rcases List.mem_cons.1 hm with e | hm
      · exact hne _ _ e.symm
      · exact ih h hp' w k hm

/-- **C70 (partial).** Missing: failures that ask to terminate the job, for which the claim is false (`C70_witness`). Whatever the executions of other jobs return, as long as none fails
with an error that asks for termination: a job of which no execution fails loses no task. -/
theorem C70_isolated_partial (ls : List (Label κ ℓ O χ ω)) (s : St κ σ T O ε χ) (j : κ) (h : run cl cfg exec text (init cl) ls = some s) (hn : ∀ l ∈ ls, l.noFault = true)
    (hs : commandsSent cfg false ls = true) (hp : ∀ l ∈ ls, l.abortsAll = false) (hf : NeverFails exec j s) : NoLoss j s := by
  refine C69_calm ls s j h (fun l hl => ?_) hf
  have h1 := hn l hl
  unfold Label.calm
  split <;> simp_all [Label.noFault]
  exact absurd hl (commands_false hs hp _ _)

end

/-! ## Examples and the counterexample -/

namespace Demo

/-- The map's task runs on worker 1 when the fold's fails on worker 0, which publishes the error and an abort-all command. Worker 1 gets the command, rejects the map's task and stops. -/
def hurt : List Lab :=
  [mapL (.item 0 "a"), mapL (.send 0), mapL .confirm, foldL (.item 0 3), foldL (.item 1 4), foldL (.publish 0), foldL .inputEnd, .deliver 0 1, .deliver 1 0,
   .work 0 .checkFlag, .work 0 .checkTerm, .work 0 .start, .work 1 .checkFlag, .work 1 .checkTerm, .work 1 .start, .finish 0 9, .work 0 .mark, .work 0 .pubErr, .work 0 .pubAbort,
   .work 1 (.cmd (.inr false)), .work 1 .hMark, .work 1 .hSend, .work 1 .sigPoll, .work 1 .sigRead, .work 1 .intNack]

/-- The map's task. -/
def mapTask : Msg (Unit ⊕ Bool) Task := ⟨.inl (), .inl (0, "a")⟩

theorem never_fails {σ : Unit ⊕ Bool → Type} {s : St (Unit ⊕ Bool) σ Task Out String String} (h : ∀ d ∈ s.dels, d.msg.key = .inl () → d.msg.task.isLeft = true) :
    NeverFails exec (.inl ()) s := by
  intro d hd hj x e
  have := h d hd hj
  cases ht : d.msg.task with
  | inl p => simp [exec]
  | inr t => simp [ht] at this

/-- **C70, negation.** No execution of the map's operation fails, no worker dies, no broker call fails and commands are only those sent; yet the map's task is lost. -/
theorem C70_witness : ∃ s, go hurt = some s ∧ (∀ l ∈ hurt, l.noFault = true) ∧ commandsSent cfg false hurt = true ∧ NeverFails exec (.inl ()) s ∧ ¬ NoLoss (.inl ()) s := by
  refine ⟨_, rfl, by decide, by decide, ?_, ?_⟩
  · exact never_fails (by decide)
  · intro h
    exact h 1 ⟨1, mapTask, .settled, false⟩ rfl rfl ⟨rfl, rfl, by decide⟩

/-- Hypotheses of `C69_calm` and `C70_isolated_partial`: met by the execution `demo` without its crash, and by one in which the fold fails but before the command is published. -/
def gentle : List Lab := hurt.take 18 ++ [.work 0 .nack, .finish 1 0, .work 1 .pubOk, .work 1 .ack, .work 1 .settled]

example : ∃ s, go gentle = some s ∧ (∀ l ∈ gentle, l.noFault = true) ∧ (∀ l ∈ gentle, l.calm cfg (.inl ()) = true) ∧ commandsSent cfg false gentle = true ∧
    (∀ l ∈ gentle, l.abortsAll = false) ∧ NeverFails exec (.inl ()) s ∧ s.results (.inl ()) = [.ok (.inl (0, "a!"))] ∧ s.results (.inr true) = [.error "overflow"] := by
  refine ⟨_, rfl, by decide, by decide, by decide, by decide, ?_, rfl, rfl⟩
  exact never_fails (by decide)

/-- Hypotheses of `C69_exact` and `C69_forever`: the last step of `hurt` loses delivery 1. -/
example : ∃ s s', go (hurt.take 24) = some s ∧ go hurt = some s' ∧ Loses s 1 ⟨1, mapTask, .held, false⟩ (.work 1 .intNack : Lab) ∧
    Lost s' 1 ⟨1, mapTask, .settled, false⟩ := by
  refine ⟨_, _, rfl, rfl, ⟨.intNack, rfl, rfl, WhyLost.interrupted 0 (Sum.inl ()) rfl⟩, rfl, rfl, by decide⟩

end Demo

end System
end Paladin
