import Verif.Proofs.Aftermath
import Verif.Props.AbortMem
/-!
# Property C86: what is left of the workers after a job has failed

A fatal error with `FatalStrategy::Terminate` fails one job, and publishes an abort-all command. Every worker that has heard the command is interrupted in the next task it starts, whenever that is: the receiver of each
task is a clone of one that has seen nothing (`runtime/mod.rs` 751), so the old command counts as a change. Vocabulary: `Verif/Spec/Aftermath.lean`, `Verif/Spec/SystemClients.lean`.
-/
namespace Paladin

namespace Worker
variable {κ ο χ : Type} [DecidableEq κ] {cfg : Cfg κ}

/-- **C86, the last task.** A worker that waits for a task and has heard an abort-all command starts at most one more task, and completes none, if no execution ends while a command is waiting that its `select!` has not looked at. -/
theorem C86_last_task (pre post : List (Label κ ο χ)) (v v' : St κ ο χ) (hpre : run cfg init pre = some v) (hpost : run cfg v post = some v') (hw : v.pc = .waiting) (hh : .hSend ∈ pre)
    (ha : ∀ k, .cmd k ∈ pre ++ post → k = cfg.abortAll)
    (hp : ∀ a r b u i k seen rd, post = a ++ .finish r :: b → run cfg v a = some u → u.pc = .running i k seen rd → seen = u.watch.length) :
    starts post ≤ 1 ∧ ∀ r, .finish r ∉ post := by
  have hclean : ∀ (ls : List (Label κ ο χ)) u, run cfg init ls = some u → (∀ k, .cmd k ∈ ls → k = cfg.abortAll) → Clean cfg u := by
    intro ls u h
    refine Lts.run_induction (P := fun ls (u : St κ ο χ) => (∀ k, .cmd k ∈ ls → k = cfg.abortAll) → Clean cfg u) ?_ ?_ ls u h
    · exact fun _ => clean_init
    · intro ls l u u' _ ih hst hk
      exact clean_step (ih fun k hm => hk k (by simp [hm])) (fun k e => hk k (by simp [e])) hst
  have hwatch : ∀ (ls : List (Label κ ο χ)) u, run cfg init ls = some u → .hSend ∈ ls → u.watch ≠ [] := by
    intro ls u h
    refine Lts.run_induction (P := fun ls (u : St κ ο χ) => .hSend ∈ ls → u.watch ≠ []) ?_ ?_ ls u h
    · intro h; simp at h
    · intro ls l u u' _ ih hst hk
      rcases List.mem_append.1 hk with hk | hk
      · exact (watch_step hst).1 (ih hk)
      · exact (watch_step hst).2 (List.mem_singleton.1 hk).symm
  have key : ∀ (ls : List (Label κ ο χ)) (u : St κ ο χ), run cfg v ls = some u → (∀ k, .cmd k ∈ ls → k = cfg.abortAll) →
      (∀ a r b u i k seen rd, ls = a ++ .finish r :: b → run cfg v a = some u → u.pc = .running i k seen rd → seen = u.watch.length) →
      (∀ r, .finish r ∉ ls) ∧ u.watch ≠ [] ∧ Spent (starts ls) u := by
    intro ls u h
    refine Lts.run_induction (P := fun ls (u : St κ ο χ) => (∀ k, .cmd k ∈ ls → k = cfg.abortAll) →
      (∀ a r b u i k seen rd, ls = a ++ .finish r :: b → run cfg v a = some u → u.pc = .running i k seen rd → seen = u.watch.length) →
      (∀ r, .finish r ∉ ls) ∧ u.watch ≠ [] ∧ Spent (starts ls) u) ?_ ?_ ls u h
    · intro _ _
      exact ⟨by simp, hwatch pre v hpre hh, by rw [Spent, hw]; rfl⟩
    · intro ls l u u' hr ih hst hk hp
      obtain ⟨ih1, ih2, ih3⟩ := ih (fun k hm => hk k (by simp [hm])) (by rintro a r b u i k seen rd rfl; exact hp a r (b ++ [l]) u i k seen rd (by simp))
      have hc : Clean cfg u := hclean (pre ++ ls) u (Lts.run_append.2 ⟨v, hpre, hr⟩) (fun k hm => by
        rcases List.mem_append.1 hm with hm | hm
        · exact ha k (by simp [hm])
        · exact hk k (by simp [hm]))
      have hlast : u.watch.getLast? = some cfg.abortAll := by
        rw [List.getLast?_eq_some_getLast ih2, hc.watch _ (List.getLast_mem ih2)]
      have hnf : ∀ r, l ≠ .finish r := by
        rintro r rfl
        simp only [step] at hst
        split at hst <;> simp only [Option.some.injEq, reduceCtorEq] at hst
        rename_i i k seen hpc
        simp only [Spent, hpc] at ih3
        have := hp ls r [] u i k seen false rfl hr hpc
        rw [ih3.2 trivial] at this
        exact ih2 (List.length_eq_zero_iff.1 this.symm)
      refine ⟨fun r hm => ?_, (watch_step hst).1 ih2, ?_⟩
      · rcases List.mem_append.1 hm with hm | hm
        · exact ih1 r hm
        · exact hnf r (List.mem_singleton.1 hm).symm
      · rw [starts_append]
        exact spent_step hlast ih3 hnf hst
  obtain ⟨h1, _, h3⟩ := key post v' hpost (fun k hm => ha k (by simp [hm])) hp
  exact ⟨h3.le, h1⟩

end Worker

namespace System
open Retry

section
variable {A B : Type} [DecidableEq A] [DecidableEq B] {α β : A → Type} {γ : B → Type} {T O ε χ ω : Type} {op : (a : A) → ω → α a → Except ε (β a)}
  {comb : (b : B) → ω → γ b → γ b → Except ε (γ b)} {empty : (b : B) → γ b} {dupErr : ε} {encM : (a : A) → Nat × α a → Option T} {decM : (a : A) → O → Except ε (Nat × β a)}
  {encF : (b : B) → Fold.CTask (γ b) → Option T} {decF : (b : B) → O → Except ε (Seg (γ b))} {cfg : Worker.Cfg (A ⊕ B)} {exec : ω → T → Except (OpError χ) O} {text : OpError χ → ε}

/-- **C86, no answers.** A job all of whose tasks are delivered to workers that have heard an abort-all command before: no worker ever publishes a result for one of them, neither a value nor an error. (If no task of the
job ends before its `select!` has looked at the waiting command.) -/
theorem C86_no_answer (j : A ⊕ B) (ls : List (Label (A ⊕ B) (DirLabel α γ ε ω) O χ ω)) (s : St (A ⊕ B) (DirSt α β γ ε) T O ε χ)
    (h : dirRun op comb empty dupErr encM decM encF decF cfg exec text ls = some s) (ha : OnlyAbortAll cfg ls)
    (hd : AfterAbort (dirs op comb empty dupErr encM decM encF decF) cfg exec text j ls) (hp : Prompt (dirs op comb empty dupErr encM decM encF decF) cfg exec text j ls) :
    s.results j = [] ∧ ∀ d ∈ s.dels, d.msg.key = j → d.answered = false := by
  refine silent_run ?_ ls s h ha hd hp
  cases j with
  | inl a => exact map_modest
  | inr b => exact fold_modest

/-- **C86, a later map.** Such a map, once it has read an input, never ends; it yields no value, and no error but those of its own leader's side. -/
theorem C86_later_map (a : A) (ls : List (Label (A ⊕ B) (DirLabel α γ ε ω) O χ ω)) (s : St (A ⊕ B) (DirSt α β γ ε) T O ε χ)
    (h : dirRun op comb empty dupErr encM decM encF decF cfg exec text ls = some s) (ha : OnlyAbortAll cfg ls)
    (hd : AfterAbort (dirs op comb empty dupErr encM decM encF decF) cfg exec text (.inl a) ls) (hp : Prompt (dirs op comb empty dupErr encM decM encF decF) cfg exec text (.inl a) ls) :
    (∀ r ∈ (mapOf s a).outs, ∃ e, r = .error e ∧ ∃ l ∈ mapSteps ls a, l.failure = some e) ∧
    ((∀ l ∈ mapSteps ls a, l.connected = true) → (mapOf s a).ended = true → MapS.inputs (mapSteps ls a) = []) := by
  have key : MapWaits (mapSteps ls a) (mapOf s a) := by
    revert ha hd hp
    refine Lts.run_induction (P := fun ls (s : St (A ⊕ B) (DirSt α β γ ε) T O ε χ) => OnlyAbortAll cfg ls → AfterAbort (dirs op comb empty dupErr encM decM encF decF) cfg exec text (.inl a) ls →
      Prompt (dirs op comb empty dupErr encM decM encF decF) cfg exec text (.inl a) ls → MapWaits (mapSteps ls a) (mapOf s a)) ?_ ?_ ls s h
    · exact fun _ _ _ => mapWaits_init
    · intro ls l s s' hr ih hst ha hd hp
      have ih := ih ha.init hd.init hp.init
      have hres := (C86_no_answer (.inl a) ls s hr ha.init hd.init hp.init).1
      have other : (∀ (x : MapS.Label (α a) ε ω), l ≠ .lead (.inl a) x) → s'.lead (.inl a) = s.lead (.inl a) → MapWaits (mapSteps (ls ++ [l]) a) (mapOf s' a) := by
        intro h1 h2
        have e : mapSteps (ls ++ [l]) a = mapSteps ls a := leads_other h1
        rw [e]
        have : mapOf s' a = mapOf s a := h2
        rw [this]; exact ih
      cases eff_of_step (inv_run hr) hst with
      | lead j l x ts rs h =>
        by_cases hj : j = .inl a
        · subst hj
          rw [hres] at h
          have e : mapSteps (ls ++ [Label.lead (.inl a) l]) a = mapSteps ls a ++ ([l] : List (MapS.Label (α a) ε ω)) := (mapSteps_append ..).trans (congrArg (mapSteps ls a ++ ·) (mapSteps_lead a l))
          rw [e]
          have : mapOf { s with lead := Function.update s.lead (.inl a) x, results := Function.update s.results (.inl a) rs, queue := s.queue ++ ts.map fun t => ⟨.inl a, t⟩ } a = x := by
            unfold mapOf; exact Function.update_self ..
          rw [this]
          exact mapWaits_step ih h
        · exact other (by rintro x hx; cases hx; exact hj rfl) (Function.update_of_ne (Ne.symm hj) ..)
      | _ => exact other (by rintro x ⟨⟩) rfl
  refine ⟨key.outs, fun hc he => ?_⟩
  have := (key.recvEnded (key.ended he) hc).2
  rw [key.pending] at this
  exact List.length_eq_zero_iff.1 (by exact_mod_cast this)

/-- **C86, a later fold.** Such a fold with two or more inputs returns no value; an error only of its own leader's side. -/
theorem C86_later_fold (b : B) (ls : List (Label (A ⊕ B) (DirLabel α γ ε ω) O χ ω)) (s : St (A ⊕ B) (DirSt α β γ ε) T O ε χ)
    (h : dirRun op comb empty dupErr encM decM encF decF cfg exec text ls = some s) (ha : OnlyAbortAll cfg ls)
    (hd : AfterAbort (dirs op comb empty dupErr encM decM encF decF) cfg exec text (.inr b) ls) (hp : Prompt (dirs op comb empty dupErr encM decM encF decF) cfg exec text (.inr b) ls) :
    (∀ v, (foldOf s b).outcome = some (.ok v) → (Fold.inputs (foldSteps ls b)).length ≤ 1) ∧
    ∀ e, (foldOf s b).outcome = some (.err e) → ∃ l ∈ foldSteps ls b, l.failure = some e := by
  have key : FoldWaits (foldSteps ls b) (foldOf s b) := by
    revert ha hd hp
    refine Lts.run_induction (P := fun ls (s : St (A ⊕ B) (DirSt α β γ ε) T O ε χ) => OnlyAbortAll cfg ls → AfterAbort (dirs op comb empty dupErr encM decM encF decF) cfg exec text (.inr b) ls →
      Prompt (dirs op comb empty dupErr encM decM encF decF) cfg exec text (.inr b) ls → FoldWaits (foldSteps ls b) (foldOf s b)) ?_ ?_ ls s h
    · exact fun _ _ _ => foldWaits_init
    · intro ls l s s' hr ih hst ha hd hp
      have ih := ih ha.init hd.init hp.init
      have hres := (C86_no_answer (.inr b) ls s hr ha.init hd.init hp.init).1
      have other : (∀ (x : Fold.Label (γ b) ε ω), l ≠ .lead (.inr b) x) → s'.lead (.inr b) = s.lead (.inr b) → FoldWaits (foldSteps (ls ++ [l]) b) (foldOf s' b) := by
        intro h1 h2
        have e : foldSteps (ls ++ [l]) b = foldSteps ls b := leads_other h1
        rw [e]
        have : foldOf s' b = foldOf s b := h2
        rw [this]; exact ih
      cases eff_of_step (inv_run hr) hst with
      | lead j l x ts rs h =>
        by_cases hj : j = .inr b
        · subst hj
          rw [hres] at h
          have e : foldSteps (ls ++ [Label.lead (.inr b) l]) b = foldSteps ls b ++ ([l] : List (Fold.Label (γ b) ε ω)) := (foldSteps_append ..).trans (congrArg (foldSteps ls b ++ ·) (foldSteps_lead b l))
          rw [e]
          have : foldOf { s with lead := Function.update s.lead (.inr b) x, results := Function.update s.results (.inr b) rs, queue := s.queue ++ ts.map fun t => ⟨.inr b, t⟩ } b = x := by
            unfold foldOf; exact Function.update_self ..
          rw [this]
          exact foldWaits_step ih h
        · exact other (by rintro x hx; cases hx; exact hj rfl) (Function.update_of_ne (Ne.symm hj) ..)
      | _ => exact other (by rintro x ⟨⟩) rfl
  exact ⟨key.ok, key.err⟩

end

section
variable {κ : Type} {σ ℓ : κ → Type} {T O ε χ ω : Type} [DecidableEq κ] {cl : (j : κ) → Client (σ j) (ℓ j) T (Except ε O)} {cfg : Worker.Cfg κ} {exec : ω → T → Except (OpError χ) O}
  {text : OpError χ → ε}

/-- **C86 (partial).** Missing: the failures that ask to terminate the job, for which the claim is false (`C86_witness`). As long as no worker publishes an abort-all command, and commands are only those sent, no worker hears
a command. (Then no task is lost on a worker's account: `C70_isolated_partial`.) -/
theorem C86_undisturbed_partial (ls : List (Label κ ℓ O χ ω)) (s : St κ σ T O ε χ) (h : run cl cfg exec text (init cl) ls = some s) (hs : commandsSent cfg false ls = true) (hp : ∀ l ∈ ls, l.abortsAll = false) (w : Nat) :
    ¬ Heard w ls ∧ ∀ i k, (s.worker w).pc ≠ .interrupted i k := by
  have hc := commands_false hs hp
  clear hs hp
  have key : ¬ Heard w ls ∧ Worker.Unheard (s.worker w) := by
    revert hc
    refine Lts.run_induction (P := fun ls (s : St κ σ T O ε χ) => (∀ w k, .work w (.cmd k) ∉ ls) → ¬ Heard w ls ∧ Worker.Unheard (s.worker w)) ?_ ?_ ls s h
    · exact fun _ => ⟨by simp [Heard], Worker.unheard_init⟩
    · intro ls l s s' hr ih hst hc
      obtain ⟨h1, h2⟩ := ih fun w k hm => hc w k (by simp [hm])
      refine ⟨fun hh => ?_, ?_⟩
      · have hm : Heard w ls ∨ l = .work w .hSend := by simpa [Heard, eq_comm] using hh
        rcases hm with hm | rfl
        · exact h1 hm
        · simp only [step] at hst
          split at hst <;> simp only [Option.some.injEq, reduceCtorEq] at hst
          exact (Worker.unheard_step h2 (by simp) (by assumption)).2 rfl
      · rcases worker_label hst w with e | ⟨wl, e, hwl⟩
        · rw [e]; exact h2
        · refine (Worker.unheard_step h2 ?_ e).1
          rintro k rfl
          rcases hwl with ⟨rfl, _⟩ | ⟨rfl, _⟩ | ⟨_, _, _, _, h⟩ | ⟨_, _, _, h⟩
          · exact hc w k (by simp)
          · exact hc w k (by simp)
          · cases h
          · cases h
  exact ⟨key.1, key.2.pc⟩

end
end System
namespace SystemMem
open Retry _root_.Paladin.System

section
variable {A B : Type} [DecidableEq A] [DecidableEq B] {α β : A → Type} {γ : B → Type} {T O ε χ ω : Type} {op : (a : A) → ω → α a → Except ε (β a)}
  {comb : (b : B) → ω → γ b → γ b → Except ε (γ b)} {empty : (b : B) → γ b} {dupErr : ε} {encM : (a : A) → Nat × α a → Option T} {decM : (a : A) → O → Except ε (Nat × β a)}
  {encF : (b : B) → Fold.CTask (γ b) → Option T} {decF : (b : B) → O → Except ε (Seg (γ b))} {cfg : Worker.Cfg (A ⊕ B)} {exec : ω → T → Except (OpError χ) O} {text : OpError χ → ε}

/-- **C86, a later map in one process.** The same on the in-memory queues. -/
theorem C86_memory_map (a : A) (ls : List (Label (A ⊕ B) (DirLabel α γ ε ω) O χ ω)) (s : St (A ⊕ B) (DirSt α β γ ε) T O ε χ)
    (h : memRun op comb empty dupErr encM decM encF decF cfg exec text ls = some s) (ha : OnlyAbortAll cfg (actions ls))
    (hd : AfterAbort (dirs op comb empty dupErr encM decM encF decF) cfg exec text (.inl a) (actions ls))
    (hp : Prompt (dirs op comb empty dupErr encM decM encF decF) cfg exec text (.inl a) (actions ls)) :
    (∀ r ∈ (mapOf s.sys a).outs, ∃ e, r = .error e ∧ ∃ l ∈ mapSteps (actions ls) a, l.failure = some e) ∧
    ((∀ l ∈ mapSteps (actions ls) a, l.connected = true) → (mapOf s.sys a).ended = true → MapS.inputs (mapSteps (actions ls) a) = []) :=
  C86_later_map a (actions ls) s.view (C79_refines ls s h).1 ha hd hp

/-- **C86, a later fold in one process.** -/
theorem C86_memory_fold (b : B) (ls : List (Label (A ⊕ B) (DirLabel α γ ε ω) O χ ω)) (s : St (A ⊕ B) (DirSt α β γ ε) T O ε χ)
    (h : memRun op comb empty dupErr encM decM encF decF cfg exec text ls = some s) (ha : OnlyAbortAll cfg (actions ls))
    (hd : AfterAbort (dirs op comb empty dupErr encM decM encF decF) cfg exec text (.inr b) (actions ls))
    (hp : Prompt (dirs op comb empty dupErr encM decM encF decF) cfg exec text (.inr b) (actions ls)) :
    (∀ v, (foldOf s.sys b).outcome = some (.ok v) → (Fold.inputs (foldSteps (actions ls) b)).length ≤ 1) ∧
    ∀ e, (foldOf s.sys b).outcome = some (.err e) → ∃ l ∈ foldSteps (actions ls) b, l.failure = some e :=
  C86_later_fold b (actions ls) s.view (C79_refines ls s h).1 ha hd hp

end

/-! ## Examples and the counterexample -/

namespace Demo
open System.Demo

/-- As `goM`, but under circumstance 9 the addition fails and asks to terminate the job. -/
abbrev goE (ls : List MLab) : Option (St (Unit ⊕ Bool) (DirSt (fun _ : Unit => String) (fun _ : Unit => String) (fun _ : Bool => Nat) String) Task Out String String) :=
  memRun op comb (fun _ => 0) "twice" (fun _ t => some (.inl t)) decM (fun _ t => some (.inr t)) decF cfg exec text ls

def hear (w : Nat) : List MLab := [.work w (.cmd (.inr false)), .work w .hMark, .work w .hSend]

/-- A fold fails on worker 0, its leader gets the error. The workers 0 and 1 hear the abort-all command. -/
def failed : List MLab :=
  [.taskPoll 0, .taskPoll 1, foldM (.item 0 3), foldM (.item 1 4), foldM (.publish 0), foldM .inputEnd, .taskRelease, .taskPoll 0, .deliver 0, .work 0 .checkFlag, .work 0 .checkTerm, .work 0 .start, .finish 0 9,
   .work 0 .mark, .work 0 .pubErr, .work 0 .pubAbort, .work 0 .nack, .work 0 .settled, .resRelease (.inr true), .resPoll (.inr true), .recv (.inr true) (.recv 0)] ++ hear 0 ++ hear 1

/-- Worker `w` is interrupted in the task it has got. -/
def eaten (w : Nat) : List MLab :=
  [.deliver w, .work w .checkFlag, .work w .checkTerm, .work w .start, .work w .sigPoll, .work w .sigRead, .work w .intNack, .work w .intStop]

/-- Then a map of three elements is started: each worker takes a task, rejects it and stops; nobody takes the third. -/
def later : List MLab :=
  [.taskPoll 0, mapM (.item 0 "a"), mapM (.item 1 "b"), mapM (.item 2 "c"), mapM (.send 0), mapM (.send 0), mapM (.send 0), .taskRelease, .taskRelease, .taskRelease, mapM .confirm, mapM .confirm, mapM .confirm,
   mapM .inputEnd, .taskPoll 1, .taskPoll 0] ++ eaten 1 ++ eaten 0 ++ [.resPoll (.inl ())]

def onlyAll (l : System.Label (Unit ⊕ Bool) (DirLabel (fun _ : Unit => String) (fun _ : Bool => Nat) String Nat) Out String Nat) : Bool :=
  match l with
  | .work _ (.cmd (.inr false)) => true
  | .work _ (.cmd _) => false
  | _ => true

theorem only_all {ls} (h : ∀ l ∈ ls, onlyAll l = true) : OnlyAbortAll cfg ls := by
  intro w k hm
  have := h _ hm
  rcases k with k | k
  · simp [onlyAll] at this
  · cases k
    · rfl
    · simp [onlyAll] at this

abbrev dirsE := dirs op comb (fun _ : Bool => 0) "twice" (fun (_ : Unit) t => some (Sum.inl t : Task)) decM (fun _ t => some (.inr t)) decF

/-- **C86, negation.** The fold fails, its leader has the error, no worker crashes, no broker call fails and the only commands are those sent. The map, whose operation never fails, is started after that. Its tasks are
delivered to the two workers, which have heard the command; both reject the task and stop without an answer. The third task stays in the queue, the map's leader in the semaphore of its result queue. (These are also the
hypotheses of `C86_no_answer`, `C86_later_map` and `C86_memory_map`.) -/
theorem C86_witness : ∃ s0 s, goE failed = some s0 ∧ (foldOf s0.sys true).outcome = some (.err "overflow") ∧ (s0.sys.worker 0).pc = .waiting ∧ (s0.sys.worker 1).pc = .waiting ∧
    MapS.inputs (mapSteps (actions failed) ()) = [] ∧
    goE (failed ++ later) = some s ∧ (∀ l ∈ actions (failed ++ later), l.noFault = true) ∧ commandsSent cfg false (actions (failed ++ later)) = true ∧
    OnlyAbortAll cfg (actions (failed ++ later)) ∧ AfterAbort dirsE cfg exec text (.inl ()) (actions (failed ++ later)) ∧ Prompt dirsE cfg exec text (.inl ()) (actions (failed ++ later)) ∧
    (∀ x u, ∃ v, op () x u = .ok v) ∧ (∀ l ∈ mapSteps (actions (failed ++ later)) (), l.connected = true) ∧
    (s.sys.worker 0).pc = .stopped ∧ (s.sys.worker 1).pc = .stopped ∧ (mapOf s.sys ()).outs = [] ∧ (mapOf s.sys ()).ended = false ∧ s.tq.msgs.length = 1 ∧ (s.rq (.inl ())).waiters = [0] := by
  refine ⟨_, _, rfl, rfl, rfl, rfl, rfl, rfl, by decide, by decide, only_all (by decide), afterAbort_of (by decide +kernel), prompt_of (by decide +kernel), fun _ _ => ⟨_, rfl⟩, by decide, rfl, rfl, rfl, rfl, rfl, rfl⟩

/-- Hypotheses of `C86_memory_fold` and `C86_later_fold`: both workers have heard an abort-all command, then a fold is started. -/
def laterFold : List MLab :=
  hear 0 ++ hear 1 ++ [.taskPoll 0, foldM (.item 0 3), foldM (.item 1 4), foldM (.publish 0), foldM .inputEnd, .taskRelease, .taskPoll 0] ++ eaten 0 ++ [.resPoll (.inr true)]

example : ∃ s, goE laterFold = some s ∧ OnlyAbortAll cfg (actions laterFold) ∧ AfterAbort dirsE cfg exec text (.inr true) (actions laterFold) ∧ Prompt dirsE cfg exec text (.inr true) (actions laterFold) ∧
    (Fold.inputs (foldSteps (actions laterFold) true)).length = 2 ∧ (foldOf s.sys true).outcome = none ∧ (s.sys.worker 0).pc = .stopped := by
  refine ⟨_, rfl, only_all (by decide), afterAbort_of (by decide +kernel), prompt_of (by decide +kernel), rfl, rfl, rfl⟩

/-- Hypotheses of `C86_undisturbed_partial`: the fold's task fails, but no abort-all command is published. -/
example : ∃ s, go gentle = some s ∧ commandsSent cfg false gentle = true ∧ (∀ l ∈ gentle, l.abortsAll = false) ∧ s.results (.inr true) = [.error "overflow"] :=
  ⟨_, rfl, by decide, by decide, rfl⟩

/-- Hypotheses of `C86_last_task`: the worker hears the command between two tasks and starts the next one; then it stops. -/
def before : List (Worker.Label Nat Nat String) :=
  [.deliver 7, .checkFlag, .checkTerm, .start, .finish (.ok 1), .pubOk, .ack, .settled, .cmd 0, .hMark, .hSend]

def after : List (Worker.Label Nat Nat String) := [.deliver 8, .checkFlag, .checkTerm, .start, .sigPoll, .sigRead, .intNack, .intStop]

example : ∃ v v', Worker.run ⟨0, 10⟩ Worker.init before = some v ∧ Worker.run ⟨0, 10⟩ v after = some v' ∧ v.pc = .waiting ∧ .hSend ∈ before ∧
    (∀ k, .cmd k ∈ before ++ after → k = 0) ∧
    (∀ a r b u i k seen rd, after = a ++ .finish r :: b → Worker.run ⟨0, 10⟩ v a = some u → u.pc = .running i k seen rd → seen = u.watch.length) ∧
    v'.pc = .stopped ∧ Worker.starts after = 1 := by
  refine ⟨_, _, rfl, rfl, rfl, by simp [before], by simp [before, after], fun a r b u i k seen rd h => ?_, rfl, rfl⟩
  have : Worker.Label.finish r ∈ after := h ▸ List.mem_append_right _ (List.mem_cons_self ..)
  simp [after] at this

end Demo
end SystemMem
end Paladin
