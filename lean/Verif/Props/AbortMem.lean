import Verif.Props.AbortJobs
import Verif.Props.SystemMem
/-!
# Property C82 on the in-memory queues

In one process (`Runtime::in_memory`) nothing is ever redelivered: the in-memory acker does nothing (`acker.rs` 149-168). So here an aborted job waits for ever, unconditionally.
-/
namespace Paladin
namespace SystemMem
open Retry System

section
variable {A B : Type} [DecidableEq A] [DecidableEq B] {α β : A → Type} {γ : B → Type} {T O ε χ ω : Type} {op : (a : A) → ω → α a → Except ε (β a)}
  {comb : (b : B) → ω → γ b → γ b → Except ε (γ b)} {empty : (b : B) → γ b} {dupErr : ε} {encM : (a : A) → Nat × α a → Option T} {decM : (a : A) → O → Except ε (Nat × β a)}
  {encF : (b : B) → Fold.CTask (γ b) → Option T} {decF : (b : B) → O → Except ε (Seg (γ b))} {cfg : Worker.Cfg (A ⊕ B)} {exec : ω → T → Except (OpError χ) O} {text : OpError χ → ε}

/-- **C82, an aborted map does not end, in memory.** A map whose operation fails only on seeing the abort signal; a command interrupts a worker in one of its tasks, and the worker rejects the task. Then the mapped stream
never ends, whatever else happens, and none of its errors is that of an operation. -/
theorem C82_memory_map (a : A) (hf : MapFaithful exec text (op a) (encM a) (decM a)) (sees : ω → Prop) (hop : ∀ x u, ¬ sees x → ∃ v, op a x u = .ok v)
    (pre post : List (Label (A ⊕ B) (DirLabel α γ ε ω) O χ ω)) (s1 s : St (A ⊕ B) (DirSt α β γ ε) T O ε χ) (w i : Nat)
    (h1 : memRun op comb empty dupErr encM decM encF decF cfg exec text pre = some s1) (hpc : (s1.sys.worker w).pc = .interrupted i (.inl a))
    (h : memRun op comb empty dupErr encM decM encF decF cfg exec text (pre ++ .work w .intNack :: post) = some s)
    (ht : Truthful (dirs op comb empty dupErr encM decM encF decF) cfg exec text sees (actions (pre ++ .work w .intNack :: post)))
    (hc : ∀ l ∈ mapSteps (actions (pre ++ .work w .intNack :: post)) a, l.connected = true) :
    (mapOf s.sys a).ended = false ∧ ∀ e ∈ MapS.errs (mapOf s.sys a).outs, ∃ l ∈ mapSteps (actions (pre ++ .work w .intNack :: post)) a, l.failure = some e := by
  have e : actions (pre ++ .work w .intNack :: post) = actions pre ++ .work w .intNack :: actions post := by simp [actions, Label.sys, List.filterMap_append]
  obtain ⟨g, -, gn, -⟩ := C79_refines _ s h
  rw [e] at g ht hc ⊢
  exact C82_map_hangs a hf sees hop (actions pre) (actions post) s1.view s.view w i (C79_refines pre s1 h1).1 hpc g ht (gn _) hc

/-- **C82, an aborted fold does not return, in memory.** A fold whose operation fails only on seeing the abort signal, interrupted in the same way, returns no value, and an error only if its own channel failed. -/
theorem C82_memory_fold (b : B) (hf : FoldFaithful exec text (comb b) (encF b) (decF b)) (sees : ω → Prop) (hop : ∀ x u v, ¬ sees x → ∃ r, comb b x u v = .ok r)
    (pre post : List (Label (A ⊕ B) (DirLabel α γ ε ω) O χ ω)) (s1 s : St (A ⊕ B) (DirSt α β γ ε) T O ε χ) (w i : Nat)
    (h1 : memRun op comb empty dupErr encM decM encF decF cfg exec text pre = some s1) (hpc : (s1.sys.worker w).pc = .interrupted i (.inr b))
    (h : memRun op comb empty dupErr encM decM encF decF cfg exec text (pre ++ .work w .intNack :: post) = some s)
    (ht : Truthful (dirs op comb empty dupErr encM decM encF decF) cfg exec text sees (actions (pre ++ .work w .intNack :: post)))
    (hnd : ((Fold.inputs (foldSteps (actions (pre ++ .work w .intNack :: post)) b)).map (·.1)).Nodup) (o : Fold.Outcome (γ b) ε) (ho : (foldOf s.sys b).outcome = some o) :
    o = .panic ∨ ∃ e, o = .err e ∧ ∃ l ∈ foldSteps (actions (pre ++ .work w .intNack :: post)) b, l.failure = some e := by
  have e : actions (pre ++ .work w .intNack :: post) = actions pre ++ .work w .intNack :: actions post := by simp [actions, Label.sys, List.filterMap_append]
  obtain ⟨g, -, gn, -⟩ := C79_refines _ s h
  rw [e] at g ht hnd ⊢
  exact C82_fold_hangs b hf sees hop (actions pre) (actions post) s1.view s.view w i (C79_refines pre s1 h1).1 hpc g ht (gn _) hnd o ho

end

/-! ## Examples -/

namespace Demo
open System.Demo

/-- A map of one element and a fold of two; the worker 0 has the map's task and the worker 1 the fold's when an abort-all command reaches both. -/
def struckM : List MLab :=
  [.taskPoll 0, .taskPoll 1, mapM (.item 0 "a"), mapM (.send 0), mapM .confirm, mapM .inputEnd, foldM (.item 0 3), foldM (.item 1 4), foldM (.publish 0), foldM .inputEnd, .taskRelease, .taskRelease,
   .taskPoll 0, .taskPoll 1, .deliver 0, .deliver 1, .work 0 .checkFlag, .work 0 .checkTerm, .work 0 .start, .work 1 .checkFlag, .work 1 .checkTerm, .work 1 .start, .work 0 (.cmd (.inr false)), .work 0 .hMark,
   .work 0 .hSend, .work 0 .sigPoll, .work 0 .sigRead, .work 1 (.cmd (.inr false)), .work 1 .hMark, .work 1 .hSend, .work 1 .sigPoll, .work 1 .sigRead]
def afterM : List MLab := [.work 1 .intNack, .work 0 .intStop, .work 1 .intStop, .resPoll (.inl ()), .resPoll (.inr true)]

/-- Hypotheses of `C82_memory_map` and `C82_memory_fold`: both workers are interrupted, reject their tasks and stop; the leaders of the map and of the fold wait in the semaphores of their result queues. -/
theorem C82_memory_hang_witness : ∃ s1 s, goM struckM = some s1 ∧ (s1.sys.worker 0).pc = .interrupted 0 (.inl ()) ∧ (s1.sys.worker 1).pc = .interrupted 0 (.inr true) ∧
    goM (struckM ++ .work 0 .intNack :: afterM) = some s ∧
    Truthful (dirs op comb' (fun _ => 0) "twice" (fun _ t => some (.inl t)) decM (fun _ t => some (.inr t)) decF) cfg exec' text (fun x => x = 9) (actions (struckM ++ .work 0 .intNack :: afterM)) ∧
    (∀ x u, ¬ x = 9 → ∃ v, op () x u = .ok v) ∧ (∀ x u v, ¬ x = 9 → ∃ r, comb' true x u v = .ok r) ∧
    (∀ l ∈ mapSteps (actions (struckM ++ .work 0 .intNack :: afterM)) (), l.connected = true) ∧
    ((Fold.inputs (foldSteps (actions (struckM ++ .work 0 .intNack :: afterM)) true)).map (·.1)).Nodup ∧
    s.tq.msgs = [] ∧ (s.rq (.inl ())).waiters = [0] ∧ (s.rq (.inr true)).waiters = [0] ∧ (mapOf s.sys ()).ended = false ∧ (foldOf s.sys true).outcome = none := by
  refine ⟨_, _, rfl, rfl, rfl, rfl, ?_, fun _ _ _ => ⟨_, rfl⟩, fun x u v h => ⟨u + v, rfl⟩, by decide, by decide, rfl, rfl, rfl, rfl, rfl⟩
  have key : ∀ x ∈ actions (struckM ++ .work 0 .intNack :: afterM), setsFlag' x = false ∧ finishes x = false := by decide
  exact ⟨fun w h => by have := (key _ h).1; simp [setsFlag'] at this, fun pre w x post s hls _ _ => by
    have := (key (.finish w x) (hls ▸ List.mem_append_right _ (List.mem_cons_self ..))).2
    simp [finishes] at this⟩

end Demo
end SystemMem
end Paladin
