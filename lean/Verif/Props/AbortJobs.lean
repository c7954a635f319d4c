import Verif.Props.Abort
/-!
# Property C82 for maps and folds of any kind

`Verif/Props/Abort.lean` treats the example program; here are any maps and folds, of any operations that fail only when they find the abort signal set, side by side on the same workers.
-/
namespace Paladin
namespace System
open Retry

section
variable {A B : Type} [DecidableEq A] [DecidableEq B] {α β : A → Type} {γ : B → Type} {T O ε χ ω : Type} {op : (a : A) → ω → α a → Except ε (β a)}
  {comb : (b : B) → ω → γ b → γ b → Except ε (γ b)} {empty : (b : B) → γ b} {dupErr : ε} {encM : (a : A) → Nat × α a → Option T} {decM : (a : A) → O → Except ε (Nat × β a)}
  {encF : (b : B) → Fold.CTask (γ b) → Option T} {decF : (b : B) → O → Except ε (Seg (γ b))} {cfg : Worker.Cfg (A ⊕ B)} {exec : ω → T → Except (OpError χ) O} {text : OpError χ → ε}

/-- **C82, an aborted map does not end.** A map whose operation fails only on seeing the abort signal; an abort-all command interrupts a worker in one of its tasks, and the worker rejects the task. Then, as long as the map's own
connections work and no delivery of its tasks is returned to the queue, the mapped stream does not end, and none of its errors is that of an operation. -/
theorem C82_map_hangs (a : A) (hf : MapFaithful exec text (op a) (encM a) (decM a)) (sees : ω → Prop) (hop : ∀ x u, ¬ sees x → ∃ v, op a x u = .ok v)
    (pre post : List (Label (A ⊕ B) (DirLabel α γ ε ω) O χ ω)) (s1 s : St (A ⊕ B) (DirSt α β γ ε) T O ε χ) (w i : Nat)
    (h1 : dirRun op comb empty dupErr encM decM encF decF cfg exec text pre = some s1) (hpc : (s1.worker w).pc = .interrupted i (.inl a))
    (h : dirRun op comb empty dupErr encM decM encF decF cfg exec text (pre ++ .work w .intNack :: post) = some s)
    (ht : Truthful (dirs op comb empty dupErr encM decM encF decF) cfg exec text sees (pre ++ .work w .intNack :: post)) (hn : NoReturn (.inl a) s)
    (hc : ∀ l ∈ mapSteps (pre ++ .work w .intNack :: post) a, l.connected = true) :
    (mapOf s a).ended = false ∧ ∀ e ∈ MapS.errs (mapOf s a).outs, ∃ l ∈ mapSteps (pre ++ .work w .intNack :: post) a, l.failure = some e := by
  obtain ⟨s1', g1, g2⟩ := Lts.run_append.1 h
  obtain rfl : s1 = s1' := Option.some.inj (h1.symm.trans g1)
  refine ⟨C74_map_loss a hf _ [] s s h rfl (C82_lost pre post s1 s w i _ h1 hpc g2 hn) hn (by simpa using hc), fun e he => ?_⟩
  rcases C74_map_own_errors a hf _ s h e he with g | ⟨w', x, p, g3, -, g4⟩
  · exact g
  · obtain ⟨v, hv⟩ := hop x p.2 (C82_unseen sees _ s h ht w' x g3)
    rw [hv] at g4; cases g4

/-- **C82, an aborted fold does not return.** A fold whose operation fails only on seeing the abort signal, interrupted in the same way: as long as no delivery of its tasks is returned to the queue (and the input has no index twice), it returns no value, and an
error only if its own connection or runtime failed. -/
theorem C82_fold_hangs (b : B) (hf : FoldFaithful exec text (comb b) (encF b) (decF b)) (sees : ω → Prop) (hop : ∀ x u v, ¬ sees x → ∃ r, comb b x u v = .ok r)
    (pre post : List (Label (A ⊕ B) (DirLabel α γ ε ω) O χ ω)) (s1 s : St (A ⊕ B) (DirSt α β γ ε) T O ε χ) (w i : Nat)
    (h1 : dirRun op comb empty dupErr encM decM encF decF cfg exec text pre = some s1) (hpc : (s1.worker w).pc = .interrupted i (.inr b))
    (h : dirRun op comb empty dupErr encM decM encF decF cfg exec text (pre ++ .work w .intNack :: post) = some s)
    (ht : Truthful (dirs op comb empty dupErr encM decM encF decF) cfg exec text sees (pre ++ .work w .intNack :: post)) (hn : NoReturn (.inr b) s)
    (hnd : ((Fold.inputs (foldSteps (pre ++ .work w .intNack :: post) b)).map (·.1)).Nodup) (o : Fold.Outcome (γ b) ε) (ho : (foldOf s b).outcome = some o) :
    o = .panic ∨ ∃ e, o = .err e ∧ ∃ l ∈ foldSteps (pre ++ .work w .intNack :: post) b, l.failure = some e := by
  obtain ⟨s1', g1, g2⟩ := Lts.run_append.1 h
  obtain rfl : s1 = s1' := Option.some.inj (h1.symm.trans g1)
  cases o with
  | panic => exact .inl rfl
  | ok v => exact absurd ho (C74_fold_loss b hf _ [] s s h rfl (C82_lost pre post s1 s w i _ h1 hpc g2 hn) hn v)
  | err e =>
    refine .inr ⟨e, rfl, ?_⟩
    rcases C74_fold_own_errors b hf _ s h e ho with g | ⟨w', x, -, -, -, u, v, g3, -, -, -, g4⟩ | ⟨-, g⟩
    · exact g
    · obtain ⟨r, hr⟩ := hop x u v (C82_unseen sees _ s h ht w' x g3)
      rw [hr] at g4; cases g4
    · exact absurd ⟨hn, hnd⟩ g
end

/-! ## Examples -/

namespace Demo

/-- A map of one element and a fold of two; worker 1 has the map's task and worker 0 the fold's when an abort-all command reaches both. -/
def struck : List Lab :=
  [mapL (.item 0 "a"), mapL (.send 0), mapL .confirm, mapL .inputEnd, foldL (.item 0 3), foldL (.item 1 4), foldL (.publish 0), foldL .inputEnd, .deliver 0 1, .deliver 1 0,
   .work 0 .checkFlag, .work 0 .checkTerm, .work 0 .start, .work 1 .checkFlag, .work 1 .checkTerm, .work 1 .start, .work 0 (.cmd (.inr false)), .work 0 .hMark, .work 0 .hSend, .work 0 .sigPoll, .work 0 .sigRead,
   .work 1 (.cmd (.inr false)), .work 1 .hMark, .work 1 .hSend, .work 1 .sigPoll, .work 1 .sigRead]

def setsFlag' : Lab → Bool
  | .work _ .setFlag => true
  | _ => false
def finishes : Lab → Bool
  | .finish _ _ => true
  | _ => false

theorem struck_truth (l : List Lab) (hl : ∀ x ∈ l, setsFlag' x = false ∧ finishes x = false) :
    Truthful (dirs op comb (fun _ => 0) "twice" (fun _ t => some (.inl t)) decM (fun _ t => some (.inr t)) decF) cfg exec text (fun x => x = 9) l where
  readOnly w h := by have := (hl _ h).1; simp [setsFlag'] at this
  reads pre w x post s hls _ _ := by
    have := (hl (.finish w x) (hls ▸ List.mem_append_right _ (List.mem_cons_self ..))).2
    simp [finishes] at this

/-- Hypotheses of `C82_map_hangs` and `C82_fold_hangs`: both workers are interrupted (the addition fails under circumstance 9, on seeing the signal), reject their tasks and stop; map and fold wait for ever. -/
example : ∃ s1 s, go struck = some s1 ∧ (s1.worker 1).pc = .interrupted 0 (.inl ()) ∧ (s1.worker 0).pc = .interrupted 0 (.inr true) ∧
    go (struck ++ .work 1 .intNack :: [.work 0 .intNack, .work 0 .intStop, .work 1 .intStop]) = some s ∧
    (∀ x u, ¬ x = 9 → ∃ v, op () x u = .ok v) ∧ (∀ x u v, ¬ x = 9 → ∃ r, comb true x u v = .ok r) ∧
    Truthful (dirs op comb (fun _ => 0) "twice" (fun _ t => some (.inl t)) decM (fun _ t => some (.inr t)) decF) cfg exec text (fun x => x = 9)
      (struck ++ .work 1 .intNack :: [.work 0 .intNack, .work 0 .intStop, .work 1 .intStop]) ∧
    NoReturn (.inl ()) s ∧ NoReturn (.inr true) s ∧
    ((Fold.inputs (foldSteps (struck ++ .work 1 .intNack :: [.work 0 .intNack, .work 0 .intStop, .work 1 .intStop]) true)).map (·.1)).Nodup := by
  refine ⟨_, _, rfl, rfl, rfl, rfl, fun _ _ _ => ⟨_, rfl⟩, fun x u v h => ⟨u + v, by simp [comb, h]⟩, struck_truth _ (by decide), ?_, ?_, by decide⟩
  · unfold NoReturn; decide
  · unfold NoReturn; decide
end Demo
end System
end Paladin
