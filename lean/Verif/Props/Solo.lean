import Verif.Props.SystemMem
import Verif.Proofs.Solo
import Verif.Proofs.InOrder
/-!
# Property C97: with a single worker results come back in the order of the tasks

Vocabulary: `Verif/Spec/SystemMem.lean`. In one process, with one worker (`runtime/mod.rs` 164-195), a job's results reach its leader in the order in which its tasks were pushed to the task queue, whatever
other jobs run. With two workers this is false (`C97_two`).
-/
namespace Paladin
namespace SystemMem
open Retry Paladin.System

section
variable {A B : Type} [DecidableEq A] [DecidableEq B] {α β : A → Type} {γ : B → Type} {T O ε χ ω : Type} {op : (a : A) → ω → α a → Except ε (β a)}
  {comb : (b : B) → ω → γ b → γ b → Except ε (γ b)} {empty : (b : B) → γ b} {dupErr : ε} {encM : (a : A) → Nat × α a → Option T} {decM : (a : A) → O → Except ε (Nat × β a)}
  {encF : (b : B) → Fold.CTask (γ b) → Option T} {decF : (b : B) → O → Except ε (Seg (γ b))} {cfg : Worker.Cfg (A ⊕ B)} {exec : ω → T → Except (OpError χ) O} {text : OpError χ → ε}

/-- **C97, results.** Only worker `w` is handed tasks. Then, for every job `j`, the results its leader has received, followed by those waiting for it, are the outcomes of those of its tasks that were answered, one
each, in the order in which they were handed out. -/
theorem C97_results (w : Nat) (ls : List (Label (A ⊕ B) (DirLabel α γ ε ω) O χ ω)) (s : St (A ⊕ B) (DirSt α β γ ε) T O ε χ) (hw : ∀ w', .deliver w' ∈ ls → w' = w)
    (h : memRun op comb empty dupErr encM decM encF decF cfg exec text ls = some s) (j : A ⊕ B) :
    List.Forall₂ (fun t r => ∃ x, r = outcome exec text x t) (s.sys.dels.filterMap fun d => if d.msg.key = j ∧ d.answered = true then some d.msg.task else none)
      ((s.rq j).received.map Prod.snd ++ (s.rq j).msgs) :=
  (ord_run local_dirs hw h).ans j

/-- **C97, map.** Only worker `w` is handed tasks, and `ps` are the inputs of the map `a`, with their indices, in the order in which their tasks were pushed to the task queue (those handed out, then those
waiting). Then the values that the map has yielded so far are images of some of `ps` in the same order: no result overtakes another one. Inputs whose tasks failed, or are not done, are left out. -/
theorem C97_map (w : Nat) (a : A) (hf : MapFaithful exec text (op a) (encM a) (decM a)) (ls : List (Label (A ⊕ B) (DirLabel α γ ε ω) O χ ω)) (s : St (A ⊕ B) (DirSt α β γ ε) T O ε χ)
    (hw : ∀ w', .deliver w' ∈ ls → w' = w) (h : memRun op comb empty dupErr encM decM encF decF cfg exec text ls = some s) (ps : List (Nat × α a))
    (hp : List.Forall₂ (fun p t => encM a p = some t) ps (((s.sys.dels.map Del.msg ++ s.tq.msgs).filter fun m => m.key = .inl a).map Msg.task)) :
    ∃ qs, List.Sublist qs ps ∧ List.Forall₂ (fun p o => o.1 = p.1 ∧ ∃ x, op a x p.2 = .ok o.2) qs ((mapOf s.sys a).outs.filterMap Except.toOption) := by
  have ho := (ord_run local_dirs hw h).ans (.inl a)
  obtain ⟨qs, h1, h2⟩ := forall₂_sublist hp (answered_sublist (.inl a) s.sys.dels s.tq.msgs)
  have hg := got_run (a := a) local_dirs h
  obtain ⟨qs1, h3, h4⟩ := images hf h2 ho
  have hsub : List.Sublist ((mapOf s.sys a).outs.filterMap Except.toOption) (oks ((s.hist (.inl a)).map fun r => r.bind (decM a))) := by
    refine List.Sublist.trans hg ?_
    simp only [oks, St.hist, List.map_append, List.filterMap_append, List.map_map]
    exact List.sublist_append_left _ _
  obtain ⟨qs2, h5, h6⟩ := forall₂_sublist h4 hsub
  exact ⟨qs2, (h5.trans h3).trans h1, h6⟩

/-- **C97, map, all results.** If moreover the map has yielded as many values as tasks were pushed, then these are the images of all of `ps`, in order. -/
theorem C97_all (w : Nat) (a : A) (hf : MapFaithful exec text (op a) (encM a) (decM a)) (ls : List (Label (A ⊕ B) (DirLabel α γ ε ω) O χ ω)) (s : St (A ⊕ B) (DirSt α β γ ε) T O ε χ)
    (hw : ∀ w', .deliver w' ∈ ls → w' = w) (h : memRun op comb empty dupErr encM decM encF decF cfg exec text ls = some s) (ps : List (Nat × α a))
    (hp : List.Forall₂ (fun p t => encM a p = some t) ps (((s.sys.dels.map Del.msg ++ s.tq.msgs).filter fun m => m.key = .inl a).map Msg.task))
    (hn : ((mapOf s.sys a).outs.filterMap Except.toOption).length = ps.length) :
    List.Forall₂ (fun p o => o.1 = p.1 ∧ ∃ x, op a x p.2 = .ok o.2) ps ((mapOf s.sys a).outs.filterMap Except.toOption) := by
  obtain ⟨qs, h1, h2⟩ := C97_map w a hf ls s hw h ps hp
  obtain rfl := h1.eq_of_length (by rw [← hn, h2.length_eq])
  exact h2

/-- **C97, the order of the input.** Only worker `w` is handed tasks, the input of the map is `xs`, and of the publishes under way the oldest always goes first (in memory they are started in order, and each pushes
when it is first polled; `C97_publish_all`). Then the indices of the values yielded so far are strictly increasing; and if there is one for each element of `xs`, the values are the images of `xs`, in
order, without any sorting. -/
theorem C97_input (w : Nat) (a : A) (hf : MapFaithful exec text (op a) (encM a) (decM a)) (ls : List (Label (A ⊕ B) (DirLabel α γ ε ω) O χ ω)) (s : St (A ⊕ B) (DirSt α β γ ε) T O ε χ)
    (hw : ∀ w', .deliver w' ∈ ls → w' = w) (ho : ∀ k, .send k ∈ mapSteps (actions ls) a → k = 0) (h : memRun op comb empty dupErr encM decM encF decF cfg exec text ls = some s) (xs : List (α a))
    (hin : MapS.inputs (mapSteps (actions ls) a) = indexed 0 xs) :
    (((mapOf s.sys a).outs.filterMap Except.toOption).map Prod.fst).Pairwise (· < ·) ∧
      (((mapOf s.sys a).outs.filterMap Except.toOption).length = xs.length →
        List.Forall₂ (fun x o => ∃ c, op a c x = .ok o.2) xs ((mapOf s.sys a).outs.filterMap Except.toOption)) := by
  obtain ⟨hrun, hn, _⟩ := C79_refines ls s h
  have hk : ∀ w k, System.Label.deliver w k ∈ actions ls → k = 0 := by
    intro w k hm
    obtain ⟨l, _, hl⟩ := List.mem_filterMap.1 hm
    cases l <;> simp [Label.sys] at hl
    exact hl.2.symm
  obtain ⟨ps, rest, h1, h2, _⟩ := pushes_run hrun hk hn ho
  rw [hin] at h2
  obtain ⟨qs, h3, h4⟩ := C97_map w a hf ls s hw h ps h1
  have hsub : List.Sublist qs (indexed 0 xs) := h3.trans (h2 ▸ List.sublist_append_left _ _)
  have hfst : ((mapOf s.sys a).outs.filterMap Except.toOption).map Prod.fst = qs.map Prod.fst := fst_eq h4
  refine ⟨?_, fun hlen => ?_⟩
  · rw [hfst, List.pairwise_map]
    exact (Fold.pairwise_indexed 0 xs).sublist hsub
  · obtain rfl := hsub.eq_of_length (by rw [← h4.length_eq] at hlen; rw [hlen, Fold.length_indexed])
    rw [← Fold.map_snd_indexed 0 xs]
    rw [List.forall₂_map_left_iff]
    exact h4.imp fun _ _ h => h.2

end

/-! ## Hypotheses met, and two workers -/

namespace Demo
open System.Demo

/-- Two inputs; worker 0 executes both. -/
def solo : List MLab :=
  [.taskPoll 0, .resPoll (.inl ()), mapM (.item 0 "a"), mapM (.send 0), mapM (.item 1 "b"), mapM (.send 0), .taskRelease, .taskRelease, .taskPoll 0, .deliver 0] ++ serveM 0 (.inl ()) ++
  [.resPoll (.inl ()), .recv (.inl ()) (.recv 0), .resPoll (.inl ()), .taskPoll 0, .deliver 0] ++ serveM 0 (.inl ()) ++ [.resPoll (.inl ()), .recv (.inl ()) (.recv 0)]

/-- The hypotheses of `C97_map` are met, and the map has yielded two values, in order. -/
theorem C97_example : (goM solo).map (fun s => ((mapOf s.sys ()).outs.filterMap Except.toOption).map Prod.fst) = some [0, 1] ∧ (∀ w', .deliver w' ∈ solo → w' = 0) ∧
    (goM solo).map (fun s => (((s.sys.dels.map Del.msg ++ s.tq.msgs).filter fun m => m.key = .inl ()).map Msg.task)) = some [.inl (0, "a"), .inl (1, "b")] := by
  refine ⟨by decide +kernel, ?_, by decide +kernel⟩
  intro w' hw
  simp [solo, serveM] at hw
  omega

theorem C97_input_example : (∀ k, .send k ∈ mapSteps (actions solo) () → k = 0) ∧ MapS.inputs (mapSteps (actions solo) ()) = indexed 0 ["a", "b"] := by
  have e : mapSteps (actions solo) () = [.item 0 "a", .send 0, .item 1 "b", .send 0, .recv 0, .recv 0] := rfl
  rw [e]
  exact ⟨by simp, rfl⟩

/-- Two inputs; each of the workers 0 and 1 is handed one, and worker 1 is done first. -/
def duo : List MLab :=
  [.taskPoll 0, .taskPoll 1, .resPoll (.inl ()), mapM (.item 0 "a"), mapM (.send 0), mapM (.item 1 "b"), mapM (.send 0), .taskRelease, .taskRelease, .taskPoll 0, .taskPoll 1, .deliver 0, .deliver 1] ++
  serveM 1 (.inl ()) ++ [.resPoll (.inl ()), .recv (.inl ()) (.recv 0), .resPoll (.inl ())] ++ serveM 0 (.inl ()) ++ [.resPoll (.inl ()), .recv (.inl ()) (.recv 0)]

/-- **With two workers results overtake each other:** the tasks were pushed in the order 0, 1, and the values come in the order 1, 0. -/
theorem C97_two : (goM duo).map (fun s => ((mapOf s.sys ()).outs.filterMap Except.toOption).map Prod.fst) = some [1, 0] ∧
    (goM duo).map (fun s => (((s.sys.dels.map Del.msg ++ s.tq.msgs).filter fun m => m.key = .inl ()).map Msg.task)) = some [.inl (0, "a"), .inl (1, "b")] := by
  decide +kernel

end Demo
end SystemMem
end Paladin
