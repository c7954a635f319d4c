import Verif.Proofs.AftermathAmqp
import Verif.Props.Aftermath
import Verif.Props.SystemAmqp
/-!
# Property C86 on an AMQP broker

As in `Verif/Props/Aftermath.lean`, for leaders and workers in their own processes connected to a broker. Vocabulary: `Verif/Spec/AftermathAmqp.lean`, `Verif/Spec/SystemAmqp.lean`.
-/
namespace Paladin
namespace SystemAmqp
open Retry _root_.Paladin.System

section
variable {A B : Type} [DecidableEq A] [DecidableEq B] {α β : A → Type} {γ : B → Type} {T O ε χ ω : Type} {op : (a : A) → ω → α a → Except ε (β a)}
  {comb : (b : B) → ω → γ b → γ b → Except ε (γ b)} {empty : (b : B) → γ b} {dupErr : ε} {encM : (a : A) → Nat × α a → Option T} {decM : (a : A) → O → Except ε (Nat × β a)}
  {encF : (b : B) → Fold.CTask (γ b) → Option T} {decF : (b : B) → O → Except ε (Seg (γ b))} {nt : Net (A ⊕ B)} {cfg : Worker.Cfg (A ⊕ B)} {exec : ω → T → Except (OpError χ) O} {text : OpError χ → ε}

/-- **C86, no answers on a broker.** A job all of whose tasks are received by workers that have heard an abort-all command before: nobody ever publishes a result to the job's queue, whatever connections are lost and
messages delivered again, and the leader receives none. (If no task of the job ends before its `select!` has looked at the waiting command.) -/
theorem C86_broker_no_answer (j : A ⊕ B) (ls : List (Label (A ⊕ B) (DirLabel α γ ε ω) T O ε χ ω)) (s : St (A ⊕ B) (DirSt α β γ ε) T O ε χ)
    (h : amqpRun op comb empty dupErr encM decM encF decF nt cfg exec text ls = some s) (ha : OnlyAbortAll cfg ls)
    (hd : AfterAbort (dirs op comb empty dupErr encM decM encF decF) SystemMem.dirListens nt cfg exec text j ls)
    (hp : Prompt (dirs op comb empty dupErr encM decM encF decF) SystemMem.dirListens nt cfg exec text j ls) :
    (∀ r, (⟨.job j, .result r⟩ : Amqp.Msg (Name (A ⊕ B)) (Payload (A ⊕ B) T O ε)) ∉ s.net.msgs) ∧ ∀ l, .recv j l ∉ ls :=
  silent_run ls s h ha hd hp

/-- **C86, a later map on a broker.** Such a map, once it has read an input, never ends; it yields no value, and no error but those of its own leader's side. -/
theorem C86_broker_map (a : A) (ls : List (Label (A ⊕ B) (DirLabel α γ ε ω) T O ε χ ω)) (s : St (A ⊕ B) (DirSt α β γ ε) T O ε χ)
    (h : amqpRun op comb empty dupErr encM decM encF decF nt cfg exec text ls = some s) (ha : OnlyAbortAll cfg ls)
    (hd : AfterAbort (dirs op comb empty dupErr encM decM encF decF) SystemMem.dirListens nt cfg exec text (.inl a) ls)
    (hp : Prompt (dirs op comb empty dupErr encM decM encF decF) SystemMem.dirListens nt cfg exec text (.inl a) ls) :
    (∀ r ∈ (mapOf s a).outs, ∃ e, r = .error e ∧ ∃ l ∈ mapSteps ls a, l.failure = some e) ∧
    ((∀ l ∈ mapSteps ls a, l.connected = true) → (mapOf s a).ended = true → MapS.inputs (mapSteps ls a) = []) := by
  have key : MapWaits (mapSteps ls a) (mapOf s a) :=
    waits_run (cl := dirs op comb empty dupErr encM decM encF decF) (j := Sum.inl a) (P := fun (xs : List (MapS.Label (α a) ε ω)) (x : MapS.St (α a) (β a) ε) => MapWaits xs x) mapWaits_init (fun _ _ _ _ _ _ hw hx => mapWaits_step hw hx) ls s h
      (silent_run ls s h ha hd hp).2
  refine ⟨key.outs, fun hc he => ?_⟩
  have := (key.recvEnded (key.ended he) hc).2
  rw [key.pending] at this
  exact List.length_eq_zero_iff.1 (by exact_mod_cast this)

/-- **C86, a later fold on a broker.** Such a fold with two or more inputs returns no value; an error only of its own leader's side. -/
theorem C86_broker_fold (b : B) (ls : List (Label (A ⊕ B) (DirLabel α γ ε ω) T O ε χ ω)) (s : St (A ⊕ B) (DirSt α β γ ε) T O ε χ)
    (h : amqpRun op comb empty dupErr encM decM encF decF nt cfg exec text ls = some s) (ha : OnlyAbortAll cfg ls)
    (hd : AfterAbort (dirs op comb empty dupErr encM decM encF decF) SystemMem.dirListens nt cfg exec text (.inr b) ls)
    (hp : Prompt (dirs op comb empty dupErr encM decM encF decF) SystemMem.dirListens nt cfg exec text (.inr b) ls) :
    (∀ v, (foldOf s b).outcome = some (.ok v) → (Fold.inputs (foldSteps ls b)).length ≤ 1) ∧
    ∀ e, (foldOf s b).outcome = some (.err e) → ∃ l ∈ foldSteps ls b, l.failure = some e := by
  have key : FoldWaits (foldSteps ls b) (foldOf s b) :=
    waits_run (cl := dirs op comb empty dupErr encM decM encF decF) (j := Sum.inr b) (P := fun (xs : List (Fold.Label (γ b) ε ω)) (x : Fold.St (γ b) ε) => FoldWaits xs x) foldWaits_init (fun _ _ _ _ _ _ hw hx => foldWaits_step hw hx) ls s h
      (silent_run ls s h ha hd hp).2
  exact ⟨key.ok, key.err⟩

end

namespace Demo
open System.Demo

/-- As `goA`, but under circumstance 9 the addition fails and asks to terminate the job. -/
abbrev goT (ls : List ALab) : Option (St (Unit ⊕ Bool) (DirSt (fun _ : Unit => String) (fun _ : Unit => String) (fun _ : Bool => Nat) String) Task Out String String) :=
  amqpRun op comb (fun _ => 0) "twice" (fun _ t => some (.inl t)) decM (fun _ t => some (.inr t)) decF nt cfg exec text ls

def hear (w : Nat) : List ALab := [.work w (.cmd (.inr false)), .work w .hMark, .work w .hSend]

/-- A fold fails on worker 0, its leader gets the error. The workers 0 and 1 hear the abort-all command. -/
def failed : List ALab :=
  setUp ++ [.sleep (.worker 0), .sleep (.worker 1), foldA (.item 0 3), foldA (.item 1 4), foldA (.publish 0), foldA .inputEnd, .net (.deliver 0), .deliver 0, .work 0 .checkFlag, .work 0 .checkTerm, .work 0 .start, .finish 0 9,
   .work 0 .mark, .work 0 .pubErr, .work 0 .pubAbort, .work 0 .nack, .work 0 .settled, .net (.deliver 3), .recv (.inr true) (.recv 0), .ackRes (.inr true)] ++ hear 0 ++ hear 1

/-- Worker `w` is interrupted in the task it has got. -/
def eaten (w : Nat) : List ALab :=
  [.deliver w, .work w .checkFlag, .work w .checkTerm, .work w .start, .work w .sigPoll, .work w .sigRead, .work w .intNack, .work w .intStop]

/-- Then a map of three elements is started: each worker takes a task, rejects it and stops; the third is delivered to worker 1, which does not take it any more. -/
def later : List ALab :=
  [.sleep (.worker 0), mapA (.item 0 "a"), mapA (.item 1 "b"), mapA (.item 2 "c"), mapA (.send 0), mapA (.send 0), mapA (.send 0), mapA .confirm, mapA .confirm, mapA .confirm,
   mapA .inputEnd, .net (.deliver 1), .net (.deliver 0)] ++ eaten 1 ++ eaten 0 ++ [.net (.deliver 1), .sleep (.job (.inl ()))]

def onlyAll (l : ALab) : Bool :=
  match l with
  | .work _ (.cmd (.inr false)) => true
  | .work _ (.cmd _) => false
  | _ => true

theorem only_all {ls : List ALab} (h : ∀ l ∈ ls, onlyAll l = true) : OnlyAbortAll cfg ls := by
  intro w k hm
  have := h _ hm
  rcases k with k | k
  · simp [onlyAll] at this
  · cases k
    · rfl
    · simp [onlyAll] at this

abbrev dirsT := dirs op comb (fun _ : Bool => 0) "twice" (fun (_ : Unit) t => some (Sum.inl t : Task)) decM (fun _ t => some (.inr t)) decF

/-- **C86, negation on a broker.** The fold fails and its leader has the error; no connection is closed. The map, whose operation never fails, is started after that. The broker delivers its tasks to the two workers, which
have heard the command; both reject a task and stop without an answer. The third task is in the buffer of worker 1, which has stopped; the leader of the map waits for results. (These are also the hypotheses of
`C86_broker_no_answer` and `C86_broker_map`.) -/
theorem C86_broker_witness : ∃ s0 s, goT failed = some s0 ∧ (foldOf s0 true).outcome = some (.err "overflow") ∧ (s0.worker 0).pc = .waiting ∧ (s0.worker 1).pc = .waiting ∧ MapS.inputs (mapSteps failed ()) = [] ∧
    goT (failed ++ later) = some s ∧ OnlyAbortAll cfg (failed ++ later) ∧ AfterAbort dirsT SystemMem.dirListens nt cfg exec text (.inl ()) (failed ++ later) ∧
    Prompt dirsT SystemMem.dirListens nt cfg exec text (.inl ()) (failed ++ later) ∧ (∀ x u, ∃ v, op () x u = .ok v) ∧ (∀ l ∈ mapSteps (failed ++ later) (), l.connected = true) ∧ s.net.closed = [] ∧
    (s.worker 0).pc = .stopped ∧ (s.worker 1).pc = .stopped ∧ (mapOf s ()).outs = [] ∧ (mapOf s ()).ended = false ∧ s.net.consumers.map Amqp.Consumer.buffer = [[], [4], [], []] ∧ s.asleep (.job (.inl ())) = true := by
  refine ⟨_, _, rfl, rfl, rfl, rfl, rfl, rfl, only_all (by decide +kernel), afterAbort_of (by decide +kernel), prompt_of (by decide +kernel), fun _ _ => ⟨_, rfl⟩, by decide +kernel, rfl, rfl, rfl, rfl, rfl, rfl, rfl⟩

/-- Hypotheses of `C86_broker_fold`: both workers have heard an abort-all command, then a fold is started. -/
def laterFold : List ALab :=
  setUp ++ hear 0 ++ hear 1 ++ [.sleep (.worker 0), foldA (.item 0 3), foldA (.item 1 4), foldA (.publish 0), foldA .inputEnd, .net (.deliver 0)] ++ eaten 0 ++ [.sleep (.job (.inr true))]

example : ∃ s, goT laterFold = some s ∧ OnlyAbortAll cfg laterFold ∧ AfterAbort dirsT SystemMem.dirListens nt cfg exec text (.inr true) laterFold ∧
    Prompt dirsT SystemMem.dirListens nt cfg exec text (.inr true) laterFold ∧ (Fold.inputs (foldSteps laterFold true)).length = 2 ∧ (foldOf s true).outcome = none ∧ (s.worker 0).pc = .stopped := by
  refine ⟨_, rfl, only_all (by decide +kernel), afterAbort_of (by decide +kernel), prompt_of (by decide +kernel), rfl, rfl, rfl⟩

end Demo
end SystemAmqp
end Paladin
