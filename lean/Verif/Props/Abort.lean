import Verif.Spec.Abort
import Verif.Props.Hello
import Verif.Props.Chain
import Verif.Props.Worker
import Verif.Props.AmqpPipe
/-!
# Property C82: what becomes of an abort request

The abort signal handed to an operation is a flag of the worker's loop, which the loop sets when it gives the operation's future up (`runtime/mod.rs` 752-768, 797-804). So no operation that sees the
signal is heard. Vocabulary: `Verif/Spec/Abort.lean`.
-/
namespace Paladin

/-! ## The worker's loop -/

namespace Worker
open Retry
variable {κ ο χ : Type} [DecidableEq κ] {c : Cfg κ} {s : St κ ο χ} {ls : List (Label κ ο χ)}

/-- The loop has given a task up, or is over. -/
def Pc.givenUp : Pc κ ο χ → Bool
  | .interrupted _ _ | .draining _ _ | .stopped | .crashed => true
  | _ => false

theorem givenUp_step {s' : St κ ο χ} {l : Label κ ο χ} (hl : l ≠ .setFlag) (hf : s.flag = true → s.pc.givenUp = true) (h : step c s l = some s') : s'.flag = true → s'.pc.givenUp = true := by
  worker_cases h l <;> simp_all [Pc.givenUp]

theorem givenUp_run (h : run c init ls = some s) (hl : .setFlag ∉ ls) (hf : s.flag = true) : s.pc.givenUp = true := by
  have key : ∀ (ls : List (Label κ ο χ)) (s : St κ ο χ), run c init ls = some s → .setFlag ∉ ls → s.flag = true → s.pc.givenUp = true := by
    refine Lts.run_induction (P := fun (ls : List (Label κ ο χ)) (s : St κ ο χ) => .setFlag ∉ ls → s.flag = true → s.pc.givenUp = true) ?_ ?_
    · intro _ h; simp [init] at h
    intro ls l s1 s2 _ ih hst hl
    simp only [List.mem_append, List.mem_singleton, not_or] at hl
    exact givenUp_step (fun h => hl.2 h.symm) (ih hl.1) hst
  exact key ls s h hl hf

theorem quiet_step {s' : St κ ο χ} {l : Label κ ο χ} (hp : s.pc.givenUp = true) (h : step c s l = some s') :
    s'.pc.givenUp = true ∧ ∃ evs, s'.log = s.log ++ evs ∧ ∀ e ∈ evs, (∃ i, e = .nack i) ∨ ∃ k t, e = .mark k t ∨ e = .processed k t := by
  worker_cases h l <;> simp_all [Pc.givenUp] <;> exact ⟨_, rfl, by simp⟩

/-- **C82, nobody is heard.** If operations do not set the abort signal themselves: from the moment it is set, the loop observes the end of no execution, publishes no result, no error and no abort command, and
takes no task; all it does is reject the interrupted task, besides marking jobs. -/
theorem C82_unheard (h : run c init ls = some s) (hl : .setFlag ∉ ls) (hf : s.flag = true) {ls' : List (Label κ ο χ)} {s' : St κ ο χ} (h' : run c s ls' = some s') :
    ∃ evs, s'.log = s.log ++ evs ∧ ∀ e ∈ evs, (∃ i, e = .nack i) ∨ ∃ k t, e = .mark k t ∨ e = .processed k t := by
  have key : ∀ (ls' : List (Label κ ο χ)) (s' : St κ ο χ), run c s ls' = some s' →
      s'.pc.givenUp = true ∧ ∃ evs, s'.log = s.log ++ evs ∧ ∀ e ∈ evs, (∃ i, e = .nack i) ∨ ∃ k t, e = .mark k t ∨ e = .processed k t := by
    refine Lts.run_induction (P := fun (_ : List (Label κ ο χ)) (s' : St κ ο χ) =>
      s'.pc.givenUp = true ∧ ∃ evs, s'.log = s.log ++ evs ∧ ∀ e ∈ evs, (∃ i, e = .nack i) ∨ ∃ k t, e = .mark k t ∨ e = .processed k t) ⟨givenUp_run h hl hf, [], by simp, by simp⟩ ?_
    rintro ls l s1 s2 _ ⟨h1, evs, h2, h3⟩ hst
    obtain ⟨g1, evs', g2, g3⟩ := quiet_step h1 hst
    exact ⟨g1, evs ++ evs', by rw [g2, h2, List.append_assoc], fun e he => (List.mem_append.1 he).elim (h3 e) (g3 e)⟩
  exact (key ls' s' h').2

/-- **C82, the part that holds: the worker gives up.** When the abort signal is set, the loop is about to reject the task it was executing and to stop, and can do so whatever else happens, or has stopped, unless its process crashes. Missing: that
anybody learns of it (`C82_unheard`). -/
theorem C82_stops_partial (h : run c init ls = some s) (hl : .setFlag ∉ ls) (hf : s.flag = true) (hc : s.pc ≠ .crashed) :
    ∃ own, own <:+ ([.intNack, .intStop] : List (Label κ ο χ)) ∧ ∃ s', run c s own = some s' ∧ s'.pc = .stopped := by
  have h1 := givenUp_run h hl hf
  match hpc : s.pc with
  | .interrupted i k => exact ⟨_, List.suffix_refl _, _, by simp [run, Lts.run, step, hpc]; rfl, rfl⟩
  | .draining i k => exact ⟨[.intStop], by simp [List.suffix_cons_iff], _, by simp [run, Lts.run, step, hpc]; rfl, rfl⟩
  | .stopped => exact ⟨[], List.nil_suffix, s, rfl, hpc⟩
  | .crashed => exact absurd hpc hc
  | .waiting | .got .. | .checked .. | .skipping .. | .starting .. | .running .. | .failing .. | .settleOk .. | .settleErr .. | .errored => simp [hpc, Pc.givenUp] at h1

/-- **C82, the loop's own check of the signal is dead code.** If operations do not set the abort signal themselves, it is not set when the loop has taken a task, so "stopping worker execution due to
abort flag" (`runtime/mod.rs` 728-731) does not happen. -/
theorem C82_check_dead (h : run c init ls = some s) (hl : .setFlag ∉ ls) {i : Nat} {k : κ} (hpc : s.pc = .got i k) : s.flag = false := by
  cases hf : s.flag with
  | false => rfl
  | true => have := givenUp_run h hl hf; simp [hpc, Pc.givenUp] at this

/-- Hypotheses of `C82_unheard`: an abort-all command during a task. The interrupted operation may see the signal; whatever it returns, nothing follows but the rejection. -/
example : ∃ s s' : St Nat Nat String, run ⟨0, 5⟩ init [.deliver 1, .checkFlag, .checkTerm, .start, .cmd 0, .hMark, .hSend, .sigPoll, .sigRead] = some s ∧ s.flag = true ∧
    run ⟨0, 5⟩ s [.intNack, .tick 1, .cmd 3, .hMark, .intStop] = some s' ∧
    s'.log = [.take 0 1, .start 0 1 0, .mark 0 0, .processed 0 0, .interrupted 0] ++ [.nack 0, .mark 3 1, .processed 3 1] := ⟨_, _, rfl, rfl, rfl, by decide⟩

/-- If an operation sets the signal itself, its error is published. -/
example : ∃ s : St Nat Nat String, run ⟨0, 5⟩ init [.deliver 1, .checkFlag, .checkTerm, .start, .setFlag, .finish (.error (.fatal "stop" .terminate)), .mark, .pubErr] = some s ∧ s.flag = true ∧
    Ev.resErr 0 1 (.fatal "stop" .terminate) ∈ s.log := ⟨_, rfl, rfl, by decide⟩

end Worker

/-! ## The whole system -/

namespace System
open Retry

section
variable {κ : Type} {σ ℓ : κ → Type} [DecidableEq κ] {T O ε χ ω : Type} {cl : (j : κ) → Client (σ j) (ℓ j) T (Except ε O)} {cfg : Worker.Cfg κ} {exec : ω → T → Except (OpError χ) O}
  {text : OpError χ → ε}

theorem worker_step {s s' : St κ σ T O ε χ} {l : Label κ ℓ O χ ω} (h : step cl cfg exec text s l = some s') (w : Nat) :
    s'.worker w = s.worker w ∨ ∃ wl, Worker.step cfg (s.worker w) wl = some (s'.worker w) ∧ (wl = .setFlag → l = .work w .setFlag) := by
  cases l with
  | lead j l =>
    simp only [step] at h
    split at h <;> simp only [Option.some.injEq, reduceCtorEq] at h
    subst h; exact .inl rfl
  | deliver w' k =>
    simp only [step] at h
    split at h <;> try simp only [reduceCtorEq] at h
    split at h <;> simp only [Option.some.injEq, reduceCtorEq] at h
    rename_i v hv
    subst h
    by_cases hw : w = w'
    · subst hw; exact .inr ⟨_, by simpa using hv, by simp⟩
    · left; simp [Function.update_of_ne hw]
  | finish w' x =>
    simp only [step] at h
    split at h <;> try simp only [reduceCtorEq] at h
    split at h <;> simp only [Option.some.injEq, reduceCtorEq] at h
    rename_i v hv
    subst h
    by_cases hw : w = w'
    · subst hw; exact .inr ⟨_, by simpa using hv, by simp⟩
    · left; simp [Function.update_of_ne hw]
  | work w' l =>
    simp only [step] at h
    split at h <;> try simp only [reduceCtorEq] at h
    split at h <;> simp only [Option.some.injEq, reduceCtorEq] at h
    rename_i v hv
    subst h
    by_cases hw : w = w'
    · subst hw; exact .inr ⟨_, by simpa using hv, fun h => by rw [h]⟩
    · left
      have : (effect text s w' l).worker = s.worker := by unfold effect; split <;> rfl
      simp [Function.update_of_ne hw, this]
  | requeue n =>
    simp only [step] at h
    split at h <;> try simp only [reduceCtorEq] at h
    split at h <;> simp only [Option.some.injEq, reduceCtorEq] at h
    subst h; exact .inl rfl

theorem givenUp_sys {s : St κ σ T O ε χ} {ls : List (Label κ ℓ O χ ω)} (h : run cl cfg exec text (init cl) ls = some s) (hl : ∀ w, .work w .setFlag ∉ ls) (w : Nat) :
    (s.worker w).flag = true → (s.worker w).pc.givenUp = true := by
  revert hl
  refine Lts.run_induction (P := fun (ls : List (Label κ ℓ O χ ω)) (s : St κ σ T O ε χ) => (∀ w, .work w .setFlag ∉ ls) → (s.worker w).flag = true → (s.worker w).pc.givenUp = true)
    (by simp [init, Worker.init]) ?_ ls s h
  intro ls l s1 s2 _ ih hst hl
  have hl1 : ∀ w, .work w .setFlag ∉ ls := fun w h => hl w (by simp [h])
  rcases worker_step hst w with e | ⟨wl, e, hwl⟩
  · rw [e]; exact ih hl1
  · exact Worker.givenUp_step (fun h => hl w (by simp [hwl h])) (ih hl1) e

theorem finish_running {s s' : St κ σ T O ε χ} {w : Nat} {x : ω} (h : step cl cfg exec text s (.finish w x : Label κ ℓ O χ ω) = some s') : (s.worker w).pc.givenUp = false := by
  simp only [step] at h
  split at h <;> try simp only [reduceCtorEq] at h
  split at h <;> simp only [Option.some.injEq, reduceCtorEq] at h
  rename_i v hv
  simp only [Worker.step] at hv
  split at hv <;> simp only [Option.some.injEq, reduceCtorEq] at hv
  rename_i hpc
  simp [hpc, Worker.Pc.givenUp]

/-- **C82, no outcome tells of the signal.** Whatever the jobs: if operations only read the abort signal, no execution whose outcome the worker takes up has found the signal set. -/
theorem C82_unseen (sees : ω → Prop) (ls : List (Label κ ℓ O χ ω)) (s : St κ σ T O ε χ) (h : run cl cfg exec text (init cl) ls = some s) (ht : Truthful cl cfg exec text sees ls) (w : Nat) (x : ω)
    (hx : .finish w x ∈ ls) : ¬ sees x := by
  obtain ⟨pre, post, rfl⟩ := List.append_of_mem hx
  obtain ⟨s1, h1, h2⟩ := Lts.run_append.1 h
  obtain ⟨s2, h3, -⟩ := Lts.run_cons.1 h2
  intro hs
  have := givenUp_sys h1 (fun w h => ht.readOnly w (by simp [h])) w (ht.reads pre w x post s1 rfl h1 hs)
  rw [finish_running h3] at this
  cases this

theorem returned_forever {ls ls' : List (Label κ ℓ O χ ω)} {s s' : St κ σ T O ε χ} (h : run cl cfg exec text (init cl) ls = some s) (h' : run cl cfg exec text s ls' = some s') {n : Nat} {d : Del κ T}
    (hd : s.dels[n]? = some d) (hr : d.fate = .returned) : ∃ d', s'.dels[n]? = some d' ∧ d'.msg = d.msg ∧ d'.fate = .returned := by
  induction ls' generalizing s ls d with
  | nil => cases h'; exact ⟨d, hd, rfl, hr⟩
  | cons l ls' ih =>
    obtain ⟨s1, h1, h2⟩ := Lts.run_cons.1 h'
    have hi := inv_run h
    obtain ⟨d1, e1, e2, e3, -⟩ := del_mono hi (eff_of_step hi h1) hd
    obtain ⟨d2, g1, g2, g3⟩ := ih (Lts.run_snoc.2 ⟨s, h, h1⟩) h2 e1 (e3 hr)
    exact ⟨d2, g1, g2.trans e2, g3⟩

/-- **C82, an interrupted task is lost.** After a worker has rejected the task in whose execution an abort-all command interrupted it, the task is lost, unless the broker has given it to another worker before. -/
theorem C82_lost (pre post : List (Label κ ℓ O χ ω)) (s1 s : St κ σ T O ε χ) (w i : Nat) (j : κ) (h1 : run cl cfg exec text (init cl) pre = some s1) (hpc : (s1.worker w).pc = .interrupted i j)
    (h2 : run cl cfg exec text s1 (.work w .intNack :: post) = some s) (hn : NoReturn j s) : ¬ NoLoss j s := by
  obtain ⟨s2, h3, h4⟩ := Lts.run_cons.1 h2
  obtain ⟨hi, hi2⟩ := inv2_run h1
  obtain ⟨d, hd, hdw, hlink⟩ := hi w (by rw [hpc]; rfl)
  have hlink : d.msg.key = j ∧ d.answered = false := by simpa [hpc, Link] using hlink
  have hfate : d.fate = .held := by
    obtain ⟨d', hd', hp⟩ := hi2 w (by rw [hpc]; rfl)
    obtain rfl : d = d' := by rw [hd] at hd'; exact Option.some.inj hd'
    refine held_of (fun hr => ?_) (by simpa [hpc, Pend] using hp)
    obtain ⟨d3, g1, g2, g3⟩ := returned_forever h1 h2 hd hr
    exact hn d3 (List.mem_of_getElem? g1) (by rw [g2]; exact hlink.1) g3
  have hnl : ¬ Lost s1 (s1.cur w) d := fun h => by have := h.1; rw [hfate] at this; cases this
  obtain ⟨d2, e1, e2, -⟩ := del_mono hi (eff_of_step hi h3) hd
  have hl2 := (C69_exact pre s1 s2 _ h1 h3 _ d d2 hd e1 hnl).2 ⟨.intNack, by rw [hdw], by rw [hdw], by rw [hdw, hpc]; exact .interrupted i j hfate⟩
  obtain ⟨d3, g1, g2, g3⟩ := C69_forever (pre ++ [.work w .intNack]) post s2 s (Lts.run_snoc.2 ⟨s1, h1, h3⟩) h4 _ d2 e1 hl2
  exact fun hno => hno _ d3 g1 (by rw [g2, e2]; exact hlink.1) g3
end
end System

/-! ## The example program -/

namespace Hello
open Retry Exec Wire System

section
variable {ε L : Type} [DecidableEq L] [Anyhow ε] {join dupErr : ε} {ops : List (OpDef ε)} {k kt : Serializer} {flag : Nat → Nat → Bool} {dbg : Char → String} {keyM keyF : L → Str}
  {idM idF : U8} {cfg : Worker.Cfg (L ⊕ L)}

theorem char_unseen {c : Char} {m : Nat} {key : Str} {i : U8} (h : ∀ n, 1 ≤ n → n ≤ 9 → flag m n = false) :
    ∃ v b, (mapJob (ε := ε) flag dbg key i).d.execute (mapJob (ε := ε) flag dbg key i).op c m = .ok v ∧ (mapJob (ε := ε) flag dbg key i).d.outC.enc kt v = .ok b := by
  obtain ⟨v, b, h1, h2⟩ := char_runs (ε := ε) (flag := fun _ _ => false) (dbg := dbg) (key := key) (i := i) (kt := kt) (c := c) (m := m) (fun _ => rfl)
  refine ⟨v, b, Eq.trans ?_ h1, h2⟩
  change charToString (ε := ε) flag dbg c m = charToString (ε := ε) (fun _ _ => false) dbg c m
  unfold charToString
  rw [List.find?_eq_none.2 (by
    intro n hn
    have : 1 ≤ n ∧ n ≤ 9 := by simp at hn; omega
    simp [h n this.1 this.2]), List.find?_eq_none.2 (by simp)]

/-- An execution that does not find the signal set succeeds. -/
theorem run_unseen {x : Circ} {c : Char} {key : Str} {i : U8} (h : ¬ Sees flag x) : ∃ v, (mapJob (ε := ε) flag dbg key i).run join k kt x c = .ok v := by
  have h0 : ∀ n, 1 ≤ n → n ≤ 9 → flag (x.moment 0) n = false := fun n h1 h2 => by
    rw [← Bool.not_eq_true]
    exact fun hf => h ⟨0, n, h1, h2, hf⟩
  obtain ⟨v, b, h1, h2⟩ := char_unseen (ε := ε) (kt := kt) (dbg := dbg) (key := key) (i := i) (c := c) h0
  have h3 := localAttempt_ok (join := join) h1 h2
  exact ⟨v, by simp only [MapJob.run, localOp, (C33_first x.env x.fuel fun i' => localAttempt join (mapJob (ε := ε) flag dbg key i).d kt (mapJob (ε := ε) flag dbg key i).op c (x.moment i')).1 v h3]⟩

theorem errors_unseen (l : L) (input : String) (hin : input.utf8ByteSize < 2 ^ 63) (hM : ops[idM.1]? = some (charOp flag dbg))
    (hF : ops[idF.1]? = some concatOp) (ls) (s) (h : helloRun join dupErr ops k kt flag dbg keyM keyF idM idF cfg ls = some s) (hr : Runs l input flag dbg keyM keyF idM idF ls s)
    (hc : ∀ x ∈ mapSteps ls l, x.connected = true) (hu : ∀ w x, Label.finish w x ∈ ls → ¬ Sees flag x) (e : ε) (he : (foldOf s l).outcome = some (.err e)) :
    (∃ x ∈ mapSteps ls l, x.failure = some e) ∨ .ioErr e ∈ foldSteps ls l ∨ e = dupErr ∧ ¬ (NoReturn (.inl l) s ∧ NoReturn (.inr l) s) := by
  rcases error_source l input hin hM hF ls s h hr hc e he with g | g | ⟨w, x, p, g1, g2, g3⟩ | g
  · exact .inl g
  · exact .inr (.inl g)
  · obtain ⟨v, hv⟩ := run_unseen (ε := ε) (join := join) (k := k) (kt := kt) (dbg := dbg) (key := keyM l) (i := idM) (c := p.2) (hu w x g1)
    exact absurd (hv.symm.trans g3) nofun
  · exact .inr (.inr g)

/-- **C82, an abort request does not end the leader.** `CharToString` reads the abort signal and answers it with an error. Yet if the computation of a leader returns an error, its own connection or
runtime failed, or a delivery of one of its tasks was returned to the queue: no abort request is ever reported. -/
theorem C82_errors (l : L) (input : String) (hin : input.utf8ByteSize < 2 ^ 63) (hM : ops[idM.1]? = some (charOp flag dbg))
    (hF : ops[idF.1]? = some concatOp) (ls) (s) (h : helloRun join dupErr ops k kt flag dbg keyM keyF idM idF cfg ls = some s) (hr : Runs l input flag dbg keyM keyF idM idF ls s)
    (hc : ∀ x ∈ mapSteps ls l, x.connected = true) (ht : Truth join dupErr ops k kt flag dbg keyM keyF idM idF cfg ls) (e : ε) (he : (foldOf s l).outcome = some (.err e)) :
    (∃ x ∈ mapSteps ls l, x.failure = some e) ∨ .ioErr e ∈ foldSteps ls l ∨ e = dupErr ∧ ¬ (NoReturn (.inl l) s ∧ NoReturn (.inr l) s) :=
  errors_unseen l input hin hM hF ls s h hr hc (C82_unseen (Sees flag) ls s h ht) e he

theorem fold_ended (l : L) (ls) (s) (hF : ops[idF.1]? = some concatOp) (h : helloRun join dupErr ops k kt flag dbg keyM keyF idM idF cfg ls = some s) (v : Str) (hv : (foldOf s l).outcome = some (.ok v)) :
    .inputEnd ∈ foldSteps ls l := by
  obtain ⟨fls, m, h1, h2, h3, h4, -⟩ := fold_alone_reads l (fold_faithful (registered_fold (key := keyF l) hF)) h
  rw [h2] at hv
  rw [← h4]
  exact Fold.size_inputEnd fls m h1 (.inr (.inr ⟨v, hv⟩))

theorem hang_unseen (l : L) (input : String) (hin : input.utf8ByteSize < 2 ^ 63) (hM : ops[idM.1]? = some (charOp flag dbg))
    (hF : ops[idF.1]? = some concatOp) (ls) (s) (h : helloRun join dupErr ops k kt flag dbg keyM keyF idM idF cfg ls = some s) (hr : Runs l input flag dbg keyM keyF idM idF ls s)
    (hrelM : ∀ x ∈ mapSteps ls l, x.reliable = true) (hrelF : .disconnect ∉ foldSteps ls l ∧ ∀ e, .ioErr e ∉ foldSteps ls l) (hu : ∀ w x, Label.finish w x ∈ ls → ¬ Sees flag x)
    (hnM : NoReturn (.inl l) s) (hnF : NoReturn (.inr l) s) (hl : ¬ NoLoss (.inl l) s ∨ ¬ NoLoss (.inr l) s) : (foldOf s l).outcome = none := by
  have hc : ∀ x ∈ mapSteps ls l, x.connected = true := fun x hx => by
    have := hrelM x hx
    cases x <;> simp_all [MapS.Label.reliable, MapS.Label.connected]
  cases ho : (foldOf s l).outcome with
  | none => rfl
  | some o =>
    exfalso
    cases o with
    | panic => exact hrelF.1 (C76_no_panic l input hM hF ls s h hr hc ho)
    | err e =>
      rcases errors_unseen l input hin hM hF ls s h hr hc hu e ho with ⟨x, h1, h2⟩ | h1 | ⟨-, h1⟩
      · have := hrelM x h1
        cases x <;> simp_all [MapS.Label.reliable, MapS.Label.failure]
      · exact hrelF.2 e h1
      · exact h1 ⟨hnM, hnF⟩
    | ok v =>
      rcases hl with hl | hl
      · have h1 := (hr.folded.2 (fold_ended l ls s hF h v ho)).1
        have h2 := C74_map_loss l (map_faithful (registered_map (key := keyM l) hM)) ls [] s s h rfl hl hnM (by simpa using hc)
        rw [h1] at h2; cases h2
      · exact C74_fold_loss l (fold_faithful (registered_fold (key := keyF l) hF)) ls [] s s h rfl hl hnF v ho

/-- **C82, the aborted leader waits for ever.** A leader of `hello-world-rabbitmq`; an abort-all command, as sent when `JOB_TIMEOUT` is over, interrupts a worker in a task of its map or its fold, and the worker rejects the task. Then,
as long as the leader's own connections work and no delivery of its tasks is returned to the queue, its computation does not return: neither a value nor an error. -/
theorem C82_hangs (l : L) (input : String) (hin : input.utf8ByteSize < 2 ^ 63) (hM : ops[idM.1]? = some (charOp flag dbg)) (hF : ops[idF.1]? = some concatOp) (pre post) (s1) (s)
    (h1 : helloRun join dupErr ops k kt flag dbg keyM keyF idM idF cfg pre = some s1) (w i : Nat) (j : L ⊕ L) (hj : j = .inl l ∨ j = .inr l) (hpc : (s1.worker w).pc = .interrupted i j)
    (h : helloRun join dupErr ops k kt flag dbg keyM keyF idM idF cfg (pre ++ .work w .intNack :: post) = some s)
    (hr : Runs l input flag dbg keyM keyF idM idF (pre ++ .work w .intNack :: post) s) (ht : Truth join dupErr ops k kt flag dbg keyM keyF idM idF cfg (pre ++ .work w .intNack :: post))
    (hrelM : ∀ x ∈ mapSteps (pre ++ .work w .intNack :: post) l, x.reliable = true)
    (hrelF : .disconnect ∉ foldSteps (pre ++ .work w .intNack :: post) l ∧ ∀ e, .ioErr e ∉ foldSteps (pre ++ .work w .intNack :: post) l) (hnM : NoReturn (.inl l) s) (hnF : NoReturn (.inr l) s) :
    (foldOf s l).outcome = none := by
  obtain ⟨s1', g1, g2⟩ := Lts.run_append.1 h
  obtain rfl : s1 = s1' := Option.some.inj (h1.symm.trans g1)
  refine hang_unseen l input hin hM hF _ s h hr hrelM hrelF (C82_unseen (Sees flag) _ s h ht) hnM hnF ?_
  rcases hj with rfl | rfl
  · exact .inl (C82_lost pre post s1 s w i _ h1 hpc g2 hnM)
  · exact .inr (C82_lost pre post s1 s w i _ h1 hpc g2 hnF)
end

/-! ## Examples -/

namespace HelloDemo

/-- The leader `true` computes `"ab"`; worker 0 finishes the task of `'a'`; an abort-all command reaches worker 1 in the task of `'b'`. -/
def before : List Lab :=
  [mapL true (.item 0 'a'), mapL true (.send 0), mapL true .confirm, mapL true (.item 1 'b'), mapL true (.send 0), mapL true .confirm, mapL true .inputEnd, .deliver 0 0, .deliver 1 0] ++ serve 0 0 ++
  [mapL true (.recv 0), foldL true (.item 0 (charStr 'a')), .work 1 .checkFlag, .work 1 .checkTerm, .work 1 .start, .work 1 (.cmd (.inr false)), .work 1 .hMark, .work 1 .hSend, .work 1 .sigPoll,
    .work 1 .sigRead]
/-- Worker 1 rejects its task and stops. -/
def after : List Lab := [.work 1 .intStop]
def all : List Lab := before ++ .work 1 .intNack :: after

theorem before_some : (go flag before).isSome = true := by decide +kernel
theorem all_some : (go flag all).isSome = true := by decide +kernel
def reached := (go flag before).get before_some
def silent := (go flag all).get all_some

theorem reached_pc : (reached.worker 1).pc = .interrupted 0 (.inl true) ∧ (reached.worker 1).flag = true := by decide +kernel
theorem silent_outs : (mapOf silent true).outs = [.ok (0, charStr 'a')] := by decide +kernel
theorem silent_ended : (mapOf silent true).ended = false := by decide +kernel
theorem silent_outcome : (foldOf silent true).outcome.isSome = false := by decide +kernel
theorem silent_returns : NoReturn (.inl true) silent ∧ NoReturn (.inr true) silent := by unfold NoReturn; decide +kernel

def calmFinish : Lab → Prop
  | .finish _ x => ∀ i, x.moment i ≠ 7
  | _ => True
def setsFlag : Lab → Bool
  | .work _ .setFlag => true
  | _ => false
theorem all_finish : (∀ x ∈ all, calmFinish x) ∧ ∀ x ∈ all, setsFlag x = false := by
  refine ⟨?_, by decide +kernel⟩
  simp [all, before, after, serve, calmFinish, env]

theorem all_truth : Truth "join" "twice" (ops flag) .cbor .postcard flag dbg keyM keyF idM idF cfg all where
  readOnly w h := by
    have := all_finish.2 _ h
    simp [setsFlag] at this
  reads pre w x post s hls _ hs := by
    have hx := all_finish.1 (.finish w x) (hls ▸ List.mem_append_right _ (List.mem_cons_self ..))
    obtain ⟨i, n, -, -, h⟩ := hs
    simp [flag, hx i] at h

theorem all_runs : Runs true "ab" flag dbg keyM keyF idM idF all silent := by
  constructor
  · exact ⟨by rw [show ("ab" : String).toList = ['a', 'b'] by decide +kernel]; exact List.prefix_refl _, fun _ => ⟨rfl, by rw [show ("ab" : String).toList = ['a', 'b'] by decide +kernel]; rfl⟩⟩
  · rw [silent_outs, silent_ended]
    exact ⟨List.prefix_refl _, fun h => absurd h (by
      change Fold.Label.inputEnd ∉ ([.item 0 (charStr 'a')] : List (Fold.Label Str String Circ)); simp)⟩

/-- **C82, the claim fails.** All hypotheses of `C82_hangs`, `C82_errors`, `C82_unseen` and `C82_lost`: a leader of `hello-world-rabbitmq` computing `"ab"`, an abort-all command sent in time, read by the worker executing the task of
`'b'`; the worker rejects the task and stops, and whatever happens from then on, the leader has no outcome. -/
theorem C82_hang_witness : go flag before = some reached ∧ (reached.worker 1).pc = .interrupted 0 (.inl true) ∧ (reached.worker 1).flag = true ∧ go flag all = some silent ∧
    Runs true "ab" flag dbg keyM keyF idM idF all silent ∧ Truth "join" "twice" (ops flag) .cbor .postcard flag dbg keyM keyF idM idF cfg all ∧ (∀ x ∈ mapSteps all true, x.reliable = true) ∧
    (∀ x ∈ foldSteps all true, x.reliable = true) ∧ NoReturn (.inl true) silent ∧ NoReturn (.inr true) silent ∧ (foldOf silent true).outcome = none ∧
    ∀ post s, go flag (all ++ post) = some s → Runs true "ab" flag dbg keyM keyF idM idF (all ++ post) s →
      Truth "join" "twice" (ops flag) .cbor .postcard flag dbg keyM keyF idM idF cfg (all ++ post) → (∀ x ∈ mapSteps (all ++ post) true, x.reliable = true) →
      (∀ x ∈ foldSteps (all ++ post) true, x.reliable = true) → NoReturn (.inl true) s → NoReturn (.inr true) s → (foldOf s true).outcome = none := by
  refine ⟨by simp [reached], reached_pc.1, reached_pc.2, by simp [silent], all_runs, all_truth, by decide +kernel, by decide +kernel, silent_returns.1, silent_returns.2, by simpa using silent_outcome, ?_⟩
  intro post s h hr ht hM hF hnM hnF
  have e : all ++ post = before ++ .work 1 .intNack :: (after ++ post) := by simp [all]
  rw [e] at h hr ht hM hF
  refine C82_hangs true "ab" (by decide +kernel) rfl rfl before (after ++ post) reached s (by simp [reached]) 1 0 (.inl true) (.inl rfl) reached_pc.1 h hr ht hM ⟨fun h => ?_, fun e h => ?_⟩ hnM hnF
  · simpa [Fold.Label.reliable] using hF _ h
  · simpa [Fold.Label.reliable] using hF _ h
end HelloDemo
end Hello
end Paladin
