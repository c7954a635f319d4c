import Verif.Props.Abort
import Verif.Props.AmqpPipe
/-! # C82 on an AMQP broker: an abort request ends the computation it aborts -/
namespace Paladin
namespace SystemAmqp
open Retry Exec Wire System

section
variable {κ : Type} {σ ℓ : κ → Type} [DecidableEq κ] {T O ε χ ω : Type} {cl : (j : κ) → Client (σ j) (ℓ j) T (Except ε O)} {listens : (j : κ) → σ j → Bool} {nt : Net κ} {cfg : Worker.Cfg κ}
  {exec : ω → T → Except (OpError χ) O} {text : OpError χ → ε}

theorem worker_step {s s' : St κ σ T O ε χ} {l : Label κ ℓ T O ε χ ω} (h : step cl listens nt cfg exec text s l = some s') (w : Nat) :
    s'.worker w = s.worker w ∨ ∃ wl, Worker.step cfg (s.worker w) wl = some (s'.worker w) ∧ (wl = .setFlag → l = .work w .setFlag) := by
  cases l with
  | lead j l =>
    simp only [step] at h
    split at h <;> try simp only [reduceCtorEq] at h
    split at h <;> simp only [Option.some.injEq, reduceCtorEq] at h
    subst h; exact .inl rfl
  | recv j l =>
    simp only [step] at h
    split at h <;> try simp only [reduceCtorEq] at h
    split at h <;> try simp only [reduceCtorEq] at h
    split at h <;> simp only [Option.some.injEq, reduceCtorEq] at h
    subst h; exact .inl rfl
  | sleep o =>
    simp only [step] at h
    split at h <;> try simp only [reduceCtorEq] at h
    split at h <;> simp only [Option.map_eq_some_iff, reduceCtorEq] at h
    obtain ⟨n, -, rfl⟩ := h; exact .inl rfl
  | ackRes j =>
    simp only [step] at h
    split at h <;> try simp only [reduceCtorEq] at h
    split at h <;> simp only [Option.map_eq_some_iff, reduceCtorEq] at h
    obtain ⟨n, -, rfl⟩ := h; exact .inl rfl
  | deliver w' =>
    simp only [step] at h
    split at h <;> try simp only [reduceCtorEq] at h
    split at h <;> simp only [Option.some.injEq, reduceCtorEq] at h
    rename_i v hv
    subst h
    by_cases hw : w = w'
    · subst hw; exact .inr ⟨_, by simpa using hv, by simp⟩
    · left; simp [Function.update_of_ne hw]
  | finish w' x =>
    simp only [step] at h
    split at h <;> try simp only [reduceCtorEq] at h
    split at h <;> simp only [Option.some.injEq, reduceCtorEq] at h
    rename_i v hv
    subst h
    by_cases hw : w = w'
    · subst hw; exact .inr ⟨_, by simpa using hv, by simp⟩
    · left; simp [Function.update_of_ne hw]
  | work w' l =>
    simp only [step] at h
    split at h <;> try simp only [reduceCtorEq] at h
    split at h <;> simp only [Option.some.injEq, reduceCtorEq] at h
    rename_i v n hv _
    subst h
    by_cases hw : w = w'
    · subst hw; exact .inr ⟨_, by simpa using hv, fun h => by rw [h]⟩
    · left; simp [Function.update_of_ne hw]
  | attach o k =>
    simp only [step] at h
    split at h <;> try simp only [reduceCtorEq] at h
    split at h <;> simp only [Option.some.injEq, reduceCtorEq] at h
    subst h; exact .inl rfl
  | net l =>
    simp only [step] at h
    split at h <;> simp only [Option.map_eq_some_iff, reduceCtorEq] at h
    obtain ⟨n, -, rfl⟩ := h; exact .inl rfl

theorem givenUp_sys {s : St κ σ T O ε χ} {ls : List (Label κ ℓ T O ε χ ω)} (h : run cl listens nt cfg exec text (init cl) ls = some s) (hl : ∀ w, .work w .setFlag ∉ ls) (w : Nat) :
    (s.worker w).flag = true → (s.worker w).pc.givenUp = true := by
  revert hl
  refine Lts.run_induction (P := fun (ls : List (Label κ ℓ T O ε χ ω)) (s : St κ σ T O ε χ) => (∀ w, .work w .setFlag ∉ ls) → (s.worker w).flag = true → (s.worker w).pc.givenUp = true)
    (by simp [init, Worker.init]) ?_ ls s h
  intro ls l s1 s2 _ ih hst hl
  have hl1 : ∀ w, .work w .setFlag ∉ ls := fun w h => hl w (by simp [h])
  rcases worker_step hst w with e | ⟨wl, e, hwl⟩
  · rw [e]; exact ih hl1
  · exact Worker.givenUp_step (fun h => hl w (by simp [hwl h])) (ih hl1) e

theorem finish_running {s s' : St κ σ T O ε χ} {w : Nat} {x : ω} (h : step cl listens nt cfg exec text s (.finish w x : Label κ ℓ T O ε χ ω) = some s') : (s.worker w).pc.givenUp = false := by
  simp only [step] at h
  split at h <;> try simp only [reduceCtorEq] at h
  split at h <;> simp only [Option.some.injEq, reduceCtorEq] at h
  rename_i v hv
  simp only [Worker.step] at hv
  split at hv <;> simp only [Option.some.injEq, reduceCtorEq] at hv
  rename_i hpc
  simp [hpc, Worker.Pc.givenUp]

/-- **C82, no outcome tells of the signal, on a broker.** Whatever the jobs: if operations only read the abort signal, no execution whose outcome the worker takes up has found the signal set. -/
theorem C82_broker_unseen (sees : ω → Prop) (ls : List (Label κ ℓ T O ε χ ω)) (s : St κ σ T O ε χ) (h : run cl listens nt cfg exec text (init cl) ls = some s)
    (ht : Truthful cl listens nt cfg exec text sees ls) (w : Nat) (x : ω) (hx : .finish w x ∈ ls) : ¬ sees x := by
  obtain ⟨pre, post, rfl⟩ := List.append_of_mem hx
  obtain ⟨s1, h1, h2⟩ := Lts.run_append.1 h
  obtain ⟨s2, h3, -⟩ := Lts.run_cons.1 h2
  intro hs
  have := givenUp_sys h1 (fun w h => ht.readOnly w (by simp [h])) w (ht.reads pre w x post s1 rfl h1 hs)
  rw [finish_running h3] at this
  cases this

/-- A rejection reaches the broker over an open connection. -/
theorem nack_open {s s' : St κ σ T O ε χ} {w : Nat} (hw : Wired nt s) (h : step cl listens nt cfg exec text s (.work w .intNack : Label κ ℓ T O ε χ ω) = some s') : nt.wconn w ∉ s.net.closed := by
  simp only [step] at h
  split at h <;> simp only [Option.some.injEq, reduceCtorEq] at h
  rename_i v n hv he
  simp only [effect] at he
  split at he <;> try simp only [reduceCtorEq] at he
  rename_i k m hk hm
  obtain ⟨c, e1, -, e3, -⟩ := (settles_nack he).ex
  obtain ⟨c0, q, hc0, hconn, -⟩ := hw.tie _ _ hk
  rw [e1] at hc0; cases hc0
  rw [hconn] at e3
  exact e3
end

section
variable {ε L : Type} [DecidableEq L] [Anyhow ε] {join dupErr : ε} {ops : List (OpDef ε)} {k kt : Serializer} {flag : Nat → Nat → Bool} {dbg : Char → String} {keyM keyF : L → Str} {idM idF : U8}
  {nt : Net (L ⊕ L)} {cfg : Worker.Cfg (L ⊕ L)}
open Hello

/-- **C82, an abort request does not end the leader, on a broker.** If the computation of a leader of `hello-world-rabbitmq` returns an error, its own connection or runtime failed, or two workers received one of its tasks: no abort
request is ever reported. -/
theorem C82_broker_errors (l : L) (input : String) (hin : input.utf8ByteSize < 2 ^ 63) (hM : ops[idM.1]? = some (charOp flag dbg))
    (hF : ops[idF.1]? = some concatOp) (ls) (s) (h : helloRun join dupErr ops k kt flag dbg keyM keyF idM idF nt cfg ls = some s) (hr : Runs l input flag dbg keyM keyF idM idF ls s)
    (hc : ∀ x ∈ mapSteps ls l, x.connected = true) (ht : Truth join dupErr ops k kt flag dbg keyM keyF idM idF nt cfg ls) (e : ε) (he : (foldOf s l).outcome = some (.err e)) :
    (∃ x ∈ mapSteps ls l, x.failure = some e) ∨ .ioErr e ∈ foldSteps ls l ∨ e = dupErr ∧ (TaskTwice s (.inl l) ∨ TaskTwice s (.inr l)) := by
  obtain ⟨bs, u, ids, Q, R, h1, -, h2, h4, h3, -, -, h8⟩ := sim_run (any := dirAny) indexed_dirs h
  have ef : (System.foldSteps bs l).map foldAny = foldSteps ls l := h3 (.inr l)
  have em : (System.mapSteps bs l).map mapAny = mapSteps ls l := h3 (.inl l)
  rcases errors_unseen l input hin hM hF bs u h1 (runs_sys h2.lead h3 hr)
    (steps_map h3 (P := fun l => l.connected = true) (fun l hl => by rw [← connected_mapAny]; exact hl) hc) (fun w x hx => C82_broker_unseen (Sees flag) ls s h ht w x (h8 w x hx)) e
    (by rw [System.foldOf, h2.lead]; exact he) with ⟨x, hx, hxe⟩ | hio | ⟨hd, hret⟩
  · exact .inl ⟨mapAny x, by rw [← em]; exact List.mem_map.2 ⟨x, hx, rfl⟩, by rw [failure_mapAny]; exact hxe⟩
  · exact .inr (.inl (by rw [← ef, mem_foldAny _ _ (by simp)]; exact hio))
  · refine .inr (.inr ⟨hd, Classical.byContradiction fun hno => hret ⟨fun d hd hk hf => ?_, fun d hd hk hf => ?_⟩⟩)
    · obtain ⟨m, e1, e2⟩ := ret_redelivered h2 h4 hd hf
      exact hno (.inl ⟨m, d.msg, e1, hk, e2⟩)
    · obtain ⟨m, e1, e2⟩ := ret_redelivered h2 h4 hd hf
      exact hno (.inr ⟨m, d.msg, e1, hk, e2⟩)

/-- **C82, the aborted leader waits for ever, on a broker.** An abort-all command, as sent when `JOB_TIMEOUT` is over, interrupts a worker in a task of a leader's map or fold, and the broker gets the worker's rejection. Then, whatever connections,
queues and workers are lost or made, as long as the leader's own connection works and none of its tasks is received by two workers, the leader's computation does not return: neither a value nor an error. -/
theorem C82_broker_hangs (l : L) (input : String) (hin : input.utf8ByteSize < 2 ^ 63) (hM : ops[idM.1]? = some (charOp flag dbg)) (hF : ops[idF.1]? = some concatOp) (pre post) (s1) (s)
    (h1 : helloRun join dupErr ops k kt flag dbg keyM keyF idM idF nt cfg pre = some s1) (w i : Nat) (j : L ⊕ L) (hj : j = .inl l ∨ j = .inr l) (hpc : (s1.worker w).pc = .interrupted i j)
    (h : helloRun join dupErr ops k kt flag dbg keyM keyF idM idF nt cfg (pre ++ .work w .intNack :: post) = some s)
    (hr : Runs l input flag dbg keyM keyF idM idF (pre ++ .work w .intNack :: post) s) (ht : Truth join dupErr ops k kt flag dbg keyM keyF idM idF nt cfg (pre ++ .work w .intNack :: post))
    (hrelM : ∀ x ∈ mapSteps (pre ++ .work w .intNack :: post) l, x.reliable = true) (hrelF : ∀ x ∈ foldSteps (pre ++ .work w .intNack :: post) l, x.reliable = true)
    (hnM : ¬ TaskTwice s (.inl l)) (hnF : ¬ TaskTwice s (.inr l)) : (foldOf s l).outcome = none := by
  obtain ⟨s1', g1, g2⟩ := Lts.run_append.1 h
  obtain rfl : s1 = s1' := Option.some.inj (h1.symm.trans g1)
  have ho : nt.wconn w ∉ s1.net.closed := by
    obtain ⟨s2, hs, -⟩ := Lts.run_cons.1 g2
    obtain ⟨-, -, -, -, -, -, hw, -⟩ := sim_run (any := dirAny) indexed_dirs h1
    exact nack_open hw hs
  obtain ⟨bs1, bs2, a1, a, ids, Q, R, f1, f2, f3, -, f4, f5, f6, f7⟩ := sim_at (any := dirAny) indexed_dirs h1 ho g2
  have hret : ∀ j, ¬ TaskTwice s j → NoReturn j a := fun j hj d hd hk hf => by
    obtain ⟨m, e1, e2⟩ := ret_redelivered f4 f5 hd hf
    exact hj ⟨m, d.msg, e1, hk, e2⟩
  have hF' := steps_fold f6 (P := fun l => l.reliable = true) (fun l hl => by rw [← reliable_foldAny]; exact hl) hrelF
  have hall := Lts.run_append.2 ⟨a1, f1, f3⟩
  have := hang_unseen l input hin hM hF (bs1 ++ .work w .intNack :: bs2) a hall (runs_sys f4.lead f6 hr)
    (steps_map f6 (P := fun l => l.reliable = true) (fun l hl => by rw [← reliable_mapAny]; exact hl) hrelM)
    ⟨fun h => by simpa [Fold.Label.reliable] using hF' _ h, fun e h => by simpa [Fold.Label.reliable] using hF' _ h⟩
    (fun w x hx => C82_broker_unseen (Sees flag) _ s h ht w x (f7 w x hx)) (hret _ hnM) (hret _ hnF) (by
      rcases hj with rfl | rfl
      · exact .inl (C82_lost bs1 bs2 a1 a w i _ f1 (by rw [f2]; exact hpc) f3 (hret _ hnM))
      · exact .inr (C82_lost bs1 bs2 a1 a w i _ f1 (by rw [f2]; exact hpc) f3 (hret _ hnF)))
  rw [System.foldOf, f4.lead] at this
  exact this
end

namespace HelloDemo
open Hello Hello.HelloDemo

abbrev goB (ls : List ALab) := helloRun "join" "twice" (ops flag) .cbor .postcard flag dbg keyM keyF idM idF nt cfg ls

/-- The leader `true` computes `"ab"` on two workers; worker 0 finishes the task of `'a'`; an abort-all command reaches worker 1 in the task of `'b'`. -/
def beforeA : List ALab :=
  setUp ++ [.sleep (.worker 0), .sleep (.worker 1), mapA true (.item 0 'a'), mapA true (.send 0), mapA true .confirm, mapA true (.item 1 'b'), mapA true (.send 0), mapA true .confirm, mapA true .inputEnd,
    .net (.deliver 0), .net (.deliver 1), .deliver 0, .deliver 1] ++ serveA 0 0 ++
  [.net (.deliver 2), .recv (.inl true) (.recv 0), .ackRes (.inl true), foldA true (.item 0 (charStr 'a')), .work 1 .checkFlag, .work 1 .checkTerm, .work 1 .start, .work 1 (.cmd (.inr false)), .work 1 .hMark,
    .work 1 .hSend, .work 1 .sigPoll, .work 1 .sigRead]
/-- Worker 1 rejects its task and stops. -/
def afterA : List ALab := [.work 1 .intStop]
def allA : List ALab := beforeA ++ .work 1 .intNack :: afterA

theorem beforeA_some : (goB beforeA).isSome = true := by decide +kernel
theorem allA_some : (goB allA).isSome = true := by decide +kernel
def reachedA := (goB beforeA).get beforeA_some
def silentA := (goB allA).get allA_some

theorem reachedA_pc : (reachedA.worker 1).pc = .interrupted 0 (.inl true) ∧ (reachedA.worker 1).flag = true := by decide +kernel
theorem silentA_outs : (mapOf silentA true).outs = [.ok (0, charStr 'a')] := by decide +kernel
theorem silentA_ended : (mapOf silentA true).ended = false := by decide +kernel
theorem silentA_outcome : (foldOf silentA true).outcome.isSome = false := by decide +kernel
theorem silentA_net : silentA.net.yielded = [(0, 0), (1, 1), (2, 2)] ∧ silentA.net.nacked = [1] ∧ silentA.net.closed = [] := by decide +kernel

def calmFinishA : ALab → Prop
  | .finish _ x => ∀ i, x.moment i ≠ 7
  | _ => True
def setsFlagA : ALab → Bool
  | .work _ .setFlag => true
  | _ => false
theorem allA_finish : (∀ x ∈ allA, calmFinishA x) ∧ ∀ x ∈ allA, setsFlagA x = false := by
  refine ⟨?_, by decide +kernel⟩
  simp [allA, beforeA, afterA, setUp, make, serveA, calmFinishA, env]

theorem allA_truth : Truth "join" "twice" (ops flag) .cbor .postcard flag dbg keyM keyF idM idF nt cfg allA where
  readOnly w h := by
    have := allA_finish.2 _ h
    simp [setsFlagA] at this
  reads pre w x post s hls _ hs := by
    have hx := allA_finish.1 (.finish w x) (hls ▸ List.mem_append_right _ (List.mem_cons_self ..))
    obtain ⟨i, n, -, -, h⟩ := hs
    simp [flag, hx i] at h

theorem allA_runs : Runs true "ab" flag dbg keyM keyF idM idF allA silentA := by
  constructor
  · exact ⟨by rw [show ("ab" : String).toList = ['a', 'b'] by decide +kernel]; exact List.prefix_refl _, fun _ => ⟨rfl, by rw [show ("ab" : String).toList = ['a', 'b'] by decide +kernel]; rfl⟩⟩
  · rw [silentA_outs, silentA_ended]
    exact ⟨List.prefix_refl _, fun h => absurd h (by
      change Fold.Label.inputEnd ∉ ([.item 0 (charStr 'a')] : List (Fold.Label Str String Circ)); simp)⟩

theorem silentA_once (j : Bool ⊕ Bool) : ¬ TaskTwice silentA j := by
  rintro ⟨m, t, -, -, k, k', hk, h1, h2⟩
  rw [silentA_net.1] at h1 h2
  simp at h1 h2
  omega

/-- **C82, the claim fails on a broker.** All hypotheses of `C82_broker_hangs`, `C82_broker_errors` and `C82_broker_unseen`: a leader of `hello-world-rabbitmq` computing `"ab"`, no connection lost, an abort-all command sent in time, read by the
worker executing the task of `'b'`; the worker rejects the task and stops, and whatever happens from then on, the leader has no outcome. -/
theorem C82_broker_hang_witness : goB beforeA = some reachedA ∧ (reachedA.worker 1).pc = .interrupted 0 (.inl true) ∧ (reachedA.worker 1).flag = true ∧ goB allA = some silentA ∧
    Runs true "ab" flag dbg keyM keyF idM idF allA silentA ∧ Truth "join" "twice" (ops flag) .cbor .postcard flag dbg keyM keyF idM idF nt cfg allA ∧ silentA.net.closed = [] ∧
    (∀ x ∈ mapSteps allA true, x.reliable = true) ∧ (∀ x ∈ foldSteps allA true, x.reliable = true) ∧ (∀ j, ¬ TaskTwice silentA j) ∧ (foldOf silentA true).outcome = none ∧
    ∀ post s, goB (allA ++ post) = some s → Runs true "ab" flag dbg keyM keyF idM idF (allA ++ post) s →
      Truth "join" "twice" (ops flag) .cbor .postcard flag dbg keyM keyF idM idF nt cfg (allA ++ post) → (∀ x ∈ mapSteps (allA ++ post) true, x.reliable = true) →
      (∀ x ∈ foldSteps (allA ++ post) true, x.reliable = true) → ¬ TaskTwice s (.inl true) → ¬ TaskTwice s (.inr true) → (foldOf s true).outcome = none := by
  refine ⟨by simp [reachedA], reachedA_pc.1, reachedA_pc.2, by simp [silentA], allA_runs, allA_truth, silentA_net.2.2, by decide +kernel, by decide +kernel, silentA_once, by simpa using silentA_outcome, ?_⟩
  intro post s h hr ht hM hF hnM hnF
  have e : allA ++ post = beforeA ++ .work 1 .intNack :: (afterA ++ post) := by simp [allA]
  rw [e] at h hr ht hM hF
  exact C82_broker_hangs true "ab" (by decide +kernel) rfl rfl beforeA (afterA ++ post) reachedA s (by simp [reachedA]) 1 0 (.inl true) (.inl rfl) reachedA_pc.1 h hr ht hM hF hnM hnF
end HelloDemo
end SystemAmqp
end Paladin
