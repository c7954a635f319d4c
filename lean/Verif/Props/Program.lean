import Verif.Proofs.ProgramEnd
import Verif.Props.AbortAmqp
/-!
# C87: the programs of `hello-world-rabbitmq`, from their start to their end

Any number of leader processes with and without `--timeout`, any number of workers, and a broker that may lose connections and deliver again, in any order of events.
-/
namespace Paladin
namespace Program
open Retry Exec Wire _root_.Paladin.System Hello SystemAmqp

section
variable {ε L : Type} [DecidableEq L] [DecidableEq ε] [Anyhow ε] {e : Env ε L}

/-- **C87, the computations.** In every execution of the programs, the computations, the workers and the broker behave as they do without the rest (so everything proved in C81 and C82 holds of them), and every leader reads the
characters of its input in order, and folds what its map yields. -/
theorem C87_runs (ls : List (Label ε L)) (s : St ε L) (h : run e (init e) ls = some s) : sysRun e (sysOf ls) = some s.sys ∧
    ∀ l, SystemAmqp.Runs (ε := ε) l e.input e.flag e.dbg e.keyM e.keyF idM idF (sysOf ls) s.sys :=
  ⟨proj ls s h, fun l => runs l ls s h⟩

/-- **C87, success.** A leader that exits with success has connected, its computation has returned its input, and it has closed its runtime. -/
theorem C87_ok (ls : List (Label ε L)) (s : St ε L) (h : run e (init e) ls = some s) (l : L) (hp : (s.proc l).phase = .ended .ok) :
    .start l (.ok ()) ∈ ls ∧ .close l (.ok ()) ∈ ls ∧ ∃ v, outcome s l = some (.ok v) ∧ v.1 = e.input := by
  have h1 := (at_run l ls s h).1
  rw [hp] at h1
  rcases h1 with ⟨-, z, h2, -⟩ | ⟨h2, o, h3, ⟨-, h4⟩ | ⟨-, r, h4, h5⟩⟩
  · cases h2
  · cases h4
  · cases o with
    | panic => cases h5
    | err z => cases r <;> cases h5
    | ok v => cases r with
      | error z => cases h5
      | ok u =>
        cases u
        refine ⟨h2, h4, v, h3, ?_⟩
        by_contra hv
        simp [exit, hv] at h5

/-- **C87, the assertion.** The `assert_eq!` of a leader never fails, whatever the timers, the other leaders and the workers do, as long as its map keeps its connection. -/
theorem C87_assert (ls : List (Label ε L)) (s : St ε L) (h : run e (init e) ls = some s) (l : L) (hc : ∀ x ∈ mapSteps ls l, x.connected = true) : (s.proc l).phase ≠ .ended .assertFailed := by
  intro hp
  have h1 := (at_run l ls s h).1
  rw [hp] at h1
  rcases h1 with ⟨-, z, h2, -⟩ | ⟨h2, o, h3, ⟨-, h4⟩ | ⟨-, r, h4, h5⟩⟩
  · cases h2
  · cases h4
  · exact C81_hello_assert l e.input rfl rfl (sysOf ls) s.sys (proj ls s h) (runs l ls s h) hc o h3 r h5.symm

/-- **C87, panics.** A leader whose map keeps its connection panics only if its connection for the results of its fold is gone. -/
theorem C87_panic (ls : List (Label ε L)) (s : St ε L) (h : run e (init e) ls = some s) (l : L) (hc : ∀ x ∈ mapSteps ls l, x.connected = true) (hp : (s.proc l).phase = .ended .panicked) :
    .disconnect ∈ foldSteps ls l := by
  have h1 := (at_run l ls s h).1
  rw [hp] at h1
  rcases h1 with ⟨-, z, h2, -⟩ | ⟨h2, o, h3, ⟨rfl, -⟩ | ⟨h4, r, -, h5⟩⟩
  · cases h2
  · exact C81_hello_no_panic l e.input rfl rfl (sysOf ls) s.sys (proj ls s h) (runs l ls s h) hc h3
  · exfalso
    cases o with
    | panic => exact h4 rfl
    | err z => cases r <;> cases h5
    | ok v => cases r with
      | error z => cases h5
      | ok u => simp only [exit] at h5; split at h5 <;> cases h5

/-- **C87, errors.** A leader that exits with an error could not connect, or could not close its runtime, or its own connection or runtime failed, or a task of its own was delivered to two workers. It never exits with the error of an
operation that was aborted, even if an abort command was sent. -/
theorem C87_err (hin : e.input.utf8ByteSize < 2 ^ 63) (ls : List (Label ε L)) (s : St ε L) (h : run e (init e) ls = some s) (hr : Reads e ls) (l : L) (hc : ∀ x ∈ mapSteps ls l, x.connected = true) (z : ε)
    (hp : (s.proc l).phase = .ended (.err z)) :
    .start l (.error z) ∈ ls ∨ .close l (.error z) ∈ ls ∨ (∃ x ∈ mapSteps ls l, x.failure = some z) ∨ .ioErr z ∈ foldSteps ls l ∨
      z = e.dupErr ∧ (TaskTwice s.sys (.inl l) ∨ TaskTwice s.sys (.inr l)) := by
  have h1 := (at_run l ls s h).1
  rw [hp] at h1
  rcases h1 with ⟨-, y, h2, h3⟩ | ⟨h2, o, h3, ⟨-, h4⟩ | ⟨-, r, h4, h5⟩⟩
  · cases h2; exact .inl h3
  · cases h4
  · refine .inr ?_
    cases o with
    | panic => cases h5
    | err y => cases r with
      | error _ => cases h5; exact .inl h4
      | ok u => cases h5; exact .inr (C82_broker_errors l e.input hin rfl rfl (sysOf ls) s.sys (proj ls s h) (runs l ls s h) hc (truth_of ls s h hr) z h3)
    | ok v => cases r with
      | error _ => cases h5; exact .inl h4
      | ok u => simp only [exit] at h5; split at h5 <;> cases h5

/-- **C87, when a timer fires.** Only a leader started with `--timeout t` has a timer; it fires `t` or more seconds after its command channel was ready, which is after the leader has connected; it does not fire once the leader has
ended, and never twice. -/
theorem C87_timer (pre post : List (Label ε L)) (l : L) (ok : Bool) (s : St ε L) (h : run e (init e) (pre ++ .fire l ok :: post) = some s) :
    (∃ t p0 p1 p2, e.timeout l = some t ∧ pre = p0 ++ .start l (.ok ()) :: (p1 ++ .sender l true :: p2) ∧ t ≤ elapsed p2) ∧ (∀ r, .close l r ∉ pre) ∧ ∀ ok', .fire l ok' ∉ pre ∧ .fire l ok' ∉ post := by
  obtain ⟨s1, h1, h2⟩ := Lts.run_append.1 h
  obtain ⟨s2, h3, h4⟩ := Lts.run_cons.1 h2
  have hlast := (timed_run l _ s h).1
  have hcount : (pre ++ .fire l ok :: post).countP (Label.fires l) ≤ 1 := by
    cases ht : (s.proc l).timer <;> rw [ht] at hlast
    · exact (show _ = 0 from hlast).trans_le (by omega)
    · exact hlast.1.trans_le (by omega)
    · exact hlast.1.trans_le (by omega)
    · exact hlast
  generalize hx : (Label.fire l ok : Label ε L) = x at h3
  have hown := step_own h3 (by subst hx; exact nofun)
  cases hown with
  | fire l' ok' til hp ha ht =>
    cases hx
    have h0 := timed_run l pre s1 h1
    rw [hp] at h0
    obtain ⟨⟨h5, t, p0, p1, p2, h6, h7, h8⟩, -⟩ := h0
    refine ⟨⟨t, p0, p1, p2, h6, h7, ?_⟩, fun r hr => ?_, fun ok' => ⟨fun hf => ?_, fun hf => ?_⟩⟩
    · have hclk := clock_run pre s1 h1
      rw [h7, show p0 ++ Label.start l (.ok ()) :: (p1 ++ .sender l true :: p2) = (p0 ++ Label.start l (.ok ()) :: p1) ++ .sender l true :: p2 by simp, elapsed_append] at hclk
      simp only [elapsed] at hclk
      omega
    · have ha' := (at_run l pre s1 h1).1
      cases hph : (s1.proc l).phase with
      | starting => exact (at_run l pre s1 h1).2 hph r hr
      | computing => rw [hph] at ha'; exact ha'.2 r hr
      | closing o => rw [hph] at ha'; exact ha'.2.1 r hr
      | ended x => rw [hph] at ha; cases ha
    · have : 0 < pre.countP (Label.fires l) := List.countP_pos_iff.2 ⟨_, hf, by simp [Label.fires]⟩
      omega
    · have : 0 < post.countP (Label.fires l) := List.countP_pos_iff.2 ⟨_, hf, by simp [Label.fires]⟩
      rw [List.countP_append, List.countP_cons_of_pos (by simp [Label.fires])] at hcount
      omega
  | _ => cases hx

/-- **C87, only timers send commands.** No worker ever publishes an abort command: no operation of the example fails, also when it was told to abort. -/
theorem C87_only_timers (hin : e.input.utf8ByteSize < 2 ^ 63) (ls : List (Label ε L)) (s : St ε L) (h : run e (init e) ls = some s) (hr : Reads e ls) (w : Nat) : .sys (.work w .pubAbort) ∉ ls :=
  no_aborts hin ls s h hr w

/-- **C87, each command is received once.** The commands received and the ones waiting are those that timers have sent and those delivered again. -/
theorem C87_commands (hin : e.input.utf8ByteSize < 2 ^ 63) (ls : List (Label ε L)) (s : St ε L) (h : run e (init e) ls = some s) (hr : Reads e ls) :
    s.commands + ls.countP Label.hears = ls.countP Label.sends + ls.countP Label.redelivers := by
  have h1 := (counts_run ls s h).1
  have h2 : ls.countP Label.aborts = 0 := by
    rw [List.countP_eq_zero]
    intro x hx ha
    match x, ha with
    | .sys (.work w .pubAbort), _ => exact no_aborts hin ls s h hr w hx
  omega

/-- A worker whose handler has received no command has no signal set and breaks off no task. -/
theorem unheard (ls : List (Label ε L)) (s : St ε L) (h : run e (init e) ls = some s) (w : Nat) (hw : ∀ k, .sys (.work w (.cmd k)) ∉ ls) :
    (s.sys.worker w).flag = false ∧ ∀ i j, (s.sys.worker w).pc ≠ .interrupted i j := by
  have hu := undisturbed_run (sysOf ls) s.sys (proj ls s h) w (fun k hk => hw k (sysOf_mem.1 hk)) (fun hk => no_setFlag ls s h w (sysOf_mem.1 hk))
  refine ⟨hu.flag, fun i j hpc => ?_⟩
  have := hu.pc
  rw [hpc] at this
  exact this

/-- Which worker receives a command. -/
def hearer : Label ε L → Option Nat
  | .sys (.work w (.cmd _)) => some w
  | _ => none

omit [DecidableEq L] [DecidableEq ε] [Anyhow ε] in
theorem length_hearers (ls : List (Label ε L)) : (ls.filterMap hearer).length = ls.countP Label.hears := by
  rw [List.length_filterMap_eq_countP]
  refine List.countP_congr fun x _ => ?_
  match x with
  | .sys (.work w l) => cases l <;> simp [hearer, Label.hears]
  | .sys (.lead ..) | .sys (.recv ..) | .sys (.sleep ..) | .sys (.ackRes ..) | .sys (.deliver ..) | .sys (.finish ..) | .sys (.attach ..) | .sys (.net ..) | .tick _ | .start .. | .sender .. | .fire .. | .computed _ | .close .. | .again =>
    simp [hearer, Label.hears]

/-- **C87, one command stops one worker.** Of any number of workers, at most as many have their abort signal set or break off a task as commands were sent by timers or delivered again. So without `--timeout` none; and one timer
stops one worker, not all of them. -/
theorem C87_one (hin : e.input.utf8ByteSize < 2 ^ 63) (ls : List (Label ε L)) (s : St ε L) (h : run e (init e) ls = some s) (hr : Reads e ls) (ws : List Nat) (hn : ws.Nodup)
    (hw : ∀ w ∈ ws, (s.sys.worker w).flag = true ∨ ∃ i j, (s.sys.worker w).pc = .interrupted i j) : ws.length ≤ ls.countP Label.sends + ls.countP Label.redelivers := by
  have h1 := C87_commands hin ls s h hr
  have h2 : ws ⊆ ls.filterMap hearer := by
    intro w hm
    by_contra hno
    have hu := unheard ls s h w fun k hk => hno (List.mem_filterMap.2 ⟨_, hk, rfl⟩)
    rcases hw w hm with h3 | ⟨i, j, h3⟩
    · rw [hu.1] at h3; cases h3
    · exact hu.2 i j h3
  have h3 := (hn.subperm h2).length_le
  rw [length_hearers] at h3
  omega

/-- **C87, no timeout, no abort.** If no leader was started with `--timeout`, no command is received, and no worker's abort signal is ever set. -/
theorem C87_quiet (hin : e.input.utf8ByteSize < 2 ^ 63) (ht : ∀ l, e.timeout l = none) (ls : List (Label ε L)) (s : St ε L) (h : run e (init e) ls = some s) (hr : Reads e ls) (w : Nat) :
    (∀ k, .sys (.work w (.cmd k)) ∉ ls) ∧ (s.sys.worker w).flag = false ∧ ∀ i j, (s.sys.worker w).pc ≠ .interrupted i j := by
  have hf : ls.countP Label.sends = 0 := by
    rw [List.countP_eq_zero]
    intro x hx hs
    match x, hs with
    | .fire l ok, _ =>
      obtain ⟨pre, post, rfl⟩ := List.append_of_mem hx
      obtain ⟨⟨t, _, _, _, h1, -⟩, -⟩ := C87_timer pre post l ok s h
      rw [ht l] at h1; cases h1
  have hq : ∀ (ls : List (Label ε L)) s, run e (init e) ls = some s → Reads e ls → ls.countP Label.sends = 0 → ls.countP Label.hears = 0 := by
    intro ls
    induction ls using List.reverseRecOn with
    | nil => intros; rfl
    | append_singleton ls x ih =>
      intro s h hr hs
      obtain ⟨s1, h1, h2⟩ := Lts.run_append.1 h
      have hrp : Reads e ls := fun p w' x' q s hls => hr p w' x' (q ++ [x]) s (by rw [hls]; simp)
      rw [List.countP_append] at hs
      have h0 := ih s1 h1 hrp (by omega)
      have hc1 := C87_commands hin ls s1 h1 hrp
      have hc := C87_commands hin (ls ++ [x]) s h hr
      have htk := (counts_run ls s1 h1).2
      rw [Lts.run_one] at h2
      rw [List.countP_append, h0]
      rw [List.countP_append, List.countP_append, List.countP_append, h0] at hc
      cases x with
      | again => exact absurd h2 (by simp [step, htk, h0])
      | sys y =>
        by_contra hne
        obtain ⟨s2, hn, -, -⟩ := step_sys h2
        have hre : ls.countP Label.redelivers = 0 := by
          rw [List.countP_eq_zero]
          intro x hx ha
          match x, ha with
          | .again, _ =>
            obtain ⟨p, q, rfl⟩ := List.append_of_mem hx
            obtain ⟨s3, g1, g2⟩ := Lts.run_append.1 h1
            obtain ⟨s4, g3, -⟩ := Lts.run_cons.1 g2
            have := (counts_run p s3 g1).2
            rw [List.countP_append] at h0
            simp [step, this, show p.countP Label.hears = 0 by omega] at g3
        cases hn with
        | cmd w hpos => omega
        | map l y _ hx => rcases hx with rfl | rfl <;> simp [Label.hears] at hne
        | fold l y _ hx => rcases hx with rfl | rfl <;> simp [Label.hears] at hne
        | abort w => simp [Label.hears] at hne
        | other _ k1 k2 k3 =>
          cases y with
          | work w l => cases l with
            | cmd k => exact k3 w k rfl
            | _ => simp [Label.hears] at hne
          | _ => simp [Label.hears] at hne
      | _ => simp [Label.hears]
  have hh := hq ls s h hr hf
  have hk : ∀ k, .sys (.work w (.cmd k)) ∉ ls := fun k hk => by
    have := List.countP_eq_zero.1 hh _ hk
    simp [Label.hears] at this
  exact ⟨hk, unheard ls s h w hk⟩

/-- **C87, the timed-out leader hangs.** If a worker rejects a task of leader `l` that it broke off for an abort command, then, with nothing else going wrong, the leader stays in `computation.run` whatever happens from
then on: its program does not end. -/
theorem C87_hangs (hin : e.input.utf8ByteSize < 2 ^ 63) (l : L) (pre post : List (Label ε L)) (s1 s : St ε L) (h1 : run e (init e) pre = some s1) (hst : .start l (.ok ()) ∈ pre) (w i : Nat) (j : L ⊕ L)
    (hj : j = .inl l ∨ j = .inr l) (hpc : (s1.sys.worker w).pc = .interrupted i j) (h : run e (init e) (pre ++ .sys (.work w .intNack) :: post) = some s)
    (hr : Reads e (pre ++ .sys (.work w .intNack) :: post)) (hrelM : ∀ x ∈ mapSteps (pre ++ .sys (.work w .intNack) :: post) l, x.reliable = true)
    (hrelF : ∀ x ∈ foldSteps (pre ++ .sys (.work w .intNack) :: post) l, x.reliable = true) (hnM : ¬ TaskTwice s.sys (.inl l)) (hnF : ¬ TaskTwice s.sys (.inr l)) : (s.proc l).phase = .computing := by
  have e1 : sysOf (pre ++ .sys (.work w .intNack) :: post) = sysOf pre ++ .work w .intNack :: sysOf post := sysOf_append ..
  have hp := proj _ s h
  have hruns := runs l _ s h
  have htr := truth_of _ s h hr
  have ho : outcome s l = none := by
    unfold mapSteps at hrelM
    unfold foldSteps at hrelF
    rw [e1] at hp hruns htr hrelM hrelF
    exact C82_broker_hangs l e.input hin rfl rfl (sysOf pre) (sysOf post) s1.sys s.sys (proj pre s1 h1) w i j hj hpc hp hruns htr hrelM hrelF hnM hnF
  have hin' : .start l (.ok ()) ∈ pre ++ .sys (.work w .intNack) :: post := List.mem_append_left _ hst
  have ha := (at_run l _ s h).1
  cases hph : (s.proc l).phase with
  | computing => rfl
  | starting => rw [hph] at ha; exact absurd hin' (ha _)
  | closing o => rw [hph] at ha; exact absurd (ho.symm.trans ha.2.2.1) (by simp)
  | ended x =>
    rw [hph] at ha
    rcases ha with ⟨h2, -⟩ | ⟨-, o, h2, -⟩
    · exact absurd hin' h2
    · rw [ho] at h2; cases h2
end

namespace ProgramDemo
open SystemAmqp.HelloDemo Hello.HelloDemo

abbrev PLab := Label String Bool

/-- Two leaders, of which `true` is started with `--timeout 5`; the routing keys, workers and connections of the demonstration in `Verif/Props/AmqpPipe.lean`. -/
def demo (flag : Nat → Nat → Bool) (input : String) : Env String Bool :=
  { join := "join", dupErr := "twice", k := .cbor, kt := .postcard, flag := flag, dbg := dbg, keyM := keyM, keyF := keyF, nt := nt, cfg := cfg, input := input, timeout := fun b => if b then some 5 else none }

/-- Both leaders connect, `true` asks for the command channel and computes `"aé"`; leader `false` fails to connect; `true` closes its runtime and ends. -/
def calmP : List PLab :=
  [.start true (.ok ()), .start false (.error "refused"), .tick 1, .sender true true] ++ calmA.map .sys ++ [.computed true, .tick 2, .close true (.ok ())]

/-- The same with `"ab"`, where the timer fires while worker 1 executes the task of `'b'`. -/
def isCmd : ALab → Bool
  | .work _ (.cmd _) => true
  | _ => false
def startP : List PLab := [.start true (.ok ()), .tick 1, .sender true true] ++ (beforeA.takeWhile (!isCmd ·)).map .sys
def preP : List PLab := startP ++ [.tick 5, .fire true true] ++ (beforeA.dropWhile (!isCmd ·)).map .sys
def abortP : List PLab := preP ++ .sys (.work 1 .intNack) :: afterA.map .sys

def calmE := demo never "aé"
def abortE := demo flag "ab"

theorem calmP_some : (run calmE (init calmE) calmP).isSome = true := by decide +kernel
theorem abortP_some : (run abortE (init abortE) abortP).isSome = true := by decide +kernel
theorem preP_some : (run abortE (init abortE) preP).isSome = true := by decide +kernel
def calmS := (run calmE (init calmE) calmP).get calmP_some
def abortS := (run abortE (init abortE) abortP).get abortP_some
def preS := (run abortE (init abortE) preP).get preP_some

def Phase.isOk : Phase String → Bool
  | .ended .ok => true
  | _ => false
def Phase.isErr (z : String) : Phase String → Bool
  | .ended (.err y) => y == z
  | _ => false
def Phase.isComputing : Phase String → Bool
  | .computing => true
  | _ => false

theorem calmS_phase : Phase.isOk (calmS.proc true).phase = true ∧ Phase.isErr "refused" (calmS.proc false).phase = true := by decide +kernel
theorem preS_pc : (preS.sys.worker 1).pc = .interrupted 0 (.inl true) ∧ (preS.sys.worker 1).flag = true ∧ preS.commands = 0 := by decide +kernel
theorem abortS_phase : Phase.isComputing (abortS.proc true).phase = true ∧ abortS.sys.net.yielded = [(0, 0), (1, 1), (2, 2)] := by decide +kernel

def calmFinishP : PLab → Prop
  | .sys x => calmFinishA x
  | _ => True

theorem never_reads (ls : List PLab) : Reads calmE ls := by
  intro pre w x post s _ _ hs
  obtain ⟨i, n, -, -, h⟩ := hs
  simp [calmE, demo, never] at h

theorem reads_of (ls : List PLab) (h : ∀ x ∈ ls, calmFinishP x) : Reads abortE ls := by
  intro pre w x post s hls _ hs
  have hx := h (.sys (.finish w x)) (hls ▸ List.mem_append_right _ (List.mem_cons_self ..))
  obtain ⟨i, n, -, -, h⟩ := hs
  simp [abortE, demo, flag, show ∀ i, x.moment i ≠ 7 from hx] at h

theorem abortP_eq : abortP = startP ++ .tick 5 :: .fire true true :: ((beforeA.dropWhile (!isCmd ·)).map Label.sys ++ .sys (.work 1 .intNack) :: afterA.map .sys) := by
  simp [abortP, preP]

theorem abortP_reads : Reads abortE abortP := by
  refine reads_of _ fun x hx => ?_
  have key : ∀ y ∈ allA, calmFinishP (.sys y : PLab) := fun y hy => allA_finish.1 y hy
  have hb : ∀ y ∈ beforeA, y ∈ allA := fun y hy => List.mem_append_left _ hy
  have ha : ∀ y ∈ afterA, y ∈ allA := fun y hy => List.mem_append_right _ (List.mem_cons_of_mem _ hy)
  simp only [abortP, preP, startP, List.mem_append, List.mem_cons, List.mem_map, List.not_mem_nil, or_false] at hx
  rcases hx with ((((rfl | rfl | rfl) | ⟨y, hy, rfl⟩) | (rfl | rfl)) | ⟨y, hy, rfl⟩) | (rfl | ⟨y, hy, rfl⟩)
  · trivial
  · trivial
  · trivial
  · exact key y (hb y (List.takeWhile_sublist _ |>.subset hy))
  · trivial
  · trivial
  · exact key y (hb y (List.dropWhile_sublist _ |>.subset hy))
  · trivial
  · exact key y (ha y hy)

theorem run_abortP : run abortE (init abortE) abortP = some abortS := by simp [abortS]

/-- A case of `C87_ok`, `C87_err`, `C87_assert` and `C87_runs`: leader `true` succeeds, leader `false` ends with the error of its connection. -/
theorem C87_calm_witness : run calmE (init calmE) calmP = some calmS ∧ Reads calmE calmP ∧ (calmS.proc true).phase = .ended .ok ∧ (calmS.proc false).phase = .ended (.err "refused") ∧
    (∀ x ∈ mapSteps calmP true, x.connected = true) ∧ ∀ x ∈ mapSteps calmP false, x.connected = true := by
  refine ⟨by simp [calmS], never_reads _, ?_, ?_, by decide +kernel, by decide +kernel⟩
  · have h := calmS_phase.1
    unfold Phase.isOk at h
    split at h
    · assumption
    · cases h
  · have h := calmS_phase.2
    unfold Phase.isErr at h
    split at h
    · rename_i y hy
      rw [hy, show y = "refused" by simpa using h]
    · cases h

theorem abortS_once (j : Bool ⊕ Bool) : ¬ TaskTwice abortS.sys j := by
  rintro ⟨m, t, -, -, k, k', hk, h1, h2⟩
  rw [abortS_phase.2] at h1 h2
  simp at h1 h2
  omega

/-- **C87, the timeout does not end the program.** A case of `C87_timer`, `C87_only_timers`, `C87_commands`, `C87_one` and `C87_hangs`: leader `true` of two is started with `--timeout 5`, computes `"ab"`, and after five seconds its timer
publishes the command, which reaches worker 1 in the task of `'b'`; no connection is lost and no message delivered twice. Whatever happens from then on, as long as no connection is lost and no task delivered twice, the leader is still in
`computation.run`. -/
theorem C87_hang_witness : run abortE (init abortE) abortP = some abortS ∧ Reads abortE abortP ∧ abortE.timeout true = some 5 ∧ abortP.countP Label.sends = 1 ∧ abortP.countP Label.hears = 1 ∧ Label.again ∉ abortP ∧
    (abortS.sys.worker 1).flag = true ∧ (abortS.sys.worker 0).flag = false ∧ abortS.sys.net.closed = [] ∧
    ∀ post s, run abortE (init abortE) (abortP ++ post) = some s → Reads abortE (abortP ++ post) → (∀ x ∈ mapSteps (abortP ++ post) true, x.reliable = true) →
      (∀ x ∈ foldSteps (abortP ++ post) true, x.reliable = true) → ¬ TaskTwice s.sys (.inl true) → ¬ TaskTwice s.sys (.inr true) → (s.proc true).phase = .computing := by
  refine ⟨run_abortP, abortP_reads, rfl, by decide +kernel, by decide +kernel, ?_, by decide +kernel, by decide +kernel, by decide +kernel, ?_⟩
  · have : ∀ x ∈ abortP, Label.redelivers x = false := by decide +kernel
    exact fun h => absurd (this _ h) (by simp [Label.redelivers])
  intro post s h hr hM hF hnM hnF
  have e : abortP ++ post = preP ++ .sys (.work 1 .intNack) :: (afterA.map .sys ++ post) := by simp [abortP]
  rw [e] at h hr hM hF
  exact C87_hangs (by decide +kernel) true preP _ preS s (by simp [preS]) (by simp [preP, startP]) 1 0 (.inl true) (.inl rfl) preS_pc.1 h hr hM hF hnM hnF

/-- The hypotheses of the last part are met, with `post` empty. -/
theorem C87_hang_case : (∀ x ∈ mapSteps abortP true, x.reliable = true) ∧ (∀ x ∈ foldSteps abortP true, x.reliable = true) ∧ ∀ j, ¬ TaskTwice abortS.sys j :=
  ⟨by decide +kernel, by decide +kernel, abortS_once⟩

/-- As `calmP`, without `--timeout`, and with the connection of the fold's results lost after the input has ended. -/
def quietE : Env String Bool := { calmE with timeout := fun _ => none }
def cut : ALab → Bool
  | .recv (.inr _) _ => true
  | _ => false
def lostP : List PLab :=
  [.start true (.ok ())] ++ (calmA.takeWhile (!cut ·)).map .sys ++ [.sys (foldA true .disconnect), .computed true]
theorem lostP_some : (run quietE (init quietE) lostP).isSome = true := by decide +kernel
def lostS := (run quietE (init quietE) lostP).get lostP_some
def Phase.isPanicked : Phase String → Bool
  | .ended .panicked => true
  | _ => false
theorem lostS_phase : Phase.isPanicked (lostS.proc true).phase = true := by decide +kernel

/-- A case of `C87_panic` and `C87_quiet`. -/
theorem C87_panic_witness : run quietE (init quietE) lostP = some lostS ∧ Reads quietE lostP ∧ (∀ l, quietE.timeout l = none) ∧ (∀ x ∈ mapSteps lostP true, x.connected = true) ∧ (lostS.proc true).phase = .ended .panicked := by
  refine ⟨by simp [lostS], ?_, fun _ => rfl, by decide +kernel, ?_⟩
  · intro pre w x post s _ _ hs
    obtain ⟨i, n, -, -, h⟩ := hs
    simp [quietE, calmE, demo, never] at h
  · have h := lostS_phase
    unfold Phase.isPanicked at h
    split at h
    · assumption
    · cases h
end ProgramDemo

end Program
end Paladin
