import Verif.Proofs.WorkerTime
/-! # The worker loop (C42-C46, C63, C64) -/
namespace Paladin
namespace Worker
open Retry

variable {κ ο χ : Type} [DecidableEq κ] {c : Cfg κ} {s : St κ ο χ} {ls : List (Label κ ο χ)}

/-- **C42**: in every execution, whenever the loop waits for its next task, everything that has happened to each task it took is one of the cases of `Settled`: nacked
without execution; or executed successfully, acked and one `Ok` result published to its routing key; or failed, nacked and never acked, and no `Ok` result
published. -/
theorem C42_settled (h : run c init ls = some s) (hw : s.pc = .waiting) {i : Nat} (hi : i < s.next) : Settled i (taskLog s.log i) :=
  (logInv_run h).settled i hi (.inr hw)

/-- **C42**, while the loop works on a task all earlier ones are settled; events about tasks not yet taken do not exist. -/
theorem C42_earlier (h : run c init ls = some s) : (∀ i, i + 1 < s.next → Settled i (taskLog s.log i)) ∧ ∀ i, s.next ≤ i → taskLog s.log i = [] :=
  ⟨fun i hi => (logInv_run h).settled i (by omega) (.inl hi), (logInv_run h).fresh⟩

/-- **C42**, counting: a settled task has exactly one ack or nack; acked exactly if its execution succeeded, and then exactly the results `Ok(o)` for the output `o` of
that execution is published, to its own routing key. -/
theorem C42_counts {i : Nat} {l : List (Ev κ ο χ)} (h : Settled i l) [DecidableEq ο] [DecidableEq χ] :
    l.count (.ack i) + l.count (.nack i) = 1 ∧ (Ev.ack i ∈ l ↔ ∃ o, Ev.done i (.ok o) ∈ l) ∧
    ∀ k o, Ev.resOk i k o ∈ l ↔ Ev.ack i ∈ l ∧ Ev.take i k ∈ l ∧ Ev.done i (.ok o) ∈ l := by
  cases h with
  | skipped k => simp
  | ok k t o rest h =>
    have hm : ∀ e, e ∈ rest ↔ e = .ack i ∨ e = .resOk i k o := by intro e; rw [h.mem_iff]; simp
    refine ⟨?_, ?_, ?_⟩
    · simp [List.count_cons, h.count_eq]
    · simp [hm]
    · intro k' o'; simp [hm]
  | terminate k t e rest he h =>
    have hm : ∀ e', e' ∈ rest ↔ e' = .nack i ∨ e' = .resErr i k e ∨ e' = .sendAbort i := by intro e'; rw [h.mem_iff]; simp
    refine ⟨?_, ?_, ?_⟩
    · simp [List.count_cons, h.count_eq]
    · simp [hm]
    · intro k' o'; simp [hm]
  | ignore k t e he => simp [List.count_cons]

/-- An execution in which task 0 of job 1 succeeds, an `Abort` command for job 2 arrives, task 1 of job 2 is skipped, and task 2 of job 3 fails. -/
def exRun : List (Label Nat Nat String) :=
  [.deliver 1, .checkFlag, .checkTerm, .start, .finish (.ok 10), .pubOk, .ack, .settled, .cmd 2, .hMark, .hSend, .deliver 2, .checkFlag, .checkTerm, .skipNack,
   .deliver 3, .checkFlag, .checkTerm, .start, .sigPoll, .sigRead, .finish (.error (.fatal "bad" .terminate)), .mark, .pubAbort, .nack, .pubErr, .settled]

example : ∃ s, run (⟨0, 5⟩ : Cfg Nat) init exRun = some s ∧ s.pc = .waiting ∧ s.next = 3 ∧
    taskLog s.log 0 = [.take 0 1, .start 0 1 0, .done 0 (.ok 10), .resOk 0 1 10, .ack 0] ∧ taskLog s.log 1 = [.take 1 2, .nack 1] ∧
    taskLog s.log 2 = [.take 2 3, .start 2 3 0, .done 2 (.error (.fatal "bad" .terminate)), .sendAbort 2, .nack 2, .resErr 2 3 (.fatal "bad" .terminate)] := by
  refine ⟨(run (⟨0, 5⟩ : Cfg Nat) init exRun).get (by decide), by simp, by decide, by decide, by decide, by decide, by decide⟩

/-- **C43**, what holds (partial): a task that the loop receives after its job has been (newly) marked as terminated, by a command or by a failed task, is not started before
60 seconds have passed since. Missing: a second `Abort` of a job already marked does not renew the mark, and a task received before the mark may be started
after it (see the witnesses). -/
theorem C43_not_started_partial (h : run c init ls = some s) {i : Nat} {k : κ} {m t : Nat}
    (hsub : List.Sublist [Ev.mark k m, Ev.take i k, Ev.start i k t] s.log) : m + 60 ≤ t := (startInv_run h).started i k m t hsub

/-- Processing an `Abort` command, and failing, leave the job marked: either newly, now, or as it was
before (then with the time of the old mark). -/
theorem C43_marked_partial (h : run c init ls = some s) {s' : St κ ο χ} {k : κ} (hk : (s.handler = .got k ∧ step c s .hMark = some s') ∨
      (∃ i e, s.pc = .failing i k e ∧ step c s .mark = some s')) : ∃ m ≤ s'.now, Ev.mark k m ∈ s'.log ∧ (k, m) ∈ s'.term := by
  have hm := markInv_run h
  have key : ∀ m, (k, m) ∈ s.term → m ≤ s.now ∧ Ev.mark k m ∈ s.log := fun m hm' => ⟨hm.past k m (hm.logged k m hm'), hm.logged k m hm'⟩
  rcases hk with ⟨hh, hst⟩ | ⟨i, e, hp, hst⟩
  · simp only [step, hh] at hst
    split at hst
    · split at hst
      · rename_i hmk
        obtain ⟨m, hmm⟩ := marked_iff.1 hmk
        simp at hst; subst hst
        exact ⟨m, (key m hmm).1, by simp [(key m hmm).2], hmm⟩
      · simp at hst; subst hst
        exact ⟨s.now, Nat.le_refl _, by simp, by simp⟩
    · simp at hst
  · simp only [step, hp] at hst
    split at hst
    · rename_i hmk
      obtain ⟨m, hmm⟩ := marked_iff.1 hmk
      simp at hst; subst hst
      exact ⟨m, (key m hmm).1, (key m hmm).2, hmm⟩
    · simp at hst; subst hst
      exact ⟨s.now, Nat.le_refl _, by simp, by simp⟩

/-- **C43**, the second half: if a task is skipped, its job was newly marked at most 120 seconds ago, up to the lag of the reaper's timer. -/
theorem C43_mark_dropped (h : run c init ls = some s) {s' : St κ ο χ} (hst : step c s .checkTerm = some s') {i : Nat} {k : κ} (hs : s'.pc = .skipping i k) :
    ∃ m, Ev.mark k m ∈ s.log ∧ s.now ≤ m + 120 + c.lag := by
  have hm := markInv_run h
  have ht := tick_inv h
  simp only [step] at hst
  split at hst <;> try simp at hst
  rename_i i' k' hpc
  subst hst
  simp only at hs
  split at hs
  · rename_i hmk
    simp only [Pc.skipping.injEq] at hs
    obtain ⟨rfl, rfl⟩ := hs
    obtain ⟨m, hmm⟩ := marked_iff.1 hmk
    refine ⟨m, hm.logged _ _ hmm, ?_⟩
    have := hm.young _ _ hmm
    have := ht (by simp [St.alive, hpc])
    omega
  · simp at hs

/-- A task of a job marked at time 0 is skipped at time 59 and another started at time 120. -/
example : ∃ s, run (⟨0, 5⟩ : Cfg Nat) (init : St Nat Nat String) [.cmd 2, .reap, .tick 0, .hMark, .hSend, .tick 59, .deliver 2, .checkFlag, .checkTerm, .skipNack, .tick 1, .reap,
      .tick 60, .reap, .deliver 2, .checkFlag, .checkTerm, .start] = some s ∧
    s.log = [.mark 2 0, .processed 2 0, .take 0 2, .nack 0, .take 1 2, .start 1 2 120] := by
  refine ⟨_, rfl, by decide⟩

/-- **C43** is false: (1) a second `Abort` command processed at time 59 does not renew the mark, so a task of the job is started at time 60, one second later;
(2) a task that was received and checked before the mark is started after it. -/
theorem C43_witness : (∃ (ls : List (Label Nat Nat String)) (s : St Nat Nat String), run ⟨0, 0⟩ init ls = some s ∧
      List.Sublist [Ev.processed 2 59, Ev.take 0 2, Ev.start 0 2 60] s.log) ∧
    (∃ (ls : List (Label Nat Nat String)) (s : St Nat Nat String), run ⟨0, 0⟩ init ls = some s ∧ List.Sublist [Ev.mark 2 0, Ev.processed 2 0, Ev.start 0 2 0] s.log) := by
  refine ⟨⟨[.cmd 2, .reap, .hMark, .hSend, .tick 59, .cmd 2, .hMark, .tick 1, .reap, .deliver 2, .checkFlag, .checkTerm, .start], _, rfl, ?_⟩,
    ⟨[.deliver 2, .checkFlag, .checkTerm, .cmd 2, .hMark, .start], _, rfl, ?_⟩⟩ <;> decide

/-- **C44** is false: while task 0 executes, an abort-all command is processed, and before the task looks, an `Abort` of job 5; the task runs to its end, is acked, and
the worker takes and executes another task. A second abort-all command, processed within the retention time, is ignored altogether. -/
theorem C44_coalesced_witness : ∃ (ls : List (Label Nat Nat String)) (s : St Nat Nat String), run ⟨0, 0⟩ init ls = some s ∧
    s.log = [.take 0 1, .start 0 1 0, .mark 0 0, .processed 0 0, .mark 5 0, .processed 5 0, .processed 0 0, .done 0 (.ok 7), .ack 0, .resOk 0 1 7, .take 1 1, .start 1 1 0] := by
  refine ⟨[.deliver 1, .checkFlag, .checkTerm, .start, .cmd 0, .hMark, .hSend, .cmd 5, .hMark, .hSend, .sigPoll, .sigRead, .cmd 0, .hMark,
    .finish (.ok 7), .ack, .pubOk, .settled, .deliver 1, .checkFlag, .checkTerm, .start], _, rfl, by decide⟩

/-- **C44**, what holds (partial): if abort-all is the last value sent on the watch channel and a task executes, the branch that waits for the signal does not sleep: polled, it
interrupts the task. This is also so if the command came before the task was started. Missing: abort-all overwritten by another command, or ignored
because a previous one is still marked; and the execution may win the race with the signal. -/
theorem C44_signal_partial (h : run c init ls = some s) (hlast : s.watch.getLast? = some c.abortAll) {i n : Nat} {k : κ} {r : Bool}
    (hpc : s.pc = .running i k n r) : ∃ s', run c s (if r then [.sigRead] else [.sigPoll, .sigRead]) = some s' ∧ s'.pc = .interrupted i k ∧ s'.flag = true := by
  have hs := seenInv_run h
  cases r with
  | true => exact ⟨{ s with pc := .interrupted i k, flag := true, log := s.log ++ [.interrupted i] }, by simp [run, Lts.run, step, hpc, hlast], rfl, rfl⟩
  | false =>
    have := hs.fresh i k n hpc hlast
    exact ⟨{ s with pc := .interrupted i k, flag := true, log := s.log ++ [.interrupted i] }, by simp [run, Lts.run, step, hpc, hlast, this], rfl, rfl⟩

/-- **C44**: after an interruption the loop does nothing but nack the interrupted task: no task is taken, started, acked and no result published. -/
theorem C44_stops_partial (h : run c init ls = some s) {i : Nat} {e : Ev κ ο χ} (hsub : List.Sublist [Ev.interrupted i, e] s.log) :
    e = .nack i ∨ ∃ k t, e = .mark k t ∨ e = .processed k t := (intInv_run h).last i e hsub

/-- **C44**: once a task is interrupted the loop is in the branch that nacks it and stops, or has stopped, or the process has crashed. -/
theorem C44_state_partial (h : run c init ls = some s) {i : Nat} (hi : Ev.interrupted i ∈ s.log) :
    (∃ k, s.pc = .interrupted i k ∨ s.pc = .draining i k) ∨ s.pc = .stopped ∨ s.pc = .crashed := (intInv_run h).stop i hi

/-- **C44**: nothing keeps an interrupted worker from nacking the task and stopping. -/
theorem C44_then_stops_partial {i : Nat} {k : κ} (hpc : s.pc = .interrupted i k) :
    ∃ s', run c s [.intNack, .intStop] = some s' ∧ s'.pc = .stopped ∧ s'.log = s.log ++ [.nack i] :=
  ⟨{ s with pc := .stopped, log := s.log ++ [.nack i] }, by simp [run, Lts.run, step, hpc], rfl, rfl⟩

/-- Past the check of the flag and before the execution. -/
def Pc.committed : Pc κ ο χ → Bool
  | .checked _ _ | .skipping _ _ | .starting _ _ => true
  | _ => false

theorem flag_step {s' : St κ ο χ} {l : Label κ ο χ} (hf : s.flag = true) (hp : s.pc.committed = false) (h : step c s l = some s') :
    s'.flag = true ∧ s'.pc.committed = false ∧ ∀ i k t, Ev.start i k t ∈ s'.log → Ev.start i k t ∈ s.log := by
  worker_cases h l <;> simp_all [Pc.committed]

theorem flag_committed (h : run c init ls = some s) (hf : s.flag = true) : s.pc.committed = false := by
  have key : ∀ (ls' : List (Label κ ο χ)) (s' : St κ ο χ), run c init ls' = some s' → s'.flag = true → s'.pc.committed = false := by
    refine Lts.run_induction (P := fun (_ : List (Label κ ο χ)) (s' : St κ ο χ) => s'.flag = true → s'.pc.committed = false) (by simp [init]) ?_
    intro ls' l s1 s2 _ ih hst hf2
    cases hf1 : s1.flag with
    | true => exact (flag_step hf1 (ih hf1) hst).2.1
    | false => worker_cases hst l <;> simp_all [Pc.committed]
  exact key ls s h hf

/-- **C44**: once the abort flag is set, by an abort-all command or by the operation that holds it, the worker starts no further task, whatever happens. -/
theorem C44_flag_partial (h : run c init ls = some s) (hf : s.flag = true) {ls' : List (Label κ ο χ)} {s' : St κ ο χ} (hr : run c s ls' = some s') {i t : Nat} {k : κ}
    (hs : Ev.start i k t ∈ s'.log) : Ev.start i k t ∈ s.log := by
  have key : ∀ (ls' : List (Label κ ο χ)) (s' : St κ ο χ), run c s ls' = some s' → s'.flag = true ∧ s'.pc.committed = false ∧ ∀ i k t, Ev.start i k t ∈ s'.log → Ev.start i k t ∈ s.log := by
    refine Lts.run_induction (P := fun (_ : List (Label κ ο χ)) (s' : St κ ο χ) => s'.flag = true ∧ s'.pc.committed = false ∧ ∀ i k t, Ev.start i k t ∈ s'.log → Ev.start i k t ∈ s.log)
      ⟨hf, flag_committed h hf, fun _ _ _ h => h⟩ ?_
    rintro ls' l s1 s2 _ ⟨h1, h2, h3⟩ hst
    obtain ⟨h4, h5, h6⟩ := flag_step h1 h2 hst
    exact ⟨h4, h5, fun i k t hm => h3 i k t (h6 i k t hm)⟩
  exact (key ls' s' hr).2.2 i k t hs

/-- The operation sets the flag and succeeds: its task is settled, the next task is taken and left neither acked nor nacked. -/
example : ∃ s : St Nat Nat String, run ⟨0, 0⟩ init [.deliver 1, .checkFlag, .checkTerm, .start, .setFlag, .finish (.ok 7), .ack, .pubOk, .settled, .deliver 2, .checkFlag] = some s ∧
    s.flag = true ∧ s.pc = .stopped ∧ s.log = [.take 0 1, .start 0 1 0, .done 0 (.ok 7), .ack 0, .resOk 0 1 7, .take 1 2] := ⟨_, rfl, by decide, by decide, by decide⟩

/-- An interrupted task. -/
example : ∃ s, run (⟨0, 5⟩ : Cfg Nat) (init : St Nat Nat String) [.cmd 0, .hMark, .hSend, .deliver 1, .checkFlag, .checkTerm, .start, .sigPoll, .sigRead, .intNack, .intStop] = some s ∧
    s.log = [.mark 0 0, .processed 0 0, .take 0 1, .start 0 1 0, .interrupted 0, .nack 0] ∧ s.pc = .stopped := by
  refine ⟨_, rfl, by decide, by decide⟩

/-- **C45**, what holds (partial): once the loop has gone on, a task that failed with strategy `Terminate` has had exactly one `Err` result with that error published, to its
routing key, and exactly one abort-all command; a task that failed with `Ignore` has had nothing published. Missing: that the worker serves the job's other
tasks after `Ignore`. -/
theorem C45_published_partial (h : run c init ls = some s) (hw : s.pc = .waiting) {i : Nat} {e : OpError χ} (hd : Ev.done i (.error e) ∈ s.log) :
    (e.fatalStrategy = .terminate → ∃ k t rest, taskLog s.log i = .take i k :: .start i k t :: .done i (.error e) :: rest ∧
      rest.Perm [.nack i, .resErr i k e, .sendAbort i]) ∧
    (e.fatalStrategy = .ignore → ∃ k t, taskLog s.log i = [.take i k, .start i k t, .done i (.error e), .nack i]) := by
  have hL := logInv_run h
  have hmem : Ev.done i (.error e) ∈ taskLog s.log i := by simp [taskLog, hd, Ev.about]
  have hi : i < s.next := by
    apply Nat.lt_of_not_le
    intro hn
    rw [hL.fresh i hn] at hmem; simp at hmem
  have hS := hL.settled i hi (.inr hw)
  generalize taskLog s.log i = l at hmem hS
  cases hS with
  | skipped k => simp at hmem
  | ok k t o rest h => have := (h.mem_iff (a := Ev.done i (.error e))); simp at this; simp [this] at hmem
  | terminate k t e' rest he h =>
    have hr := (h.mem_iff (a := Ev.done i (.error e))); simp at hr
    simp [hr] at hmem
    subst hmem
    exact ⟨fun _ => ⟨k, t, rest, rfl, h⟩, fun h' => by simp [he] at h'⟩
  | ignore k t e' he =>
    simp at hmem
    subst hmem
    exact ⟨fun h' => by simp [he] at h', fun _ => ⟨k, t, rfl⟩⟩

/-- **C45**'s second half is false: after a task failed with `Ignore`, the next task of the same job is nacked without being executed. -/
theorem C45_ignore_witness : ∃ (ls : List (Label Nat Nat String)) (s : St Nat Nat String), run ⟨0, 0⟩ init ls = some s ∧ s.pc = .waiting ∧
    s.log = [.take 0 1, .start 0 1 0, .done 0 (.error (.fatal "skip me" .ignore)), .mark 1 0, .nack 0, .take 1 1, .nack 1] := by
  refine ⟨[.deliver 1, .checkFlag, .checkTerm, .start, .finish (.error (.fatal "skip me" .ignore)), .mark, .nack, .settled, .deliver 1, .checkFlag, .checkTerm, .skipNack],
    _, rfl, by decide, by decide⟩

/-- **C46** is false: the ack and the publishing of the result run concurrently; a crash between them loses the result of an acked task. Likewise for the nack (which does not
requeue) of a failed task. -/
theorem C46_witness : (∃ (ls : List (Label Nat Nat String)) (s : St Nat Nat String), run ⟨0, 0⟩ init ls = some s ∧ s.pc = .crashed ∧
      s.log = [.take 0 1, .start 0 1 0, .done 0 (.ok 7), .ack 0]) ∧
    (∃ (ls : List (Label Nat Nat String)) (s : St Nat Nat String), run ⟨0, 0⟩ init ls = some s ∧ s.pc = .crashed ∧
      s.log = [.take 0 1, .start 0 1 0, .done 0 (.error (.fatal "bad" .terminate)), .mark 1 0, .nack 0]) := by
  refine ⟨⟨[.deliver 1, .checkFlag, .checkTerm, .start, .finish (.ok 7), .ack, .crash], _, rfl, by decide, by decide⟩,
    ⟨[.deliver 1, .checkFlag, .checkTerm, .start, .finish (.error (.fatal "bad" .terminate)), .mark, .nack, .crash], _, rfl, by decide, by decide⟩⟩

/-- **C46**, what holds (partial): at every moment, so at every crash, an acked task has been executed successfully; a crash during execution leaves it unacknowledged. Missing:
that its result has been published. -/
theorem C46_acked_partial (h : run c init ls = some s) : (∀ i, Ev.ack i ∈ s.log → ∃ o, Ev.done i (.ok o) ∈ s.log) ∧
    ∀ i k n r, s.pc = .running i k n r → Ev.ack i ∉ s.log ∧ Ev.nack i ∉ s.log := by
  refine ⟨(ackInv_run h).acked, fun i k n r hpc => ?_⟩
  have hc := (logInv_run h).cur
  rw [hpc] at hc
  obtain ⟨h1, t, h2⟩ := hc
  have : s.next - 1 = i := by omega
  rw [this] at h2
  constructor
  · intro hm
    have : Ev.ack i ∈ taskLog s.log i := by simp [taskLog, hm, Ev.about]
    rw [h2] at this; simp at this
  · intro hm
    have : Ev.nack i ∈ taskLog s.log i := by simp [taskLog, hm, Ev.about]
    rw [h2] at this; simp at this

/-- **C46**, repaired: in executions in which the ack is never done before the result is published, no crash loses the result of an acked task. -/
theorem C46_publish_first_partial (h : run c init ls = some s)
    (hord : ∀ ls1 ls2 s1, ls = ls1 ++ .ack :: ls2 → run c init ls1 = some s1 → ∃ i k o a, s1.pc = .settleOk i k o a true) :
    ∀ i, Ev.ack i ∈ s.log → ∃ k o, Ev.done i (.ok o) ∈ s.log ∧ Ev.resOk i k o ∈ s.log := by
  have key : ∀ (ls' : List (Label κ ο χ)) (s' : St κ ο χ), run c init ls' = some s' → (∀ ls1 ls2 s1, ls' = ls1 ++ .ack :: ls2 → run c init ls1 = some s1 → ∃ i k o a, s1.pc = .settleOk i k o a true) →
      (∀ i, Ev.ack i ∈ s'.log → ∃ k o, Ev.done i (.ok o) ∈ s'.log ∧ Ev.resOk i k o ∈ s'.log) ∧
      (∀ i k o a, s'.pc = .settleOk i k o a true → Ev.resOk i k o ∈ s'.log) := by
    refine Lts.run_induction (P := fun (ls' : List (Label κ ο χ)) (s' : St κ ο χ) => (∀ ls1 ls2 s1, ls' = ls1 ++ .ack :: ls2 → run c init ls1 = some s1 → ∃ i k o a, s1.pc = .settleOk i k o a true) →
      (∀ i, Ev.ack i ∈ s'.log → ∃ k o, Ev.done i (.ok o) ∈ s'.log ∧ Ev.resOk i k o ∈ s'.log) ∧
      (∀ i k o a, s'.pc = .settleOk i k o a true → Ev.resOk i k o ∈ s'.log)) ?_ ?_
    · intro _; simp [init]
    · intro ls' l s1 s2 hr ih hst hord
      have hf := (ackInv_run hr).finished
      obtain ⟨i1, i2⟩ := ih (fun a b d e => hord a (b ++ [l]) d (by simp [e]))
      have hlast : l = .ack → ∃ i k o a, s1.pc = .settleOk i k o a true := by
        rintro rfl; exact hord ls' [] s1 (by simp) hr
      worker_cases hst l
      all_goals try exact ⟨i1, i2⟩
      all_goals (constructor <;> grind)
  exact (key ls s h hord).1

/-- **C63** is false in general: if the command stream ends, the next (or current) execution makes the loop panic; the task is neither acked nor nacked. -/
theorem C63_panic_witness : ∃ (ls : List (Label Nat Nat String)) (s : St Nat Nat String), run ⟨0, 0⟩ init ls = some s ∧ Label.crash ∉ ls ∧ s.pc = .crashed ∧
    s.log = [.take 0 1, .start 0 1 0] :=
  ⟨[.cmdEnd, .deliver 1, .checkFlag, .checkTerm, .start, .sigPoll], _, rfl, by decide, by decide, by decide⟩

/-- **C63**, what holds (partial): as long as the command stream has not ended (and the process is not killed) the loop does not panic. -/
theorem C63_no_panic_partial (h : run c init ls = some s) (hcrash : Label.crash ∉ ls) (hend : Label.cmdEnd ∉ ls) : s.pc ≠ .crashed := by
  have key : ∀ (ls' : List (Label κ ο χ)) (s' : St κ ο χ), run c init ls' = some s' → Label.crash ∉ ls' → Label.cmdEnd ∉ ls' → s'.pc ≠ .crashed ∧ s'.handler ≠ .finished := by
    refine Lts.run_induction (P := fun (ls' : List (Label κ ο χ)) (s' : St κ ο χ) => Label.crash ∉ ls' → Label.cmdEnd ∉ ls' → s'.pc ≠ .crashed ∧ s'.handler ≠ .finished) ?_ ?_
    · intro _ _; simp [init]
    · intro ls' l s1 s2 hr ih hst hc he
      simp only [List.mem_append, List.mem_singleton, not_or] at hc he
      obtain ⟨i1, i2⟩ := ih hc.1 he.1
      constructor
      · intro hx
        rcases crashed_step hst i1 hx with rfl | ⟨-, h'⟩
        · exact hc.2 rfl
        · exact i2 h'
      · intro hx
        have := finished_step hst i2 hx
        exact he.2 this.symm
  exact (key ls s h hcrash hend).1

/-- **C64** is false: an `Abort` command for the job of the executing task, processed and noticed while it executes, does not interrupt it; its result is published. -/
theorem C64_witness : ∃ (ls : List (Label Nat Nat String)) (s : St Nat Nat String), run ⟨0, 0⟩ init ls = some s ∧
    s.log = [.take 0 1, .start 0 1 0, .mark 1 0, .processed 1 0, .done 0 (.ok 7), .ack 0, .resOk 0 1 7] :=
  ⟨[.deliver 1, .checkFlag, .checkTerm, .start, .cmd 1, .hMark, .hSend, .sigPoll, .sigRead, .finish (.ok 7), .ack, .pubOk, .settled], _, rfl, by decide⟩

/-- **C64**, what holds (partial): only an abort-all command interrupts an execution. -/
theorem C64_only_abort_all_partial (h : run c init ls = some s) {i : Nat} (hi : Ev.interrupted i ∈ s.log) : ∃ t, Ev.processed c.abortAll t ∈ s.log :=
  (intInv_run h).sent _ ((intInv_run h).cause i hi)

end Worker
end Paladin
