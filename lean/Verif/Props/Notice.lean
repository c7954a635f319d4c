import Verif.Proofs.Notice
/-! # C90: who notices that the connection to the broker is lost -/
namespace Paladin
namespace Notice
open Worker (Pc)
open Retry (OpError)

variable {κ ο χ τ : Type} [DecidableEq κ] {c : Worker.Cfg κ} {s s' : WSt κ ο χ} {ls : List (WLabel κ ο χ)}

/-! ## The stream -/

/-- **C90.** After an error of lapin the consumer returns `Pending`, although the end of the stream is there to be read and no further waking is to come. -/
theorem C90_stream (x : Str τ) (r : List (Item τ)) (h : x.items = .err :: .fin :: r) : x.poll.2 = .pending ∧ x.poll.1.asleep = true ∧ x.poll.1.items = .fin :: r ∧ x.poll.1.poll.2 = .none := by
  simp [Str.poll, h]

/-! ## The worker -/

/-- **C90**, as far as it holds for workers: a worker that still has to call the broker for the task in hand when the connection is lost does not go back to waiting for tasks … -/
theorem C90_busy_partial (hd : s.str.conn = .down) (ho : owes s.w.pc) (h : wrun c s ls = some s') : s'.w.pc ≠ .waiting := by
  have := (Lts.run_inv (P := fun s : WSt κ ο χ => s.str.conn = .down ∧ doomed s.w.pc) ⟨hd, doomed_of_owes ho⟩ (fun _ _ _ hi hs => doomed_step hi.1 hi.2 hs) h).2
  intro e
  rw [e] at this
  exact this

/-- **C90.** … and its loop comes to its end once the execution of the task is over (with whatever result), by steps that the loop makes by itself: no call to the broker has to succeed for that, and nothing else has to happen. -/
theorem C90_busy_ends (ho : owes s.w.pc) (r : Except (OpError χ) ο) : ∃ ls s', wrun c s ls = some s' ∧ returned s'.w.pc ∧ ∀ l ∈ ls, l ∈ ownSteps r := by
  cases h : s.w.pc with
  | got i k => exact over_got h
  | checked i k => exact over_checked h
  | skipping i k => exact over_skipping h
  | starting i k => exact over_starting h
  | running i k n b => cases b <;> first | exact over_running h | exact over_reading h
  | failing i k e => exact over_failing h
  | settleOk => exact over_ok h
  | settleErr => exact over_err h
  | _ => rw [h] at ho; exact ho.elim

/-- **C90** is false for a worker that waits for a task: unless a task has already arrived (or the broker had cancelled the consumer before), it never notices that the connection is lost. Whatever else happens, it waits
for ever, and is never given a task again. -/
theorem C90_idle (hd : s.str.conn = .down) (hw : s.w.pc = .waiting) (hh : ¬ s.str.hears) (he : ¬ s.str.ends) (hc : Survives ls) (h : wrun c s ls = some s') :
    s'.w.pc = .waiting ∧ s'.str.conn = .down := by
  have : ∀ (ls : List (WLabel κ ο χ)) (s : WSt κ ο χ), s.str.conn = .down → s.w.pc = .waiting → ¬ s.str.hears → ¬ s.str.ends → Survives ls → wrun c s ls = some s' →
      s'.w.pc = .waiting ∧ s'.str.conn = .down := by
    intro ls
    induction ls with
    | nil => intro s hd hw _ _ _ h; cases h; exact ⟨hw, hd⟩
    | cons l ls ih =>
      intro s hd hw hh he hc h
      obtain ⟨s1, h1, h2⟩ := Lts.run_cons.1 h
      obtain ⟨k1, k2, k3, k4⟩ := silent_step hd hw hh he (fun e => hc (by simp [e])) h1
      exact ih s1 k1 k2 k3 k4 (fun hm => hc (List.mem_cons_of_mem _ hm)) h2
  exact this ls s hd hw hh he hc h

/-- **C90.** In particular: a worker that has nothing to do loses its connection, for instance because the broker is restarted. Its main loop does not return after that, neither with an error nor without. -/
theorem C90_lost (hu : s.str.conn = .up) (hw : s.w.pc = .waiting) (hi : s.str.items = []) (hc : Survives ls) (h : wrun c s (.event .lose :: ls) = some s') : s'.w.pc = .waiting := by
  obtain ⟨s1, h1, h2⟩ := Lts.run_cons.1 h
  simp [wstep, Str.event, hu, hi] at h1
  subst h1
  refine (C90_idle (s := { s with str := ⟨[.err, .fin], false, .down⟩ }) rfl hw ?_ ?_ hc h2).1
  · rintro ⟨-, t, r, h⟩; simp at h
  · rintro ⟨-, r, h⟩; simp at h

/-- **C90.** Exactly so: a waiting worker that can still be given a task takes it, and then has it in hand; if the end of the stream is next its loop returns. -/
theorem C90_hears (hw : s.w.pc = .waiting) (hh : s.str.hears ∨ s.str.ends) : ∃ s', wstep c s .poll = some s' ∧ (owes s'.w.pc ∨ returned s'.w.pc) := by
  rcases hh with ⟨ha, t, r, hi⟩ | ⟨ha, r, hi⟩
  · exact ⟨⟨{ s.w with pc := .got s.w.next t, next := s.w.next + 1, log := s.w.log ++ [.take s.w.next t] }, { s.str with items := r }⟩, by simp [wstep, hw, ha, Str.poll, hi, Worker.step], .inl trivial⟩
  · exact ⟨⟨{ s.w with pc := .stopped }, { s.str with items := r }⟩, by simp [wstep, hw, ha, Str.poll, hi, Worker.step], .inr trivial⟩

/-- **C90.** A worker whose task queue is deleted, on the other hand, is woken and its loop returns, without an error. -/
theorem C90_cancelled (hu : s.str.conn = .up) (hw : s.w.pc = .waiting) (hi : s.str.items = []) :
    ∃ s', wrun c s [.event .cancel, .poll] = some s' ∧ s'.w.pc = .stopped := by
  exact ⟨⟨{ s.w with pc := .stopped }, ⟨[], false, .cancelled⟩⟩, Lts.run_cons.2 ⟨⟨s.w, ⟨[.fin], false, .cancelled⟩⟩, by simp [wstep, Str.event, hu, hi], Lts.run_one.2 (by simp [wstep, hw, Str.poll, Worker.step])⟩, rfl⟩

/-! ## The directives -/

variable {d d' : DSt} {ds : List DLabel}

/-- **C90**, as far as it holds for directives: if tasks are still to be published or results to be acknowledged when the connection is lost, that fails, and the caller is given an error before that work is over. -/
theorem C90_directive_partial (hd : d.str.conn = .down) (hw : 0 < d.todo + d.acking) (h : drun d ds = some d') :
    (d'.todo + d'.acking = 0 → d.errs < d'.errs) ∧ (0 < d'.todo + d'.acking → ∃ l ∈ [DLabel.publishFails, .ackFails], ∃ d'', dstep d' l = some d'' ∧ d'.errs < d''.errs) := by
  have key := Lts.run_inv (P := fun x : DSt => x.str.conn = .down ∧ d.errs ≤ x.errs ∧ (x.todo + x.acking = 0 → d.errs < x.errs)) ⟨hd, Nat.le_refl _, fun h => by omega⟩ (by
    rintro x l y ⟨i1, i2, i3⟩ hs
    cases l with
    | event e =>
      simp only [dstep, Option.map_eq_some_iff] at hs
      obtain ⟨z, hz, -⟩ := hs
      exact (down_event i1 hz).elim
    | publish => simp [dstep, i1] at hs
    | ack => simp [dstep, i1] at hs
    | publishFails =>
      simp only [dstep] at hs
      split at hs <;> cases hs
      exact ⟨i1, by dsimp only; omega, fun _ => by dsimp only; omega⟩
    | ackFails =>
      simp only [dstep] at hs
      split at hs <;> cases hs
      exact ⟨i1, by dsimp only; omega, fun _ => by dsimp only; omega⟩
    | poll =>
      simp only [dstep] at hs
      split at hs
      · split at hs <;> cases hs
        · exact ⟨by rw [← i1]; exact poll_conn _, i2, fun h => by simp at h⟩
        · exact ⟨by rw [← i1]; exact poll_conn _, i2, i3⟩
        · exact ⟨by rw [← i1]; exact poll_conn _, i2, i3⟩
      · cases hs) h
  obtain ⟨k1, k2, k3⟩ := key
  refine ⟨k3, fun h0 => ?_⟩
  by_cases ht : 0 < d'.todo
  · exact ⟨.publishFails, by simp, { d' with todo := 0, pending := d'.pending + 1, errs := d'.errs + 1 }, by simp only [dstep, if_pos (And.intro ht k1)], Nat.lt_succ_self _⟩
  · exact ⟨.ackFails, by simp, { d' with acking := d'.acking - 1, errs := d'.errs + 1 }, by simp only [dstep, if_pos (And.intro (show 0 < d'.acking by omega) k1)], Nat.lt_succ_self _⟩

/-- **C90** is false for a directive that waits for results: with everything published, no result to be acknowledged and none that has arrived, it is given neither a result nor an error nor the end of the
stream, whatever happens. -/
theorem C90_directive_idle (hd : d.str.conn = .down) (ht : d.todo = 0) (ha : d.acking = 0) (hp : 0 < d.pending) (ho : d.over = false) (hh : ¬ d.str.hears) (h : drun d ds = some d') :
    d'.over = false ∧ d'.errs = d.errs ∧ d'.acking = 0 ∧ d'.pending = d.pending := by
  have key := Lts.run_inv (P := fun x : DSt => x.str.conn = .down ∧ x.todo = 0 ∧ x.acking = 0 ∧ x.pending = d.pending ∧ x.over = false ∧ x.errs = d.errs ∧ ¬ x.str.hears)
    ⟨hd, ht, ha, rfl, ho, rfl, hh⟩ (by
    rintro x l y ⟨i1, i2, i3, i4, i5, i6, i7⟩ hs
    cases l with
    | event e =>
      simp only [dstep, Option.map_eq_some_iff] at hs
      obtain ⟨z, hz, -⟩ := hs
      exact (down_event i1 hz).elim
    | publish => simp [dstep, i1] at hs
    | ack => simp [dstep, i1] at hs
    | publishFails => simp [dstep, i2] at hs
    | ackFails => simp [dstep, i3] at hs
    | poll =>
      simp only [dstep] at hs
      split at hs
      · rename_i hc
        have hasl : x.str.asleep = false := by
          rcases hc.2 with h | h | h
          · exact h
          · omega
          · omega
        cases hi : x.str.items with
        | nil =>
          simp only [Str.poll, hi, Option.some.injEq] at hs; subst hs
          exact ⟨i1, i2, i3, i4, by simp [i4]; omega, i6, (asleep_silent rfl).1⟩
        | cons i r =>
          cases i with
          | msg t => exact (i7 ⟨hasl, t, r, hi⟩).elim
          | fin =>
            simp only [Str.poll, hi, Option.some.injEq] at hs; subst hs
            exact ⟨i1, i2, i3, i4, by simp [i4]; omega, i6, (asleep_silent rfl).1⟩
          | bad =>
            simp only [Str.poll, hi, Option.some.injEq] at hs; subst hs
            exact ⟨i1, i2, i3, i4, by simp [i4]; omega, i6, (asleep_silent rfl).1⟩
          | err =>
            simp only [Str.poll, hi, Option.some.injEq] at hs; subst hs
            exact ⟨i1, i2, i3, i4, by simp [i4]; omega, i6, (asleep_silent rfl).1⟩
      · cases hs) h
  exact ⟨key.2.2.2.2.1, key.2.2.2.2.2.1, key.2.2.1, key.2.2.2.1⟩

/-- **C90.** In particular: everything is published, results are outstanding, and the connection is lost. The caller waits for ever. -/
theorem C90_directive_lost (hu : d.str.conn = .up) (hi : d.str.items = []) (ht : d.todo = 0) (ha : d.acking = 0) (hp : 0 < d.pending) (ho : d.over = false) (h : drun d (.event .lose :: ds) = some d') :
    d'.over = false ∧ d'.errs = d.errs ∧ d'.acking = 0 ∧ d'.pending = d.pending := by
  obtain ⟨d1, h1, h2⟩ := Lts.run_cons.1 h
  simp [dstep, Str.event, hu, hi] at h1
  subst h1
  refine C90_directive_idle (d := { d with str := ⟨[.err, .fin], false, .down⟩ }) rfl ht ha hp ho ?_ h2
  rintro ⟨-, t, r, h⟩; simp at h

/-- **C90.** Nor does a directive notice that its queue of results is deleted, though a worker does (`C90_cancelled`): the end of the stream is hidden as long as results are outstanding. -/
theorem C90_directive_cancelled (hu : d.str.conn = .up) (hi : d.str.items = []) (ht : d.todo = 0) (ha : d.acking = 0) (hp : 0 < d.pending) (ho : d.over = false)
    (h : drun d (.event .cancel :: ds) = some d') : d'.over = false ∧ d'.errs = d.errs ∧ d'.acking = 0 ∧ d'.pending = d.pending := by
  obtain ⟨d1, h1, h2⟩ := Lts.run_cons.1 h
  simp [dstep, Str.event, hu, hi] at h1
  have key := Lts.run_inv (P := fun x : DSt => x.str.conn ≠ .up ∧ x.todo = 0 ∧ x.acking = 0 ∧ x.pending = d.pending ∧ x.over = false ∧ x.errs = d.errs ∧ ∀ t, .msg t ∉ x.str.items)
    (by subst h1; exact ⟨by simp, ht, ha, rfl, ho, rfl, by simp⟩) (by
    rintro x l y ⟨i1, i2, i3, i4, i5, i6, i7⟩ hs
    cases l with
    | event e =>
      cases e <;> simp [dstep, Str.event, i1] at hs
      obtain ⟨_, ⟨-, rfl⟩, rfl⟩ := hs
      exact ⟨by simp, i2, i3, i4, i5, i6, fun t hm => by simp at hm; exact i7 t hm⟩
    | publish => simp [dstep, i2] at hs
    | ack => simp [dstep, i3] at hs
    | publishFails => simp [dstep, i2] at hs
    | ackFails => simp [dstep, i3] at hs
    | poll =>
      simp only [dstep] at hs
      split at hs
      · cases hi : x.str.items with
        | nil =>
          simp only [Str.poll, hi, Option.some.injEq] at hs; subst hs
          exact ⟨i1, i2, i3, i4, by simp [i4]; omega, i6, by simp⟩
        | cons i r =>
          have i8 : ∀ t, .msg t ∉ r := fun t hm => i7 t (by rw [hi]; exact List.mem_cons_of_mem _ hm)
          cases i with
          | msg t => exact (i7 t (by simp [hi])).elim
          | fin =>
            simp only [Str.poll, hi, Option.some.injEq] at hs; subst hs
            exact ⟨i1, i2, i3, i4, by simp [i4]; omega, i6, i8⟩
          | bad =>
            simp only [Str.poll, hi, Option.some.injEq] at hs; subst hs
            exact ⟨i1, i2, i3, i4, by simp [i4]; omega, i6, i8⟩
          | err =>
            simp only [Str.poll, hi, Option.some.injEq] at hs; subst hs
            exact ⟨i1, i2, i3, i4, by simp [i4]; omega, i6, i8⟩
      · cases hs) h2
  exact ⟨key.2.2.2.2.1, key.2.2.2.2.2.1, key.2.2.1, key.2.2.2.1⟩

/-! ## Cases -/
namespace Demo

/-- Task names are numbers, results too. -/
abbrev W := WSt Nat Nat Nat
/-- No job is called 99. -/
def cfg : Worker.Cfg Nat := ⟨99, 5⟩

/-- A worker has done a task, waits for the next, and loses its connection: it polls once, and that was it. -/
theorem idle_run : (wrun cfg (winit : W) [.event (.arrive 1), .poll, .work .checkFlag, .work .checkTerm, .work .start, .work (.finish (.ok 7)), .work .pubOk, .work .ack, .work .settled, .poll, .event .lose, .poll]).map
    (fun s => (s.w.pc, s.str)) = some (.waiting, ⟨[.fin], true, .down⟩) := by decide +kernel

/-- … there is nothing it could do then. -/
theorem idle_stuck : (wrun cfg (winit : W) [.poll, .event .lose, .poll, .poll]) = none := by decide +kernel

/-- The same while the task is executed: the result cannot be published, and the loop returns the error. -/
theorem busy_run : (wrun cfg (winit : W) [.event (.arrive 1), .poll, .work .checkFlag, .work .checkTerm, .work .start, .event .lose, .work (.finish (.ok 7)), .work .settleFail]).map
    (fun s => (s.w.pc, s.str)) = some (.errored, ⟨[.err, .fin], false, .down⟩) := by decide +kernel

/-- … it has no other way: acknowledging is not possible. -/
theorem busy_stuck : (wrun cfg (winit : W) [.event (.arrive 1), .poll, .work .checkFlag, .work .checkTerm, .work .start, .event .lose, .work (.finish (.ok 7)), .work .ack]) = none := by decide +kernel

/-- A task that has been prefetched is taken after the loss, so that the worker does notice. -/
theorem prefetched_run : (wrun cfg (winit : W) [.event (.arrive 1), .event .lose, .poll, .work .checkFlag, .work .checkTerm, .work .start, .work (.finish (.ok 7)), .work .settleFail]).map
    (fun s => s.w.pc) = some .errored := by decide +kernel

/-- The task queue is deleted. -/
theorem cancel_run : (wrun cfg (winit : W) [.poll, .event .cancel, .poll]).map (fun s => s.w.pc) = some .stopped := by decide +kernel

/-- A directive with two tasks that has received one result and loses its connection: one result outstanding, for ever. -/
theorem directive_run : drun (dinit 2) [.publish, .publish, .event (.arrive ()), .poll, .ack, .poll, .event .lose, .poll] = some ⟨0, 1, 0, 0, false, ⟨[.fin], true, .down⟩⟩ := by decide +kernel

/-- Without a loss it ends. -/
theorem directive_ok : (drun (dinit 2) [.publish, .publish, .event (.arrive ()), .poll, .ack, .event (.arrive ()), .poll, .ack, .poll]).map (fun d => (d.over, d.errs)) = some (true, 0) := by decide +kernel

/-- With a loss before the second task is published there is an error … -/
theorem directive_publishes : (drun (dinit 2) [.publish, .event .lose, .publishFails]).map (fun d => (d.over, d.errs)) = some (false, 1) := by decide +kernel

/-- … and with one before an acknowledgement. -/
theorem directive_acks : (drun (dinit 1) [.publish, .event (.arrive ()), .poll, .event .lose, .ackFails]).map (fun d => (d.over, d.errs)) = some (false, 1) := by decide +kernel

/-- The queue of results is deleted: the end of the stream is read and hidden. -/
theorem directive_cancelled : drun (dinit 1) [.publish, .poll, .event .cancel, .poll] = some ⟨0, 1, 0, 0, false, ⟨[], true, .cancelled⟩⟩ := by decide +kernel

end Demo
end Notice
end Paladin
