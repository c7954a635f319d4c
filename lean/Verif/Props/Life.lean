import Verif.Proofs.Life
/-!
# Property C73: when a worker's loop has ended, nothing that it started goes on

False: only the exit at line 811 aborts the reaper and the command handler, and nothing stops an operation on the blocking pool. Stated exactly, with witnesses, and proved for
loops that return `Ok` otherwise than by abort-all.
-/
namespace Paladin
namespace Life

/-- **C73, exactly.** What a loop has left behind, in terms of what happened to it: the reaper, if it was started and the loop did not return `Ok`; the command handler, if it was started,
the loop did not return `Ok` and the command stream has not ended; and the operations that have not returned. -/
theorem C73_exact (ls : List Label) (s : St) (h : run init ls = some s) (w : Nat) (x : W) (hx : s.ws[w]? = some x) (he : Ended w ls) :
    (x.reaper = true ↔ .opened ∈ actsOf w ls ∧ ¬ EndedOk w ls) ∧
    (x.handler = true ↔ .cmdOpened ∈ actsOf w ls ∧ ¬ EndedOk w ls ∧ .handlerEnd ∉ actsOf w ls) ∧ x.stray = opsRunning (actsOf w ls) := by
  have hi := inv_run ((project h w).2 x hx)
  have hn : (∀ a ∈ actsOf w ls, a.normal = false) ↔ ¬ EndedOk w ls := by
    simp only [EndedOk, not_exists, not_and, Bool.not_eq_true]
  have hph : x.phase = .ended := by
    obtain ⟨a, ha, ha'⟩ := he
    have := hi.ended
    refine Decidable.byContradiction fun hne => ?_
    rw [if_neg hne, List.length_eq_zero_iff, List.filter_eq_nil_iff] at this
    exact this a ha ha'
  refine ⟨by rw [hi.reaper, hn], by rw [hi.handler, hn], ?_⟩
  have := hi.ops
  rw [hph] at this
  simp at this
  unfold opsRunning; omega

/-- A loop has at most one end. -/
theorem ends_once {ls : List Label} {s : St} (h : run init ls = some s) {w : Nat} {x : W} (hx : s.ws[w]? = some x) : ((actsOf w ls).filter Act.ends).length ≤ 1 := by
  have := (inv_run ((project h w).2 x hx)).ended
  split at this <;> omega

/-- **C73 (partial).** A loop that has returned `Ok`, and not because of abort-all, has left nothing behind, then and ever after. Missing: loops that fail, panic, are dropped (`C73_emulator`,
`C73_failed_witness`) or are interrupted by abort-all while an operation runs (`C73_interrupted_witness`). -/
theorem C73_stops_partial (ls ls' : List Label) (s : St) (h : run init (ls ++ ls') = some s) (w : Nat) (x : W) (hx : s.ws[w]? = some x) (he : EndedOk w ls)
    (hi : .interrupt ∉ actsOf w ls) : x.left = 0 := by
  have hr := (project h w).2 x hx
  rw [actsOf_append] at hr
  obtain ⟨x1, h1, h2⟩ := Lts.run_append.1 hr
  have i1 := inv_run h1
  obtain ⟨a, ha, han⟩ := he
  have hae : a.ends = true := by cases a <;> simp_all [Act.normal, Act.ends]
  have p1 : x1.phase = .ended := by
    refine Decidable.byContradiction fun hne => ?_
    have := i1.ended
    rw [if_neg hne, List.length_eq_zero_iff, List.filter_eq_nil_iff] at this
    exact this a ha hae
  obtain ⟨p2, p3⟩ := ended_final h2 p1
  have i2 := inv_run hr
  have hno : ¬ ∀ a ∈ actsOf w ls ++ actsOf w ls', a.normal = false := fun hc => by
    rw [hc a (List.mem_append_left _ ha)] at han; simp at han
  have e1 : x.reaper = false := by
    cases e : x.reaper with
    | false => rfl
    | true => exact absurd (i2.reaper.1 e).2 hno
  have e2 : x.handler = false := by
    cases e : x.handler with
    | false => rfl
    | true => exact absurd (i2.handler.1 e).2.1 hno
  have e3 : x.stray = 0 := by
    rcases Nat.eq_zero_or_pos x.stray with e | e
    · exact e
    · rcases i2.stray e with e | e
      · rcases List.mem_append.1 e with e | e
        · exact absurd e hi
        · exact absurd e p3
      · exact absurd e.2 hno
  simp [W.left, e1, e2, e3]

/-- Hypotheses of `C73_stops_partial`: a loop that executes one task and then sees the end of its stream; of `C73_exact`: the same. -/
example : ∃ s, run init ([.spawn, .act 0 .opened, .act 0 .cmdOpened, .act 0 .take, .act 0 .start, .act 0 .opStart, .act 0 .opReturn, .act 0 .finish, .act 0 .settled, .act 0 .streamEnd] ++
    [.publish 3]) = some s ∧ s.ws.map W.left = [0] ∧
    EndedOk 0 [.spawn, .act 0 .opened, .act 0 .cmdOpened, .act 0 .take, .act 0 .start, .act 0 .opStart, .act 0 .opReturn, .act 0 .finish, .act 0 .settled, .act 0 .streamEnd] :=
  ⟨_, rfl, rfl, by unfold EndedOk; decide⟩

/-- **C73, commands (partial).** Whoever takes a command is the handler of a loop that got into its loop and has not returned `Ok`. Missing:
loops that failed, panicked or were dropped go on taking commands (`C73_failed_witness`). -/
theorem C73_commands_partial (ls ls' : List Label) (w : Nat) (s : St) (h : run init (ls ++ .command w :: ls') = some s) :
    .cmdOpened ∈ actsOf w ls ∧ ¬ EndedOk w ls ∧ .handlerEnd ∉ actsOf w ls := by
  obtain ⟨s1, h1, h2⟩ := Lts.run_append.1 h
  obtain ⟨s2, h3, _⟩ := Lts.run_cons.1 h2
  simp only [step] at h3
  split at h3 <;> try simp only [reduceCtorEq] at h3
  rename_i x c cs hx _
  split at h3 <;> try simp only [reduceCtorEq] at h3
  rename_i hh
  obtain ⟨e1, e2, e3⟩ := (inv_run ((project h1 w).2 x hx)).handler.1 hh
  refine ⟨e1, ?_, e3⟩
  rintro ⟨a, ha, hn⟩
  rw [e2 a ha] at hn; simp at hn

/-- **C73, every command is taken once, in order.** -/
theorem C73_commands_order (ls : List Label) (s : St) (h : run init ls = some s) :
    s.taken.map (·.2) ++ s.cmds = ls.filterMap fun | .publish c => some c | _ => none := by
  refine Lts.run_induction (step := step) (P := fun ls s => s.taken.map (·.2) ++ s.cmds = ls.filterMap fun | .publish c => some c | _ => none) rfl ?_ ls s h
  intro ls l s s' _ ih hs
  cases l with
  | spawn => cases hs; simpa using ih
  | act w a =>
    simp only [step, Option.bind_eq_bind, Option.bind_eq_some_iff] at hs
    obtain ⟨x, _, y, _, rfl⟩ := by simpa using hs
    simpa using ih
  | publish c => cases hs; simp [← ih]
  | command w =>
    simp only [step] at hs
    split at hs <;> try simp only [reduceCtorEq] at hs
    rename_i x c cs hx hc
    split at hs <;> try simp only [reduceCtorEq] at hs
    cases hs
    rw [hc] at ih
    simpa using ih

/-- Hypotheses of `C73_commands_partial` and `C73_commands_order`: met. -/
example : ∃ s, run init ([.spawn, .act 0 .opened, .act 0 .cmdOpened, .publish 4, .publish 3] ++ .command 0 :: [.act 0 .streamEnd]) = some s ∧ s.taken = [(0, 4)] ∧ s.cmds = [3] := ⟨_, rfl, rfl, rfl⟩

/-- **C73, dropping the emulator.** Every worker of the emulator that had got into its loop leaves its reaper and its command handler running when the `Runtime` is dropped, for ever
(command streams in memory do not end). -/
theorem C73_emulator (ls : List Label) (s : St) (h : run init ls = some s)
    (hd : ∀ w < s.ws.length, .cmdOpened ∈ actsOf w ls ∧ .dropped ∈ actsOf w ls ∧ .handlerEnd ∉ actsOf w ls) : 2 * s.ws.length ≤ (s.ws.map W.left).sum := by
  have key : ∀ x ∈ s.ws, 2 ≤ x.left := by
    intro x hx
    obtain ⟨w, hw, rfl⟩ := List.getElem_of_mem hx
    obtain ⟨h1, h2, h3⟩ := hd w hw
    have hx' : s.ws[w]? = some s.ws[w] := List.getElem?_eq_getElem hw
    have hI := inv_run ((project h w).2 _ hx')
    have hnok : ¬ EndedOk w ls := by
      rintro ⟨a, ha, han⟩
      have h1 := ends_once h hx'
      have hae : a.ends = true := by cases a <;> simp_all [Act.normal, Act.ends]
      have m1 : a ∈ (actsOf w ls).filter Act.ends := List.mem_filter.2 ⟨ha, hae⟩
      have m2 : Act.dropped ∈ (actsOf w ls).filter Act.ends := List.mem_filter.2 ⟨h2, rfl⟩
      match hf : (actsOf w ls).filter Act.ends with
      | [] => rw [hf] at m1; simp at m1
      | [b] =>
        rw [hf] at m1 m2
        simp at m1 m2
        subst m1
        rw [← m2] at han
        simp [Act.normal] at han
      | _ :: _ :: _ => rw [hf] at h1; simp at h1
    obtain ⟨e1, e2, -⟩ := C73_exact ls s h w _ hx' ⟨_, h2, rfl⟩
    have hop : Act.opened ∈ actsOf w ls := hI.co h1
    simp [W.left, e1.2 ⟨hop, hnok⟩, e2.2 ⟨h1, hnok, h3⟩]
  clear hd h
  generalize s.ws = l at key ⊢
  induction l with
  | nil => simp
  | cons x xs ih =>
    have h1 := key x (by simp)
    have h2 := ih (fun y hy => key y (by simp [hy]))
    simp; omega

/-- A loop that has got into its `while`. -/
def up (w : Nat) : List Label := [.spawn, .act w .opened, .act w .cmdOpened]

/-- Witness: three workers of an emulator, one of them executing an operation; the `Runtime` is dropped. Six tokio tasks and an operation go on. -/
theorem C73_emulator_witness : ∃ s, run init (up 0 ++ up 1 ++ up 2 ++ [.act 1 .take, .act 1 .start, .act 1 .opStart] ++ [.act 0 .abort, .act 1 .abort, .act 2 .abort] ++
    [.act 0 .dropped, .act 1 .dropped, .act 2 .dropped]) = some s ∧ (s.ws.map W.left) = [2, 3, 2] := ⟨_, rfl, rfl⟩

/-- Witness: two workers on AMQP. The first one fails to settle a task and its `main_loop` returns the error. Its command handler goes on and takes the next command, which
the second worker never sees. -/
theorem C73_failed_witness : ∃ s, run init (up 0 ++ up 1 ++ [.act 0 .take, .act 0 .start, .act 0 .opStart, .act 0 .opReturn, .act 0 .finish, .act 0 .settleFail, .publish 7, .command 0]) =
    some s ∧ Ended 0 (up 0 ++ up 1 ++ [.act 0 .take, .act 0 .start, .act 0 .opStart, .act 0 .opReturn, .act 0 .finish, .act 0 .settleFail, .publish 7, .command 0]) ∧
    s.taken = [(0, 7)] ∧ s.cmds = [] ∧ (s.ws.map W.phase) = [.ended, .waiting] := ⟨_, rfl, by unfold Ended; decide, rfl, rfl, rfl⟩

/-- Witness: a worker whose command channel cannot be opened: `main_loop` returns the error and leaves its reaper behind. -/
theorem C73_half_witness : ∃ s, run init [.spawn, .act 0 .opened, .act 0 .cmdFail] = some s ∧ Ended 0 [.spawn, .act 0 .opened, .act 0 .cmdFail] ∧ (s.ws.map W.left) = [1] :=
  ⟨_, rfl, by unfold Ended; decide, rfl⟩

/-- Witness: abort-all interrupts an operation that does not look at the abort signal; the loop returns `Ok` and the operation goes on. -/
theorem C73_interrupted_witness : ∃ s, run init (up 0 ++ [.act 0 .take, .act 0 .start, .act 0 .opStart, .act 0 .interrupt, .act 0 .drained]) = some s ∧
    EndedOk 0 (up 0 ++ [.act 0 .take, .act 0 .start, .act 0 .opStart, .act 0 .interrupt, .act 0 .drained]) ∧ (s.ws.map W.left) = [1] := ⟨_, rfl, by unfold EndedOk; decide, rfl⟩

end Life
end Paladin
