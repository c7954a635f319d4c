import Verif.Props.MapS
/-!
# Property C58: map makes progress

As long as nothing fails outside the operation, the only states of a map in which nothing can happen by itself are: waiting for more input, or ended with
every input answered. The waking of the task is treated separately (C57).
-/
namespace Paladin
namespace MapS

variable {op : ω → α → Except ε β}

theorem reliable_once {l : Label α ε ω} (h : l.reliable = true) : l.exactlyOnce = true ∧ l.connected = true ∧ l.fails = false ∧ l.loses = false := by
  cases l <;> simp_all [Label.reliable, Label.exactlyOnce, Label.connected, Label.fails, Label.loses]

theorem inflight_le (ls : List (Label α ε ω)) (s : St α β ε) (h : run op init ls = some s) :
    s.inflight.length + s.unconf ≤ (inputs ls).length := by
  refine run_induction (P := fun ls s => s.inflight.length + s.unconf ≤ (inputs ls).length) (by simp [init]) ?_ ls s h
  intro ls l s s' _ ih hst
  rw [inputs_append, inputs_cons]
  simp only [inputs, List.append_nil, List.length_append]
  have hst := stepR_of_step hst
  cases hst with
  | send k t a b hs => simp [hs] at ih ⊢; omega
  | _ => simp_all [Label.items, sendFail] <;> omega

/-- Work measure. -/
def work (s : St α β ε) : Nat :=
  5 * s.inflight.length + 3 * s.tasks.length + 2 * s.results.length + s.unconf +
    (if s.recvEnded then 0 else 1) + (if s.ended then 0 else 1)

theorem work_step {s s' : St α β ε} {l : Label α ε ω} (hne : s.ended = false) (hl : l.internal = true)
    (h : StepR op s l s') : work s' < work s := by
  cases h with
  | send k t a b hs => simp [work, hs]; omega
  | confirm hs => simp [work]; omega
  | exec k w t a b hs => simp [work, hs]; omega
  | recv k r a b _ _ hs => simp [work, hs]
  | recvEnd hs _ _ => simp [work, hs]
  | finish _ _ => simp [work, hne]
  | _ => simp [Label.internal] at hl

/-- **C58, finiteness.** With at-most-once delivery, at most `5 n + 2` steps can happen without new input. -/
theorem C58_bounded (ls ls' : List (Label α ε ω)) (s s' : St α β ε) (h : run op init ls = some s)
    (hl : ∀ l ∈ ls, l.exactlyOnce = true) (hc : ∀ l ∈ ls, l.connected = true)
    (h' : run op s ls' = some s') (hint : ∀ l ∈ ls', l.internal = true) : ls'.length ≤ 5 * (inputs ls).length + 2 := by
  have hw : ls'.length + work s' ≤ work s := by
    clear h
    induction ls' generalizing s with
    | nil => simp [run] at h'; subst h'; simp
    | cons l ls' ih =>
      simp only [run] at h'
      cases hst : step op s l with
      | none => simp [hst] at h'
      | some s1 =>
        simp [hst] at h'
        have := ih s1 h' (fun l hl => hint l (by simp [hl]))
        have := work_step (step_ended hst) (hint l (by simp)) (stepR_of_step hst)
        simp; omega
  obtain ⟨R, T, E, L, hi⟩ := inv_run ls s h hl hc
  have h1 := inflight_le ls s h
  have h2 := hi.part.length_eq
  have h3 := congrArg List.length hi.res
  simp at h2 h3
  simp only [work] at hw
  have i1 : (if s.recvEnded = true then 0 else 1) ≤ 1 := by split <;> omega
  have i2 : (if s.ended = true then 0 else 1) ≤ 1 := by split <;> omega
  omega

theorem outs_length (l : List (Item β ε)) : (oks l).length + (errs l).length = l.length := by
  induction l with
  | nil => rfl
  | cons x l ih => cases x <;> simp [oks, errs] <;> omega

/-- In a reliable run every message counted is somewhere. -/
theorem count_run (ls : List (Label α ε ω)) (s : St α β ε) (h : run op init ls = some s) (hl : ∀ l ∈ ls, l.reliable = true) :
    s.pending = s.inflight.length + s.tasks.length + s.results.length ∧ s.outs.length + s.pending = (inputs ls).length := by
  revert hl
  refine run_induction (P := fun ls s => (∀ l ∈ ls, l.reliable = true) →
    s.pending = s.inflight.length + s.tasks.length + s.results.length ∧ s.outs.length + s.pending = (inputs ls).length)
    (by simp [init, inputs]) ?_ ls s h
  intro ls l s s' _ ih hst hl
  have ih := ih (fun l h => hl l (by simp [h]))
  have hl' := hl l (by simp)
  have hst := stepR_of_step hst
  rw [inputs_append, inputs_cons]
  simp only [inputs, List.append_nil, List.length_append]
  cases hst with
  | send k t a b hs => simp [hs, Label.items] at ih ⊢; omega
  | exec k w t a b hs => simp [hs, Label.items] at ih ⊢; omega
  | recv k r a b _ _ hs =>

    simp [hs, Label.items] at ih ⊢; omega
  | item i a _ _ => simp [Label.items]; omega
  | _ => simp_all [Label.reliable, Label.items]

/-- **C58, progress.** If nothing fails outside the operation and nothing can happen without new input, then either all publishes have returned, every result
has been yielded and the map is waiting for input, or the input has ended and so has the mapped stream; in both cases every input received has been answered by an
output or an error item. -/
theorem C58_progress [Inhabited ω] (ls : List (Label α ε ω)) (s : St α β ε) (h : run op init ls = some s)
    (hl : ∀ l ∈ ls, l.reliable = true)
    (hstuck : ∀ l : Label α ε ω, l.internal = true → step op s l = none) :
    (s.ended = true ↔ .inputEnd ∈ ls) ∧
    (s.ended = false → ∃ s', step op s (.inputEnd : Label α ε ω) = some s') ∧
    ∃ answered failed, (answered ++ failed).Perm (inputs ls) ∧ OneEach (Returns op) answered (oks s.outs) ∧
      failed.length = (errs s.outs).length := by
  have hsd : (s.sendDone = true ↔ .inputEnd ∈ ls) := by
    clear hstuck
    revert hl
    refine run_induction (P := fun ls s => (∀ l ∈ ls, l.reliable = true) → (s.sendDone = true ↔ .inputEnd ∈ ls)) (by simp [init]) ?_ ls s h
    intro ls l s s' _ ih hst hl
    have ih := ih (fun l h => hl l (by simp [h]))
    have hl' := hl l (by simp)
    have hst := stepR_of_step hst
    cases hst <;> simp_all [Label.reliable]
  obtain ⟨R, T, E, L, hi⟩ := inv_run ls s h (fun l h => (reliable_once (hl l h)).1) (fun l h => (reliable_once (hl l h)).2.1)
  obtain ⟨c1, c2⟩ := count_run ls s h hl
  have c3 := outs_length s.outs
  have hR := congrArg List.length hi.res
  have hO := congrArg List.length hi.out
  have hP := hi.part.length_eq
  have hpd := hi.pend
  simp at hR hO hP
  have hL : L = [] := List.eq_nil_of_length_eq_zero (by omega)
  have hE : E.length = (errs s.outs).length := by simp [hL] at hP; omega
  cases hend : s.ended with
  | true =>
    obtain ⟨_, _, _, _, _, hp⟩ := hi.ended hend
    refine ⟨by simpa using hsd.1 (hi.rend (hi.fin hend)).2, by simp, _, E, hp, ⟨T, .refl _, hi.out.symm, hi.ret⟩, hE⟩
  | false =>
    have e1 : s.inflight = [] := by
      by_cases hb : s.inflight = []
      · exact hb
      · obtain ⟨t, rest, ht⟩ := Fold.takeAt_zero hb
        have := hstuck (.send 0) rfl
        simp [step, hend, ht] at this
    have e2 : s.tasks = [] := by
      by_cases hb : s.tasks = []
      · exact hb
      · obtain ⟨t, rest, ht⟩ := Fold.takeAt_zero hb
        have := hstuck (.exec 0 default) rfl
        simp [step, hend, ht] at this
    have e3 : s.results = [] := by
      by_cases hb : s.results = []
      · exact hb
      · obtain ⟨t, rest, ht⟩ := Fold.takeAt_zero hb
        have hre : s.recvEnded = false := by
          cases hr : s.recvEnded with
          | false => rfl
          | true =>
            have := (hi.rend hr).1
            rw [c1] at this
            exact absurd (List.eq_nil_of_length_eq_zero (by omega)) hb
        have := hstuck (.recv 0) rfl
        simp [step, hend, ht, hre, hi.inn] at this
    have e4 : s.unconf = 0 := by
      have := hstuck .confirm rfl
      simp [step, hend] at this
      exact this
    have hp0 : s.pending = 0 := by rw [c1, e1, e2, e3]; rfl
    have e5 : s.sendDone = false := by
      cases hs : s.sendDone with
      | false => rfl
      | true =>
        exfalso
        have h1 := hstuck .recvEnd rfl
        have h2 := hstuck .finish rfl
        simp [step, hend, hs, hi.clo, hi.inn, hp0] at h1 h2
        rw [h1] at h2; simp at h2
    refine ⟨by simp [← hsd, e5], fun _ => ⟨_, by simp [step, hend, e1, e4, e5]; rfl⟩, T.map (fun t => (t.1, t.2.1)), E, ?_,
      ⟨T, .refl _, hi.out.symm, hi.ret⟩, hE⟩
    have hR0 : R = [] := List.eq_nil_of_length_eq_zero (by rw [e3] at hR; simpa using hR.symm)
    have := hi.part
    rw [e1, e2, hR0, hL] at this
    simpa using this

/-- Hypotheses of C58: met by the state before the last two steps of `demo` run to the end. -/
example : ∃ s, run bang init demo = some s ∧ s.ended = true ∧ (∀ l ∈ demo, l.reliable = true) := by
  refine ⟨_, rfl, by decide, by decide⟩

example : ∃ s, run bang init [.item 0 "a", .send 0, .confirm, .exec 0 1, .recv 0] = some s ∧ s.ended = false ∧ s.outs = [.error "boom"] ∧
    (step bang s (.inputEnd : Label String String Nat)).isSome := by
  refine ⟨_, rfl, by decide, by decide, by decide⟩

end MapS
end Paladin
