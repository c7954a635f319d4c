import Verif.Model.MapPoll
import Verif.Proofs.Lts
/-! # Property C57: the task polling a mapped stream is woken -/
namespace Paladin
namespace MapPoll

variable {s s' : St} {ls : List Label}

/-- The mapped stream has returned `Pending` and nobody has called the waker since. -/
def Asleep (s : St) : Prop := s.last = some .pending ∧ s.woken = false

/-- Polling now, whatever the sending side would choose, returns `Pending` and changes nothing but the order of the next poll. -/
def Idle (s : St) : Prop := ∀ c now, ∃ side, pollSelect s c now = ({ s with side := side }, .pending)

structure Inv (s : St) : Prop where
  pend : s.pending = s.inflight + s.results + s.acking.isSome.toNat
  closed : s.closed = true ↔ s.left = .over
  sel : s.sel = .leftFinished ∨ s.sel = .bothFinished → s.left = .over
  right : s.sel ≠ .rightFinished
  both : s.sel = .bothFinished → s.last = some .done
  over : s.last = some .pending → s.left = .over → s.sel ≠ .start
  asleep : s.last = some .pending → s.woken = false → s.left ≠ .running true ∧ s.acking ≠ some true ∧ (s.acking = none → s.results = 0 ∧ s.resReg = true)

theorem inv_init : Inv init := by constructor <;> simp [init]

theorem inv_poll (hi : Inv s) (c : Choice) (now : Bool) (hs : s' = { (pollSelect { s with woken := false } c now).1 with last := some (pollSelect { s with woken := false } c now).2 }) :
    Inv s' ∧ (Asleep s' → s'.closed = true → s'.pending = 0 → s.side = .right ∧ s.sel = .start ∧ s.left = .running true ∧ s.pending = 0 ∧ c = .ends 0) := by
  subst hs
  obtain ⟨h1, h2, h3, h4, h5, h7, h6⟩ := hi
  obtain ⟨left, pending, closed, inflight, results, resReg, acking, side, sel, woken, last⟩ := s
  simp only at h1 h2 h3 h4 h5 h6 h7
  subst h1
  rcases sel with _ | _ | _ | _
  · clear h3 h4 h5 h6
    rcases left with ready | _
    · have hc : closed = false := by cases closed <;> simp at h2 ⊢
      subst hc
      rcases ready with _ | _
      · rcases side with _ | _ <;> rcases acking with _ | ⟨_ | _⟩ <;> rcases results with _ | results <;> rcases now with _ | _ <;>
          simp [pollSelect, pollInner, pollSide, pollLeft, pollRight, Side.other, Sel.finish, ack, publish, Asleep] <;>
          constructor <;> simp <;> omega
      · rcases side with _ | _ <;> rcases acking with _ | ⟨_ | _⟩ <;> rcases results with _ | results <;> rcases now with _ | _ <;> rcases c with k | k | k <;> rcases inflight with _ | inflight <;> rcases k with _ | k <;>
          simp [pollSelect, pollInner, pollSide, pollLeft, pollRight, Side.other, Sel.finish, ack, publish, Asleep] <;> (try refine ⟨?_, ?_⟩) <;> (try omega) <;>
          constructor <;> simp <;> omega
    · have hc : closed = true := by simpa using h2
      subst hc
      rcases side with _ | _ <;> rcases acking with _ | ⟨_ | _⟩ <;> rcases results with _ | results <;> rcases now with _ | _ <;> rcases inflight with _ | inflight <;>
          simp [pollSelect, pollInner, pollSide, pollLeft, pollRight, Side.other, Sel.finish, ack, publish, Asleep] <;> (try refine ⟨?_, ?_⟩) <;> (try omega) <;>
          constructor <;> simp <;> omega
  · have hl : left = .over := h3 (.inl rfl)
    subst hl
    have hc : closed = true := by simpa using h2
    subst hc
    clear h2 h3 h4 h5 h6
    rcases acking with _ | ⟨_ | _⟩ <;> rcases results with _ | results <;> rcases now with _ | _ <;> rcases inflight with _ | inflight <;>
          simp [pollSelect, pollRight, ack, Asleep] <;> (try refine ⟨?_, ?_⟩) <;> (try omega) <;>
          constructor <;> simp <;> omega
  · exact absurd rfl h4
  · have hl : left = .over := h3 (.inr rfl)
    subst hl
    have hc : closed = true := by simpa using h2
    subst hc
    simp [pollSelect, Asleep]
    constructor <;> simp

theorem inv_step (hi : Inv s) {l : Label} (h : step s l = some s') : Inv s' := by
  cases l with
  | poll c now =>
    simp only [step] at h
    split at h
    · cases h
    · simp only [Option.some.injEq] at h
      exact (inv_poll hi c now h.symm).1
  | input =>
    simp only [step] at h
    split at h <;> simp only [Option.some.injEq, reduceCtorEq] at h
    subst h
    obtain ⟨h1, h2, h3, h4, h5, h7, h6⟩ := hi
    rename_i hl
    refine ⟨h1, ?_, ?_, h4, h5, by simp, by simp⟩
    · simpa [hl] using h2
    · intro h; have := h3 h; rw [hl] at this; cases this
  | arrive =>
    simp only [step] at h
    split at h <;> simp only [Option.some.injEq, reduceCtorEq] at h
    subst h
    obtain ⟨h1, h2, h3, h4, h5, h7, h6⟩ := hi
    refine ⟨by simp only; omega, h2, h3, h4, h5, h7, ?_⟩
    simp only [Bool.or_eq_false_iff]
    intro hl ⟨hw, hr⟩
    obtain ⟨g1, g2, g3⟩ := h6 hl hw
    exact ⟨g1, g2, fun hn => by have := (g3 hn).2; rw [hr] at this; cases this⟩
  | acked =>
    simp only [step] at h
    split at h <;> simp only [Option.some.injEq, reduceCtorEq] at h
    subst h
    obtain ⟨h1, h2, h3, h4, h5, h7, h6⟩ := hi
    rename_i hl
    rw [hl] at h1
    exact ⟨h1, h2, h3, h4, h5, h7, by simp⟩

theorem inv_run (h : run init ls = some s) : Inv s := Lts.run_inv inv_init (fun _ _ _ hi h => inv_step hi h) h

/-- A poll of `select` that is over has both sides ended. -/
theorem done_poll (h2 : s.closed = true ↔ s.left = .over) (h3 : s.sel = .leftFinished ∨ s.sel = .bothFinished → s.left = .over) (h4 : s.sel ≠ .rightFinished) (h5 : s.sel ≠ .bothFinished) (c : Choice) (now : Bool) (hd : (pollSelect s c now).2 = .done) :
    (pollSelect s c now).1.left = .over ∧ (pollSelect s c now).1.pending = 0 := by
  obtain ⟨left, pending, closed, inflight, results, resReg, acking, side, sel, woken, last⟩ := s
  simp only at h2 h3 h4 h5
  revert hd
  rcases sel with _ | _ | _ | _
  · rcases left with ⟨_ | _⟩ | _ <;> rcases side with _ | _ <;> rcases acking with _ | ⟨_ | _⟩ <;> rcases results with _ | results <;> rcases now with _ | _ <;> rcases c with k | k | k <;>
      rcases k with _ | k <;> rcases closed with _ | _ <;> rcases pending with _ | pending <;>
      simp [pollSelect, pollInner, pollSide, pollLeft, pollRight, Side.other, Sel.finish, ack, publish] at h2 ⊢
  · have hl : left = .over := h3 (.inl rfl)
    subst hl
    rcases acking with _ | ⟨_ | _⟩ <;> rcases results with _ | results <;> rcases now with _ | _ <;> rcases closed with _ | _ <;> rcases pending with _ | pending <;>
      simp [pollSelect, pollRight, ack]
  · exact absurd rfl h4
  · exact absurd rfl h5

/-- **C57**, the end: the mapped stream ends only when the sending side is over, every task published has been answered, and every answer received and acknowledged. -/
theorem C57_end (h : run init ls = some s) (hd : s.last = some .done) : s.left = .over ∧ s.closed = true ∧ s.pending = 0 ∧ s.inflight = 0 ∧ s.results = 0 ∧ s.acking = none := by
  have key : ∀ (ls : List Label) (s : St), run init ls = some s → Inv s ∧ (s.last = some .done → s.left = .over ∧ s.pending = 0) := by
    refine Lts.run_induction (P := fun (_ : List Label) (s : St) => Inv s ∧ (s.last = some .done → s.left = .over ∧ s.pending = 0)) ⟨inv_init, by simp [init]⟩ ?_
    rintro _ l s s' _ ⟨hi, h⟩ hs
    refine ⟨inv_step hi hs, ?_⟩
    intro hd
    cases l with
    | poll c now =>
      simp only [step] at hs
      split at hs
      · cases hs
      · simp only [Option.some.injEq] at hs
        subst hs
        rename_i hn
        exact done_poll (s := { s with woken := false }) hi.closed hi.sel hi.right (fun hb => hn (hi.both hb)) c now (by simpa using hd)
    | input | arrive | acked =>
      simp only [step] at hs
      split at hs <;> simp only [Option.some.injEq, reduceCtorEq] at hs
      subst hs
      rename_i hl
      first
      | (have := h hd; rw [hl] at this; cases this.1; done)
      | (have h2 := (h hd).2; have h1 := hi.pend; simp_all; done)
      | (have h2 := (h hd).2; have h1 := hi.pend; omega)
  obtain ⟨hi, hk⟩ := key ls s h
  obtain ⟨h1, h2⟩ := hk hd
  have h3 := hi.pend
  rw [h2] at h3
  refine ⟨h1, hi.closed.2 h1, h2, by omega, by omega, ?_⟩
  cases ha : s.acking with
  | none => rfl
  | some b => rw [ha] at h3; simp at h3

/-- **C57**, exactly: when the task sleeps, polling it would change nothing, except when the input has ended and every result was acknowledged; then polling would end the stream, and it sleeps
because in the last poll the results were looked at before the sending side ended. -/
theorem C57_exact (h : run init ls = some s) (ha : Asleep s) : Idle s ∨ (s.closed = true ∧ s.pending = 0 ∧ (∀ c now, (pollSelect s c now).2 = .done) ∧
    ∃ ls1 s1 now, ls = ls1 ++ [.poll (.ends 0) now] ∧ run init ls1 = some s1 ∧ s1.side = .right ∧ s1.sel = .start ∧ s1.left = .running true ∧ s1.pending = 0) := by
  have hi := inv_run h
  by_cases hlate : s.closed = true ∧ s.pending = 0
  · refine .inr ⟨hlate.1, hlate.2, ?_, ?_⟩
    · obtain ⟨h1, h2, h3, h4, h5, h7, h6⟩ := hi
      obtain ⟨left, pending, closed, inflight, results, resReg, acking, side, sel, woken, last⟩ := s
      obtain ⟨hl, hw⟩ := ha
      simp only at h1 h2 h3 h4 h5 h6 h7 hl hw hlate
      obtain ⟨rfl, rfl⟩ := hlate
      have hr : results = 0 := by omega
      have hk : acking = none := by
        cases acking with
        | none => rfl
        | some b => simp at h1
      have hleft : left = .over := h2.1 rfl
      subst hr hk hleft
      intro c now
      rcases sel with _ | _ | _ | _
      · rcases side with _ | _ <;> simp [pollSelect, pollInner, pollSide, pollLeft, pollRight, Side.other, Sel.finish]
      · simp [pollSelect, pollRight]
      · simp [pollSelect, pollLeft]
      · simp [pollSelect]
    · rcases List.eq_nil_or_concat ls with rfl | ⟨ls1, l, rfl⟩
      · simp only [run, Lts.run_nil, Option.some.injEq] at h; subst h
        simp [Asleep, init] at ha
      · rw [List.concat_eq_append] at h ⊢
        obtain ⟨s1, h1, h2⟩ := Lts.run_snoc.1 h
        have hi1 := inv_run h1
        cases l with
        | poll c now =>
          simp only [step] at h2
          split at h2
          · cases h2
          · simp only [Option.some.injEq] at h2
            obtain ⟨g1, g2, g3, g4, rfl⟩ := (inv_poll hi1 c now h2.symm).2 ha hlate.1 hlate.2
            exact ⟨ls1, s1, now, rfl, h1, g1, g2, g3, g4⟩
        | input =>
          simp only [step] at h2
          split at h2 <;> simp only [Option.some.injEq, reduceCtorEq] at h2
          subst h2; simp [Asleep] at ha
        | arrive =>
          exfalso
          have := hi.pend
          simp only [step] at h2
          split at h2 <;> simp only [Option.some.injEq, reduceCtorEq] at h2
          subst h2
          simp only at this hlate; omega
        | acked =>
          simp only [step] at h2
          split at h2 <;> simp only [Option.some.injEq, reduceCtorEq] at h2
          subst h2; simp [Asleep] at ha
  · left
    obtain ⟨h1, h2, h3, h4, h5, h7, h6⟩ := hi
    obtain ⟨left, pending, closed, inflight, results, resReg, acking, side, sel, woken, last⟩ := s
    obtain ⟨hl, hw⟩ := ha
    simp only at h1 h2 h3 h4 h5 h6 h7 hl hw hlate
    subst hl hw
    obtain ⟨g1, g2, g3⟩ := h6 rfl rfl
    intro c now
    have hright : ∀ (side : Side) (sel : Sel) last, pollRight ⟨left, pending, closed, inflight, results, resReg, acking, side, sel, false, last⟩ now = (⟨left, pending, closed, inflight, results, resReg, acking, side, sel, false, last⟩, .pending) := by
      intro side sel last
      rcases acking with _ | ⟨_ | _⟩
      · obtain ⟨rfl, rfl⟩ := g3 rfl
        have : (closed && pending == 0) = false := by
          cases hb : (closed && pending == 0) with
          | false => rfl
          | true => simp at hb; exact absurd hb hlate
        simp [pollRight, this]
      · rfl
      · exact absurd rfl g2
    rcases left with ready | _
    · rcases ready with _ | _
      · have hsel : sel = .start := by
          rcases sel with _ | _ | _ | _
          · rfl
          · have := h3 (.inl rfl); cases this
          · exact absurd rfl h4
          · have := h3 (.inr rfl); cases this
        subst hsel
        refine ⟨side.other, ?_⟩
        rcases side with _ | _ <;> simp [pollSelect, pollInner, pollSide, pollLeft, Side.other, hright]
      · exact absurd rfl g1
    · rcases sel with _ | _ | _ | _
      · exact absurd rfl (h7 rfl rfl)
      · exact ⟨side, by simp [pollSelect, hright]⟩
      · exact absurd rfl h4
      · have := h5 rfl; cases this

/-- **C57**, as far as it holds: if no poll that begins with the results lets the sending side end while nothing is outstanding, then a sleeping task has nothing to do; in particular it does not
stay pending after the input ended and every result was acknowledged. -/
theorem C57_awake_partial (h : run init ls = some s)
    (hgood : ∀ ls1 s1 now, ls = ls1 ++ [.poll (.ends 0) now] → run init ls1 = some s1 → s1.left = .running true → s1.pending = 0 → s1.side = .left) (ha : Asleep s) :
    Idle s ∧ ¬ (s.closed = true ∧ s.pending = 0) := by
  have hnot : ¬ (s.closed = true ∧ s.pending = 0) := by
    intro hlate
    rcases C57_exact h ha with hidle | ⟨-, -, -, ls1, s1, now, h1, h2, h3, -, h5, h6⟩
    · have hi := inv_run h
      obtain ⟨h1, h2, h3, h4, h5, h7, h6⟩ := hi
      obtain ⟨left, pending, closed, inflight, results, resReg, acking, side, sel, woken, last⟩ := s
      obtain ⟨hl, hw⟩ := ha
      simp only at h1 h2 h3 h4 h5 h6 h7 hl hw hlate
      obtain ⟨rfl, rfl⟩ := hlate
      have hr : results = 0 := by omega
      have hk : acking = none := by
        cases acking with
        | none => rfl
        | some b => simp at h1
      have hleft : left = .over := h2.1 rfl
      subst hr hk hleft
      obtain ⟨sd, hp⟩ := hidle (.waits 0) true
      rcases sel with _ | _ | _ | _
      · rcases side with _ | _ <;> simp [pollSelect, pollInner, pollSide, pollLeft, pollRight, Side.other, Sel.finish] at hp
      · simp [pollSelect, pollRight] at hp
      · simp [pollSelect, pollLeft] at hp
      · simp [pollSelect] at hp
    · have := hgood ls1 s1 now h1 h2 h5 h6
      rw [h3] at this; cases this
  refine ⟨?_, hnot⟩
  rcases C57_exact h ha with hidle | ⟨h1, h2, -⟩
  · exact hidle
  · exact absurd ⟨h1, h2⟩ hnot

/-- An input that is pending when first polled and then ends without having had an item. -/
def exEmpty : List Label := [.poll (.waits 0) true, .input, .poll (.ends 0) true]

/-- The same with one item, whose result comes and is acknowledged before the input ends. -/
def exOne : List Label := [.poll (.waits 1) true, .arrive, .poll (.waits 0) true, .poll (.waits 0) true, .input, .poll (.ends 0) true]

/-- **C57** is false: the input has ended and every result was acknowledged, the stream would end if polled, but it is pending, nobody has woken the task, and nothing can happen any more that would. -/
theorem C57_witness : ∀ ls ∈ [exEmpty, exOne], ∃ s, run init ls = some s ∧ Asleep s ∧ s.closed = true ∧ s.pending = 0 ∧ (pollSelect s (.waits 0) true).2 = .done ∧
    ∀ l, (∀ c now, l ≠ .poll c now) → step s l = none := by
  intro ls hls
  simp only [List.mem_cons, List.not_mem_nil, or_false] at hls
  rcases hls with rfl | rfl <;> refine ⟨_, rfl, by constructor <;> rfl, rfl, rfl, rfl, ?_⟩ <;> intro l hl <;> cases l <;> first | rfl | exact absurd rfl (hl _ _)

/-- A case for `C57_awake_partial`: two items; the input ends in a poll that begins with the sending side, one result is still outstanding. -/
example : ∃ s, run init [.poll (.waits 2) true, .arrive, .poll (.waits 0) true, .input, .poll (.ends 0) true] = some s ∧ Asleep s ∧ s.closed = true ∧ s.pending = 1 ∧
    ∃ s', run s [.arrive, .poll (.waits 0) false, .acked, .poll (.waits 0) true, .poll (.waits 0) true] = some s' ∧ s'.last = some .done :=
  ⟨_, rfl, by constructor <;> rfl, rfl, rfl, _, rfl, rfl⟩

end MapPoll
end Paladin
