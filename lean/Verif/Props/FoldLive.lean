import Verif.Proofs.FoldEnd
import Verif.Props.Fold
/-!
# Properties C07, C08, C09, C10: counting, completion, errors, offsets

Vocabulary: Verif/Spec/FoldTrace.lean (`inputs`, `publishes`, `execs`, `recvs`, `cover`, `lossless`, `reliable`, `internal`).
-/
namespace Paladin
namespace Fold

variable {comb : ω → α → α → Except ε α} {empty : α} {dupErr : ε}

theorem nodup_of_block {l : List (Nat × α)} {st : Nat} {xs : List α} (h : l.Perm (indexed st xs)) :
    (l.map (·.1)).Nodup := by
  rw [(h.map (·.1)).nodup_iff, map_fst_indexed]
  exact List.nodup_range'

/-- The step by which fold returns `Ok` is the end of a short input or the oneshot. -/
theorem ok_last {ls : List (Label α ε ω)} {s : St α ε} {v : α} (h : run comb empty dupErr init ls = some s)
    (hv : s.outcome = some (.ok v)) : ∃ ls' l s', ls = ls' ++ [l] ∧ run comb empty dupErr init ls' = some s' ∧
      s'.outcome = none ∧ StepR comb empty dupErr s' l s := by
  have hne : ls ≠ [] := by
    rintro rfl; simp [run] at h; subst h; simp [init] at hv
  obtain ⟨ls', l, rfl⟩ : ∃ ls' l, ls = ls' ++ [l] := ⟨_, _, (List.dropLast_append_getLast hne).symm⟩
  obtain ⟨s1, s2, h1, h2, h3, h4⟩ := run_split h
  simp [run] at h4; subst h4
  exact ⟨ls', l, s1, rfl, h1, step_outcome h2, stepR_of_step h2⟩

/-- **C07, count.** In every execution without lost or duplicated messages in which fold returns `Ok` on `n ≥ 1` items, exactly `n - 1`
combine tasks were published and exactly `n - 1` executed. -/
theorem C07_combine_count (ls : List (Label α ε ω)) (s : St α ε) (v : α)
    (h : run comb empty dupErr init ls = some s) (hv : s.outcome = some (.ok v))
    (hl : ∀ l ∈ ls, l.lossless = true) (hne : inputs ls ≠ []) :
    publishes ls = (inputs ls).length - 1 ∧ execs ls = (inputs ls).length - 1 := by
  have hblock : ((inputs ls).map (·.1)).Nodup := by
    rcases C05_fold_ok ls s v h hv with ⟨h1, _⟩ | ⟨st, xs, hp, _⟩
    · exact absurd h1 hne
    · exact nodup_of_block hp
  obtain ⟨ls', l, s', rfl, hr, ho, hst⟩ := ok_last h hv
  have hl' : ∀ l ∈ ls', l.lossless = true := fun l hl' => hl l (by simp [hl'])
  have hin : inputs (ls' ++ [l]) = inputs ls' ++ l.items := by rw [inputs_append, inputs_cons]; simp [inputs]
  have hnd' : ((inputs ls').map (·.1)).Nodup := by
    rw [hin, List.map_append] at hblock; exact (List.nodup_append.1 hblock).1
  have hc := cnt_run ls' s' hr hl' hnd' ho
  have hp := part_run ls' s' hr (fun l hl => lossless_once (hl' l hl)) hnd' ho
  have hs := (safe_run ls' s' hr).1
  have hcnt := hs.cnt
  have cov := hc.obj; have ex := hc.ex
  rw [publishes_append, execs_append, hin]
  cases hst with
  | inputEnd hsz =>
    simp only [Label.items, List.append_nil, publishes, execs]
    unfold onInputEnd at hv
    simp only at hv
    split at hv
    · rename_i h0
      rw [hin] at hne
      simp only [Label.items, List.append_nil] at hne
      exact absurd (List.eq_nil_of_length_eq_zero (by omega)) hne
    · rename_i h1
      split at hv
      · rename_i x q' hd
        simp only [CQueue.dequeue, Prod.mk.injEq] at hd
        have hm := List.length_pos_of_mem (List.mem_of_find?_eq_some hd.1)
        omega
      · simp at hv
    · simp [ho] at hv
  | finish v' hf =>
    simp only [Label.items, List.append_nil, publishes, execs]
    obtain ⟨_, c1, c2, c3, c4⟩ := hp.cls (by simp [hf])
    simp [c1, c2, c3, c4, hf] at cov ex
    omega
  | recv k r rest hn hp' =>
    exfalso
    unfold onResult at hv
    split at hv
    · simp at hv
    · rename_i x
      obtain ⟨_, _, _, _, _, _, f7⟩ := tryDispatch_fields { s' with results := rest } x
      simp only at hv
      split at hv
      · split at hv
        · split at hv
          · simp [ho] at hv
          · simp at hv
        · rw [f7] at hv; simp [ho] at hv
      · rw [f7] at hv; simp [ho] at hv
  | item i a hs' =>
    exfalso
    unfold onItem at hv; simp only at hv; split at hv
    · simp [ho] at hv
    · obtain ⟨_, _, _, _, _, _, f7⟩ := tryDispatch_fields { s' with count := s'.count + 1, notified := true } (⟨i, i, a⟩ : Seg α)
      rw [f7] at hv; simp [ho] at hv
  | _ => simp [ho] at hv

/-- **C07, partition.** As long as fold is running without lost or duplicated messages and with distinct indices, and no error
result is waiting, the ranges queued, awaiting publication, published and returned together cover every received index
exactly once (until the single full range has been accepted as final). -/
theorem C07_partition (ls : List (Label α ε ω)) (s : St α ε) (h : run comb empty dupErr init ls = some s)
    (hl : ∀ l ∈ ls, l.lossless = true) (hnd : ((inputs ls).map (·.1)).Nodup) (ho : s.outcome = none)
    (hf : s.final = none) (herr : ∀ e, Res.err e ∉ s.results) : (cover s).Perm ((inputs ls).map (·.1)) := by
  have hp := part_run ls s h (fun l h => lossless_once (hl l h)) hnd ho
  obtain ⟨lost, h1, _, h3, _⟩ := hp.opn hf
  have : lost = [] := by
    refine h3 hl ?_
    rw [List.countP_eq_zero]
    intro r hr
    cases r with
    | ok x => simp [Res.isErr]
    | err e => exact absurd hr (herr e)
  subst this
  simpa using h1

/-- What is left over when fold returns `Ok`: nothing was missing. -/
theorem ok_not_lossy (ls : List (Label α ε ω)) (s : St α ε) (v : α) (h : run comb empty dupErr init ls = some s)
    (hv : s.outcome = some (.ok v)) (hl : ∀ l ∈ ls, l.exactlyOnce = true) : ¬ Lossy comb empty dupErr ls := by
  have hnd : ((inputs ls).map (·.1)).Nodup := by
    rcases C05_fold_ok _ s v h hv with ⟨h1, _⟩ | ⟨st, xs, hp, _⟩
    · rw [h1]; simp
    · exact nodup_of_block hp
  obtain ⟨ls', l, s', rfl, hr, ho, hst⟩ := ok_last h hv
  have hin : inputs (ls' ++ [l]) = inputs ls' ++ l.items := by rw [inputs_append, inputs_cons]; simp [inputs]
  have hnd' : ((inputs ls').map (·.1)).Nodup := by
    rw [hin, List.map_append] at hnd; exact (List.nodup_append.1 hnd).1
  have hp := part_run ls' s' hr (fun l h => hl l (by simp [h])) hnd' ho
  have hs := safe_run ls' s' hr
  have hres : ∀ e, Res.err e ∈ s.results → Res.err e ∈ s'.results := by
    intro e he
    cases hst with
    | inputEnd hsz =>
      unfold onInputEnd at he; simp only at he
      split at he
      · exact he
      · split at he <;> exact he
      · exact he
    | finish v' hf => exact he
    | recv k r rest hn hp' =>
      exfalso
      unfold onResult at hv
      split at hv
      · simp at hv
      · rename_i x
        obtain ⟨_, _, _, _, _, _, f7⟩ := tryDispatch_fields { s' with results := rest } x
        simp only at hv
        split at hv
        · split at hv
          · split at hv
            · simp [ho] at hv
            · simp at hv
          · rw [f7] at hv; simp [ho] at hv
        · rw [f7] at hv; simp [ho] at hv
    | item i a hs' =>
      exfalso
      unfold onItem at hv; simp only at hv; split at hv
      · simp [ho] at hv
      · obtain ⟨_, _, _, _, _, _, f7⟩ := tryDispatch_fields { s' with count := s'.count + 1, notified := true } (⟨i, i, a⟩ : Seg α)
        rw [f7] at hv; simp [ho] at hv
    | _ => simp [ho] at hv
  have hloses : l.loses = false := by
    cases hst <;> simp [Label.loses] <;> simp [ho] at hv
  have hly : Lossy comb empty dupErr (ls' ++ [l]) → Lossy comb empty dupErr ls' := by
    rintro (⟨l', hl', hh⟩ | ⟨p, s1, e, hp1, hr', he⟩)
    · simp at hl'
      rcases hl' with hl' | rfl
      · exact .inl ⟨l', hl', hh⟩
      · rw [hloses] at hh; simp at hh
    · rcases prefix_snoc hp1 with hp1 | rfl
      · exact .inr ⟨p, s1, e, hp1, hr', he⟩
      · rw [h] at hr'; simp at hr'; subst hr'
        exact .inr ⟨ls', s', e, List.prefix_refl _, hr, hres e he⟩
  intro hlossy
  have hlossy := hly hlossy
  cases hf : s'.final with
  | some w => exact (hp.cls (by simp [hf])).1 hlossy
  | none =>
    obtain ⟨lost, h1, _, _, h4⟩ := hp.opn hf
    have hne := h4 hlossy
    cases hst with
    | inputEnd hsz =>
      unfold onInputEnd at hv; simp only at hv
      have hlen := h1.length_eq
      have hcnt := hs.1.cnt
      have hlp := List.length_pos_iff.2 hne
      simp only [List.length_append, List.length_map] at hlen
      split at hv
      · omega
      · split at hv
        · rename_i x q' hd
          simp only [CQueue.dequeue, Prod.mk.injEq] at hd
          have hm := List.mem_of_find?_eq_some hd.1
          have hpos : 0 < (cover s').length := by
            have hx := seg_idxs_ne (hs.1.qok x hm).valid
            obtain ⟨i, hi⟩ := List.exists_mem_of_ne_nil _ hx
            exact List.length_pos_of_mem (mem_cover_q hm hi)
          omega
        · simp at hv
      · simp [ho] at hv
    | finish v' hf' => simp [hf] at hf'
    | recv k r rest hn hp' =>
      unfold onResult at hv
      split at hv
      · simp at hv
      · rename_i x
        obtain ⟨_, _, _, _, _, _, f7⟩ := tryDispatch_fields { s' with results := rest } x
        simp only at hv
        split at hv
        · split at hv
          · split at hv
            · simp [ho] at hv
            · simp at hv
          · rw [f7] at hv; simp [ho] at hv
        · rw [f7] at hv; simp [ho] at hv
    | item i a hs' =>
      unfold onItem at hv; simp only at hv; split at hv
      · simp [ho] at hv
      · obtain ⟨_, _, _, _, _, _, f7⟩ := tryDispatch_fields { s' with count := s'.count + 1, notified := true } (⟨i, i, a⟩ : Seg α)
        rw [f7] at hv; simp [ho] at hv
    | _ => simp [ho] at hv

/-- **C09, combine errors.** With every message delivered at most once, once an `Err` result for a combine has reached the result queue
fold never returns `Ok`, whatever happens later. -/
theorem C09_combine_error (ls1 ls2 : List (Label α ε ω)) (s1 s2 : St α ε) (e : ε) (v : α)
    (h1 : run comb empty dupErr init ls1 = some s1) (he : Res.err e ∈ s1.results)
    (h2 : run comb empty dupErr s1 ls2 = some s2)
    (hl : ∀ l ∈ ls1 ++ ls2, l.exactlyOnce = true) : s2.outcome ≠ some (.ok v) := by
  intro hv
  have hrun : run comb empty dupErr init (ls1 ++ ls2) = some s2 := by rw [run_append, h1]; exact h2
  exact ok_not_lossy _ _ v hrun hv hl (.inr ⟨ls1, s1, e, List.prefix_append _ _, h1, he⟩)

/-- **C09, lost messages.** With every message delivered at most once, if a published task or a result is ever lost (for example an ignored
error), fold never returns `Ok`. -/
theorem C09_loss_never_ok (ls : List (Label α ε ω)) (s : St α ε) (v : α) (h : run comb empty dupErr init ls = some s)
    (hl : ∀ l ∈ ls, l.exactlyOnce = true) (hlose : ∃ l ∈ ls, l.loses = true) : s.outcome ≠ some (.ok v) :=
  fun hv => ok_not_lossy ls s v h hv hl (.inl hlose)

/-- **C09, input errors.** An error of the input stream is returned at once and unchanged. -/
theorem C09_input_error (ls1 ls2 : List (Label α ε ω)) (s : St α ε) (e : ε)
    (h : run comb empty dupErr init (ls1 ++ .inputErr e :: ls2) = some s) : ls2 = [] ∧ s.outcome = some (.err e) := by
  obtain ⟨s1, s2, _, h2, _, h4⟩ := run_split h
  have : s2.outcome = some (.err e) := by
    have := stepR_of_step h2
    cases this; rfl
  obtain ⟨rfl, rfl⟩ := run_of_outcome (by simp [this]) h4
  exact ⟨rfl, this⟩

/-- **C09, provenance.** An error returned by fold was reported: by the input stream, by publishing, acknowledging or closing (`ioErr`), or
by a combine that was executed. (Distinct indices, every message delivered at most once. Otherwise there is one more error, "final result tx
taken", when a second final result arrives.) -/
theorem C09_error_provenance (ls : List (Label α ε ω)) (s : St α ε) (e : ε) (h : run comb empty dupErr init ls = some s)
    (hl : ∀ l ∈ ls, l.exactlyOnce = true) (hnd : ((inputs ls).map (·.1)).Nodup) (he : s.outcome = some (.err e)) :
    .inputErr e ∈ ls ∨ .ioErr e ∈ ls ∨ ∃ k w a b, .exec k w ∈ ls ∧ comb w a b = .error e := by
  rcases (prov_run ls s h).out e he with h1 | h1 | h1 | ⟨_, p, s1, x, hp, hr, ho, hf, hx⟩
  · exact .inl h1
  · exact .inr (.inl h1)
  · exact .inr (.inr h1)
  · exfalso
    obtain ⟨t, rfl⟩ := hp
    have hnd' : ((inputs p).map (·.1)).Nodup := by
      rw [inputs_append, List.map_append] at hnd; exact (List.nodup_append.1 hnd).1
    have := (part_run p s1 hr (fun l hl' => hl l (by simp [hl'])) hnd' ho).cls hf
    rw [this.2.2.2.2] at hx; simp at hx

/-! ## C08: completion

The property as stated, "if the input ends and every combine returns then fold returns", is false: `C08_hang` and `C08_hang_witness`. It
holds exactly when fewer than `n - 1` results were received before the end of the input was observed: `C08_completes_partial`. -/

/-- **C08, finiteness.** From any state reached without loss or duplication with distinct indices, the system takes at most `6 n + 1` steps
(publishing, executing, receiving, returning) before it needs new input. -/
theorem C08_bounded (ls ls' : List (Label α ε ω)) (s s' : St α ε) (h : run comb empty dupErr init ls = some s)
    (hl : ∀ l ∈ ls, l.lossless = true) (hnd : ((inputs ls).map (·.1)).Nodup)
    (h' : run comb empty dupErr s ls' = some s') (hint : ∀ l ∈ ls', l.internal = true) :
    ls'.length ≤ 6 * (inputs ls).length + 1 := by
  by_cases ho : s.outcome = none
  · have hw := work_run ls s h ls' s' h' hint
    have hc := (cnt_run ls s h hl hnd ho).obj
    have hn := (safe_run ls s h).1.cnt
    simp only [work, ho, if_true] at hw
    omega
  · obtain ⟨rfl, _⟩ := run_of_outcome ho h'; simp

/-- After the end of input with fewer than `n - 1` results received, no queued segment is final. -/
theorem noWide_of_recvs {pre : List (Label α ε ω)} {s1 : St α ε} (h : run comb empty dupErr init (pre ++ [.inputEnd]) = some s1)
    (hl : ∀ l ∈ pre ++ [(.inputEnd : Label α ε ω)], l.lossless = true) (hnd : ((inputs pre).map (·.1)).Nodup)
    (hrc : recvs pre + 1 < (inputs pre).length) : s1.size ≠ none ∧ NoWide s1 := by
  have hsz := (size_run _ s1 h).1 (by simp)
  have hi : inputs (pre ++ [(.inputEnd : Label α ε ω)]) = inputs pre := by rw [inputs_append]; simp [inputs]
  have hr : recvs (pre ++ [(.inputEnd : Label α ε ω)]) = recvs pre := by rw [recvs_append]; simp [recvs]
  refine ⟨fun hh => by simp [hh] at hsz, ?_⟩
  intro n hn x hx hw
  by_cases ho : s1.outcome = none
  · have hs := (safe_run _ s1 h).1
    have hnd' : ((inputs (pre ++ [(.inputEnd : Label α ε ω)])).map (·.1)).Nodup := by rw [hi]; exact hnd
    have hc := cnt_run _ s1 h hl hnd' ho
    have hp := part_run _ s1 h (fun l h => lossless_once (hl l h)) hnd' ho
    have := hs.sz n hn
    have := wide_recvs hs hc hp hx (by omega)
    rw [hi, hr] at this
    omega
  · obtain ⟨s0, s2, h1, h2, h3, h4⟩ := run_split h
    simp [run] at h4; subst h4
    have hst := stepR_of_step h2
    have hcnt := (safe_run pre s0 h1).1.cnt
    cases hst with
    | inputEnd hs =>
      unfold onInputEnd at ho; simp only at ho
      split at ho
      · omega
      · omega
      · simp [step_outcome h2] at ho

/-- `C08_completes_partial` for at least two items. -/
theorem completes_many [Inhabited ω] (pre post : List (Label α ε ω)) (s : St α ε) (start : Nat) (xs : List α)
    (h : run comb empty dupErr init (pre ++ .inputEnd :: post) = some s)
    (hrel : ∀ l ∈ pre ++ .inputEnd :: post, l.reliable = true)
    (hin : (inputs pre).Perm (indexed start xs)) (hn : 2 ≤ xs.length) (hrc : recvs pre < xs.length - 1)
    (hstuck : ∀ l : Label α ε ω, l.internal = true → step comb empty dupErr s l = none) :
    (∃ v, s.outcome = some (.ok v)) ∨
    ∃ e k w a b, s.outcome = some (.err e) ∧ .exec k w ∈ pre ++ .inputEnd :: post ∧ comb w a b = .error e := by
  have hlen : (inputs pre).length = xs.length := by rw [hin.length_eq, length_indexed]
  obtain ⟨s0, s1, h0, h01, h1, h2⟩ := run_split h
  have hsplit : pre ++ .inputEnd :: post = (pre ++ [.inputEnd]) ++ post := by simp
  have hnd := nodup_of_block hin
  obtain ⟨hsz1, hw1⟩ := noWide_of_recvs h1 (fun l hl => reliable_lossless (hrel l (by simp at hl ⊢; rcases hl with hl | hl <;> simp [hl]))) hnd
    (by omega)
  obtain ⟨hsz, hw⟩ := noWide_run _ s1 h1 hsz1 hw1 post s h2
  -- no input after the end
  have hpost : inputs post = [] := by
    have hc1 := (safe_run _ s1 h1).1
    have hc := (safe_run _ s h).1
    cases hs1 : s1.size with
    | none => exact absurd hs1 hsz1
    | some n1 =>
      have e1 := hc1.sz n1 hs1
      have key : ∀ (q : List (Label α ε ω)) (t t' : St α ε), run comb empty dupErr t q = some t' → t.size ≠ none →
          inputs q = [] := by
        intro q
        induction q with
        | nil => intro _ _ _ _; rfl
        | cons l q ih =>
          intro t t' hr ht
          simp only [run] at hr
          cases hst : step comb empty dupErr t l with
          | none => simp [hst] at hr
          | some t1 =>
            simp [hst] at hr
            have hR := stepR_of_step hst
            rw [inputs_cons]
            have ht1 : t1.size ≠ none := by
              cases hR with
              | item _ _ hs | inputErr _ hs | inputEnd hs => exact absurd hs ht
              | recv k r rest hn hp =>
                unfold onResult; split
                · exact ht
                · rename_i x
                  have hd := (tryDispatch_fields { t with results := rest } x).2.1
                  simp only; split
                  · split
                    · split <;> exact ht
                    · rw [hd]; exact ht
                  · rw [hd]; exact ht
              | _ => exact ht
            rw [ih t1 t' hr ht1]
            cases hR with
            | item _ _ hs => exact absurd hs ht
            | _ => simp [Label.items]
      exact key post s1 s h2 hsz1
  have hinp : inputs (pre ++ .inputEnd :: post) = inputs pre := by
    rw [inputs_append, inputs_cons]; simp [Label.items, hpost]
  have hnd' : ((inputs (pre ++ .inputEnd :: post)).map (·.1)).Nodup := by rw [hinp]; exact hnd
  have honce : ∀ l ∈ pre ++ .inputEnd :: post, l.exactlyOnce = true := fun l hl => lossless_once (reliable_lossless (hrel l hl))
  have hs := (safe_run _ s h).1
  have hcnt := hs.cnt
  rw [hinp, hlen] at hcnt
  cases ho : s.outcome with
  | none =>
    exfalso
    obtain ⟨g1, g2, g3, g4⟩ := stuck_empty _ s h (by omega) ho hstuck
    have hp := part_run _ s h honce hnd' ho
    obtain ⟨lost, p1, _, p3, _⟩ := hp.opn g4
    have hlost : lost = [] := p3 (fun l hl => reliable_lossless (hrel l hl)) (by simp [g3])
    rw [hinp, hlost] at p1
    simp only [cover, g1, g2, g3, List.flatMap_nil, List.append_nil] at p1
    have p2 : (s.q.flatMap Seg.idxs).Perm (List.range' start xs.length) := by
      refine p1.trans ?_
      rw [← map_fst_indexed start xs]
      exact hin.map _
    obtain ⟨x, hx, hx1, hx2⟩ := single_of_cover hp.qok hp.nonadj (by omega) p2
    cases hsn : s.size with
    | none => exact hsz hsn
    | some n =>
      have := hs.sz n hsn
      rw [hinp, hlen] at this
      exact hw n hsn x (by simp [hx]) (by omega)
  | some o =>
    cases o with
    | ok v => exact .inl ⟨v, rfl⟩
    | err e =>
      right
      rcases C09_error_provenance _ s e h honce hnd' ho with h1 | h1 | ⟨k, w, a, b, h1, h2⟩
      · have := hrel _ h1; simp [Label.reliable] at this
      · have := hrel _ h1; simp [Label.reliable] at this
      · exact ⟨e, k, w, a, b, rfl, h1, h2⟩
    | panic =>
      exfalso
      rcases panic_run _ s h ho with h1 | ⟨i, a, h1, _⟩
      · have := hrel _ h1; simp [Label.reliable] at this
      · rw [hinp] at h1; rw [h1] at hlen; simp at hlen; omega

/-- **C08, short inputs.** Without any hypothesis on what came before: when an empty stream ends, fold returns `empty` at once. -/
theorem C08_empty (pre : List (Label α ε ω)) (s : St α ε) (h : run comb empty dupErr init (pre ++ [.inputEnd]) = some s)
    (hin : inputs pre = []) : s.outcome = some (.ok empty) := by
  obtain ⟨s0, s1, h0, h01, h1, h2⟩ := run_split h
  simp [run] at h2; subst h2
  have hc := (safe_run pre s0 h0).1.cnt
  rw [hin] at hc; simp at hc
  have := stepR_of_step h01
  cases this with
  | inputEnd hs => unfold onInputEnd; simp [hc]

/-- **C08 / C06 / C10, one item.** When a stream of a single item ends, fold returns that item if its index is 0 and panics otherwise. -/
theorem C10_single (pre : List (Label α ε ω)) (s : St α ε) (i : Nat) (a : α)
    (h : run comb empty dupErr init (pre ++ [.inputEnd]) = some s) (hin : inputs pre = [(i, a)]) :
    s.outcome = some (if i = 0 then .ok a else .panic) := by
  obtain ⟨s0, s1, h0, h01, h1, h2⟩ := run_split h
  simp [run] at h2; subst h2
  have hc := (safe_run pre s0 h0).1.cnt
  have hq := (early_run pre s0 h0).que (step_outcome h01) (by rw [hc, hin]; simp)
  rw [hin] at hc hq; simp at hc hq
  have := stepR_of_step h01
  cases this with
  | inputEnd hs =>
    unfold onInputEnd
    by_cases hi : i = 0 <;> simp [hc, hq, CQueue.dequeue, hi]

/-- **C08, completion (partial).** Missing: the case in which all `n - 1` results arrived before the end of the input was observed, where the
claim is false (`C08_hang`), and a single item with an index other than 0, where fold panics (`C10_single`). Otherwise, when indices form a block, nothing is lost, duplicated or failing outside the
combines and no further step is possible, fold has returned: `Ok`, or the error of a failed combine. With `C08_bounded` every execution reaches such a
state. -/
theorem C08_completes_partial [Inhabited ω] (pre post : List (Label α ε ω)) (s : St α ε) (start : Nat) (xs : List α)
    (h : run comb empty dupErr init (pre ++ .inputEnd :: post) = some s)
    (hrel : ∀ l ∈ pre ++ .inputEnd :: post, l.reliable = true)
    (hin : (inputs pre).Perm (indexed start xs)) (hrc : xs = [] ∨ (xs.length = 1 ∧ start = 0) ∨ recvs pre + 1 < xs.length)
    (hstuck : ∀ l : Label α ε ω, l.internal = true → step comb empty dupErr s l = none) :
    (∃ v, s.outcome = some (.ok v)) ∨
    ∃ e k w a b, s.outcome = some (.err e) ∧ .exec k w ∈ pre ++ .inputEnd :: post ∧ comb w a b = .error e := by
  obtain ⟨s0, s1, h0, h01, h1, h2⟩ := run_split h
  rcases hrc with rfl | ⟨hlen, rfl⟩ | hrc
  · have := C08_empty pre s1 h1 (by simpa [indexed] using hin)
    obtain ⟨-, rfl⟩ := run_of_outcome (by simp [this]) h2
    exact .inl ⟨_, this⟩
  · obtain ⟨a, rfl⟩ := List.length_eq_one_iff.1 hlen
    have := C10_single pre s1 0 a h1 (by simpa [indexed] using hin)
    obtain ⟨-, rfl⟩ := run_of_outcome (by simp [this]) h2
    exact .inl ⟨a, by simpa using this⟩
  · exact completes_many pre post s start xs h hrel hin (by omega) (by omega) hstuck

/-- **C10, panics.** Whatever is lost or duplicated: fold panics only if the stream of results has ended (the leader's connection is gone), or if its input stream held a single item with a non-zero
index. -/
theorem C10_panic (ls : List (Label α ε ω)) (s : St α ε) (h : run comb empty dupErr init ls = some s) (hp : s.outcome = some .panic) :
    .disconnect ∈ ls ∨ ∃ i a, inputs ls = [(i, a)] ∧ i ≠ 0 ∧ .inputEnd ∈ ls :=
  panic_run ls s h hp

/-- **C10, disconnection.** Once a fold that has not returned has received two items, it panics when the stream of results ends. -/
theorem C10_disconnect (ls : List (Label α ε ω)) (s : St α ε) (h : run comb empty dupErr init ls = some s) (hin : 2 ≤ (inputs ls).length) (ho : s.outcome = none) :
    ∃ s', step comb empty dupErr s (.disconnect : Label α ε ω) = some s' ∧ s'.outcome = some .panic := by
  have hn := notified_run ls s h (by rw [(early_run ls s h).len]; exact hin)
  exact ⟨{ s with outcome := some .panic }, by simp [step, ho, hn], rfl⟩

/-- **C08, the hang.** If all `n - 1` results were received before the end of the input was observed (`n ≥ 2` distinct indices), then after the
end of the input fold has not returned and nothing the system can do by itself is possible any more: it hangs for ever. -/
theorem C08_hang (pre : List (Label α ε ω)) (s : St α ε)
    (h : run comb empty dupErr init (pre ++ [.inputEnd]) = some s)
    (hl : ∀ l ∈ pre, l.lossless = true) (hnd : ((inputs pre).map (·.1)).Nodup) (hn : 2 ≤ (inputs pre).length)
    (hrc : recvs pre = (inputs pre).length - 1) :
    s.outcome = none ∧ ∀ l : Label α ε ω, l.reliable = true → step comb empty dupErr s l = none := by
  obtain ⟨s0, s1, h0, h01, h1, h2⟩ := run_split h
  simp [run] at h2; subst h2
  have ho := step_outcome h01
  have hs := safe_run pre s0 h0
  have hc := hs.1.cnt
  obtain ⟨c1, c2, c3⟩ := cnt_run pre s0 h0 hl hnd ho
  have hst := stepR_of_step h01
  cases hst with
  | inputEnd hsz =>
    have hfin := hs.2 hsz
    rw [hfin] at c1
    simp at c1
    have e1 : s0.outbox = [] := List.eq_nil_of_length_eq_zero (by omega)
    have e2 : s0.tasks = [] := List.eq_nil_of_length_eq_zero (by omega)
    have e3 : s0.results = [] := List.eq_nil_of_length_eq_zero (by omega)
    have he : onInputEnd empty s0 = { s0 with size := some s0.count } := by
      unfold onInputEnd; simp only; split
      · omega
      · omega
      · rfl
    rw [he]
    refine ⟨ho, ?_⟩
    intro l hl
    cases l <;> simp_all [Label.reliable, step, takeAt]

/-- **C08, reachability.** Under the hypotheses of `C08_completes_partial` except being stuck, the system can always run on by itself until fold
returns. -/
theorem C08_can_complete_partial [Inhabited ω] (pre post : List (Label α ε ω)) (s : St α ε) (start : Nat) (xs : List α)
    (h : run comb empty dupErr init (pre ++ .inputEnd :: post) = some s)
    (hrel : ∀ l ∈ pre ++ .inputEnd :: post, l.reliable = true)
    (hin : (inputs pre).Perm (indexed start xs)) (hrc : xs = [] ∨ (xs.length = 1 ∧ start = 0) ∨ recvs pre + 1 < xs.length) :
    ∃ more s', (∀ l ∈ more, l.internal = true) ∧ run comb empty dupErr s more = some s' ∧ s'.outcome ≠ none := by
  obtain ⟨m, hm⟩ : ∃ m, work s = m := ⟨_, rfl⟩
  induction m using Nat.strongRecOn generalizing post s with
  | ind m ih =>
    by_cases hst : ∀ l : Label α ε ω, l.internal = true → step comb empty dupErr s l = none
    · refine ⟨[], s, by simp, rfl, ?_⟩
      rcases C08_completes_partial pre post s start xs h hrel hin hrc hst with ⟨v, hv⟩ | ⟨e, _, _, _, _, he, _⟩
      · simp [hv]
      · simp [he]
    · simp only [Classical.not_forall] at hst
      obtain ⟨l, hl, hne⟩ := hst
      cases hs : step comb empty dupErr s l with
      | none => exact absurd hs hne
      | some s1 =>
        have hrun : run comb empty dupErr init (pre ++ .inputEnd :: (post ++ [l])) = some s1 := by
          have : pre ++ .inputEnd :: (post ++ [l]) = (pre ++ .inputEnd :: post) ++ [l] := by simp
          rw [this, run_snoc h, hs]
        have hw := work_step (safe_run _ s h).1 (step_outcome hs) hl (stepR_of_step hs)
        obtain ⟨more, s', m1, m2, m3⟩ := ih (work s1) (by omega) (post ++ [l]) s1 hrun (by
          intro l' hl'
          simp at hl'
          rcases hl' with hl' | rfl | hl' | rfl
          · exact hrel l' (by simp [hl'])
          · rfl
          · exact hrel l' (by simp [hl'])
          · exact internal_reliable hl) rfl
        refine ⟨l :: more, s', ?_, ?_, m3⟩
        · intro l' hl'; simp at hl'
          rcases hl' with rfl | hl'
          · exact hl
          · exact m1 l' hl'
        · simp [run, hs, m2]

/-- **C10, offset (partial).** Missing: a one-element stream whose index is not 0, where fold panics (`C10_single`), and the hang of C08. For a block of
at least two items starting anywhere, with combines that succeed, fold returns the in-order combination. -/
theorem C10_offset_partial [Inhabited ω] (htot : ∀ w a b, ∃ c, comb w a b = .ok c)
    (pre post : List (Label α ε ω)) (s : St α ε) (start : Nat) (xs : List α)
    (h : run comb empty dupErr init (pre ++ .inputEnd :: post) = some s)
    (hrel : ∀ l ∈ pre ++ .inputEnd :: post, l.reliable = true)
    (hin : (inputs (pre ++ .inputEnd :: post)).Perm (indexed start xs)) (hpost : inputs post = []) (hn : 2 ≤ xs.length)
    (hrc : recvs pre < xs.length - 1)
    (hstuck : ∀ l : Label α ε ω, l.internal = true → step comb empty dupErr s l = none) :
    ∃ v, s.outcome = some (.ok v) ∧ Tree (Returns comb) xs v := by
  have hin' : (inputs pre).Perm (indexed start xs) := by
    rw [inputs_append, inputs_cons, hpost] at hin; simpa [Label.items] using hin
  rcases C08_completes_partial pre post s start xs h hrel hin' (.inr (.inr (by omega))) hstuck with ⟨v, hv⟩ | ⟨e, k, w, a, b, _, _, he⟩
  · refine ⟨v, hv, ?_⟩
    rcases C05_fold_ok _ s v h hv with ⟨h1, _⟩ | ⟨st, ys, hp, ht⟩
    · rw [h1] at hin
      have := hin.length_eq; rw [length_indexed] at this; simp at this; omega
    · rw [(indexed_perm_eq (hin.symm.trans hp)).1]; exact ht
  · obtain ⟨c, hc⟩ := htot w a b
    rw [hc] at he; simp at he

/-! ## Concrete executions -/

/-- Four items at indices 7..10 arriving out of order; the input ends before the last results arrive. -/
def offsetPre : List (Label String String Unit) :=
  [.item 9 "c", .item 7 "a", .item 8 "b", .publish 0, .exec 0 (), .item 10 "d", .recv 0]
def offsetPost : List (Label String String Unit) :=
  [.publish 0, .exec 0 (), .recv 0, .publish 0, .exec 0 (), .recv 0, .finish]

/-- Hypotheses of C07 and of C08_completes_partial, C08_can_complete_partial, C10_offset_partial: met, with result `"abcd"`. -/
example : ∃ s, run catComb "" "dup" init (offsetPre ++ .inputEnd :: offsetPost) = some s ∧
    s.outcome = some (.ok "abcd") ∧ (∀ l ∈ offsetPre ++ .inputEnd :: offsetPost, l.reliable = true) ∧
    (inputs offsetPre).Perm (indexed 7 ["a", "b", "c", "d"]) ∧ recvs offsetPre < 4 - 1 ∧
    publishes (offsetPre ++ .inputEnd :: offsetPost) = 3 := by
  refine ⟨_, rfl, by decide, by decide, by decide, by decide, by decide⟩

/-- **C08 witness.** Two items, combined and received before the end of the input is seen: fold never returns. -/
def hangLabels : List (Label String String Unit) :=
  [.item 0 "a", .item 1 "b", .publish 0, .exec 0 (), .recv 0]

theorem C08_hang_witness : ∃ s, run catComb "" "dup" init (hangLabels ++ [.inputEnd]) = some s ∧ s.outcome = none ∧
    ∀ l : Label String String Unit, l.reliable = true → step catComb "" "dup" s l = none := by
  refine ⟨_, rfl, ?_⟩
  exact C08_hang (comb := catComb) (empty := "") (dupErr := "dup") hangLabels _ rfl (by decide) (by decide) (by decide) (by decide)

/-- A combine that fails. -/
def failComb : Unit → String → String → Except String String := fun _ _ _ => .error "boom"

/-- Hypotheses of C09_combine_error and C09_error_provenance: met. -/
example : ∃ s, run failComb "" "dup" init [.item 0 "a", .item 1 "b", .publish 0, .exec 0 ()] = some s ∧
    Res.err "boom" ∈ s.results := by
  refine ⟨_, rfl, by decide⟩

example : ∃ s, run failComb "" "dup" init [.item 0 "a", .item 1 "b", .publish 0, .exec 0 (), .recv 0] = some s ∧
    s.outcome = some (.err "boom") := by
  refine ⟨_, rfl, by decide⟩

/-- Hypotheses of C09_loss_never_ok: met. -/
example : ∃ s, run catComb "" "dup" init [.item 0 "a", .item 1 "b", .publish 0, .loseTask 0, .inputEnd] = some s ∧
    s.outcome = none := by
  refine ⟨_, rfl, by decide⟩

/-- … and by a lost result. -/
example : ∃ s, run catComb "" "dup" init [.item 0 "a", .item 1 "b", .publish 0, .exec 0 (), .loseResult 0, .inputEnd] = some s ∧ s.outcome = none ∧ s.results = [] := by
  refine ⟨_, rfl, by decide, by decide⟩

/-- A result that is delivered twice makes fold fail if it is received twice before fold returns. -/
example : ∃ s, run catComb "" "dup" init [.item 0 "a", .item 1 "b", .publish 0, .inputEnd, .exec 0 (), .dupResult 0, .recv 0, .recv 0] = some s ∧ s.outcome = some (.err "dup") := by
  refine ⟨_, rfl, by decide⟩

/-- Hypotheses of C10_disconnect: met. -/
example : ∃ s, run catComb "" "dup" init [.item 0 "a", .item 1 "b", .disconnect] = some s ∧ s.outcome = some .panic := by
  refine ⟨_, rfl, by decide⟩

/-- Hypotheses of C09_input_error: met. -/
example : ∃ s, run catComb "" "dup" init ([.item 0 "a"] ++ .inputErr "io" :: []) = some s ∧ s.outcome = some (.err "io") := by
  refine ⟨_, rfl, by decide⟩

/-- Hypotheses of C10_single: met at index 5, where fold panics. -/
theorem C10_single_witness : ∃ s, run catComb "" "dup" init ([.item 5 "a"] ++ [.inputEnd]) = some s ∧
    s.outcome = some .panic := by
  refine ⟨_, rfl, by decide⟩

/-- Hypotheses of C10_gap_never_ok: met by indices 0 and 2. -/
example (start : Nat) (xs : List String) : ¬ (inputs ([.item 0 "a", .item 2 "c"] : List (Label String String Unit))).Perm
    (indexed start xs) := by
  intro h
  have h1 := (h.map (·.1)).trans (List.Perm.of_eq (map_fst_indexed start xs))
  have h2 := h.length_eq
  rw [length_indexed] at h2
  simp [inputs] at h1 h2
  have a0 := h1.mem_iff (a := 0); have a1 := h1.mem_iff (a := 1); have a2 := h1.mem_iff (a := 2)
  simp [List.mem_range'_1] at a0 a1 a2
  omega

end Fold
end Paladin
