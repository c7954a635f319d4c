import Verif.Proofs.FoldPart
/-! # Fold: counting, progress, termination, error provenance -/
namespace Paladin
namespace Fold

section
variable {comb : ω → α → α → Except ε α} {empty : α} {dupErr : ε}

/-- Something has gone missing: a message was lost, or at some point an error result was waiting. -/
def Lossy (comb : ω → α → α → Except ε α) (empty : α) (dupErr : ε) (ls : List (Label α ε ω)) : Prop :=
  (∃ l ∈ ls, l.loses = true) ∨
  ∃ p s1 e, p <+: ls ∧ run comb empty dupErr init p = some s1 ∧ Res.err e ∈ s1.results

theorem prefix_snoc {p ls : List β} {l : β} (h : p <+: ls ++ [l]) : p <+: ls ∨ p = ls ++ [l] := by
  obtain ⟨t, ht⟩ := h
  by_cases hn : t = []
  · subst hn; right; simpa using ht
  · left
    obtain ⟨t', x, rfl⟩ : ∃ t' x, t = t' ++ [x] := ⟨_, _, (List.dropLast_append_getLast hn).symm⟩
    rw [← List.append_assoc] at ht
    have := List.append_inj_left' ht rfl
    exact ⟨t', this⟩

/-- The partition invariant holds before fold returns, if every message is delivered once and indices are distinct. -/
theorem part_run (ls : List (Label α ε ω)) (s : St α ε) (h : run comb empty dupErr init ls = some s)
    (h1 : ∀ l ∈ ls, l.exactlyOnce = true) (hnd : ((inputs ls).map (·.1)).Nodup) (ho : s.outcome = none) :
    Part (∀ l ∈ ls, l.lossless = true) (Lossy comb empty dupErr ls) (inputs ls) s := by
  revert h1 hnd ho
  refine run_induction (P := fun ls s => (∀ l ∈ ls, l.exactlyOnce = true) → ((inputs ls).map (·.1)).Nodup →
    s.outcome = none → Part (∀ l ∈ ls, l.lossless = true) (Lossy comb empty dupErr ls) (inputs ls) s) ?_ ?_ ls s h
  · intro _ _ _
    have hnl : ¬ Lossy comb empty dupErr [] := by
      rintro (⟨l, hl, _⟩ | ⟨p, s1, e, hp, hr, he⟩)
      · simp at hl
      · simp at hp; subst hp; simp [run] at hr; subst hr; simp [init] at he
    exact ⟨part_init.qok, part_init.nonadj, part_init.first, fun hh => by
      obtain ⟨a, b, c, d, _⟩ := (part_init (α := α) (ε := ε)).opn hh
      exact ⟨a, b, c, fun _ => d trivial, fun h => (hnl h).elim⟩, by simp [init]⟩
  · intro ls l s s' hr ih hst h1 hnd ho
    have hin : inputs (ls ++ [l]) = inputs ls ++ l.items := by
      rw [inputs_append, inputs_cons]; simp [inputs]
    rw [hin] at hnd ⊢
    obtain ⟨hs1, hs2⟩ := safe_run ls s hr
    have hnd' : ((inputs ls).map (·.1)).Nodup := by
      rw [List.map_append] at hnd; exact (List.nodup_append.1 hnd).1
    have ih := ih (fun l hl => h1 l (by simp [hl])) hnd' (step_outcome hst)
    have := part_step hs1 hs2 ih (h1 l (by simp)) hnd (stepR_of_step hst) ho
    have hly : Lossy comb empty dupErr (ls ++ [l]) →
        (Lossy comb empty dupErr ls ∨ l.loses = true) ∨ ∃ e, Res.err e ∈ s'.results := by
      rintro (⟨l', hl', hh⟩ | ⟨p, s1, e, hp, hr', he⟩)
      · simp at hl'
        rcases hl' with hl' | rfl
        · exact .inl (.inl (.inl ⟨l', hl', hh⟩))
        · exact .inl (.inr hh)
      · rcases prefix_snoc hp with hp | rfl
        · exact .inl (.inl (.inr ⟨p, s1, e, hp, hr', he⟩))
        · rw [run_append, hr] at hr'
          simp [run, hst] at hr'
          subst hr'
          exact .inr ⟨e, he⟩
    refine ⟨this.qok, this.nonadj, this.first, ?_, ?_⟩
    · intro hf
      obtain ⟨a, b, c, d, f⟩ := this.opn hf
      refine ⟨a, b, c, fun hh => d ⟨fun l hl => hh l (by simp [hl]), hh l (by simp)⟩, ?_⟩
      intro hh
      rcases hly hh with hh | ⟨e, he⟩
      · exact f hh
      · rintro rfl
        have : 0 < s'.results.countP Res.isErr := List.countP_pos_iff.2 ⟨_, he, rfl⟩
        simp at c; exact absurd (c _ he) (by simp [Res.isErr])
    · intro hf
      obtain ⟨c1, c2⟩ := this.cls hf
      refine ⟨fun hh => ?_, c2⟩
      rcases hly hh with hh | ⟨e, he⟩
      · exact c1 hh
      · rw [c2.2.2.2] at he; simp at he

theorem publishes_append (a b : List (Label α ε ω)) : publishes (a ++ b) = publishes a + publishes b := by
  induction a with
  | nil => simp [publishes]
  | cons l a ih => cases l <;> simp [publishes, ih] <;> omega

theorem execs_append (a b : List (Label α ε ω)) : execs (a ++ b) = execs a + execs b := by
  induction a with
  | nil => simp [execs]
  | cons l a ih => cases l <;> simp [execs, ih] <;> omega

theorem recvs_append (a b : List (Label α ε ω)) : recvs (a ++ b) = recvs a + recvs b := by
  induction a with
  | nil => simp [recvs]
  | cons l a ih => cases l <;> simp [recvs, ih] <;> omega

/-- Counting: every dispatch joins two objects into one. -/
structure Cnt (ls : List (Label α ε ω)) (s : St α ε) : Prop where
  obj : s.q.length + 2 * s.outbox.length + s.tasks.length + s.results.length +
    (if s.final.isSome then 1 else 0) + publishes ls = s.count
  ex : execs ls + s.tasks.length = publishes ls
  rc : recvs ls + s.results.length = execs ls

theorem cnt_step {ls : List (Label α ε ω)} {s s' : St α ε} {l : Label α ε ω}
    (hsafe : Safe (Returns comb) empty (inputs ls) s) (hnf : NoFinalEarly s) {ll lossy : Prop}
    (hp : Part ll lossy (inputs ls) s) (hll : l.lossless = true)
    (hnd : ((inputs ls ++ l.items).map (·.1)).Nodup) (hi : Cnt ls s)
    (h : StepR comb empty dupErr s l s') (ho' : s'.outcome = none) : Cnt (ls ++ [l]) s' := by
  obtain ⟨h1, h2, h3⟩ := hi
  cases h with
  | dupTask | dupResult | loseTask | loseResult => simp [Label.lossless] at hll
  | inputErr | ioErr | disconnect | finish => simp at ho'
  | item i a hsz =>
    have e1 : publishes (ls ++ [(.item i a : Label α ε ω)]) = publishes ls := by rw [publishes_append]; simp [publishes]
    have e2 : execs (ls ++ [(.item i a : Label α ε ω)]) = execs ls := by rw [execs_append]; simp [execs]
    have e3 : recvs (ls ++ [(.item i a : Label α ε ω)]) = recvs ls := by rw [recvs_append]; simp [recvs]
    obtain ⟨lost, hpm, _, _, _⟩ := hp.opn (hnf hsz)
    have hxi : (⟨i, i, a⟩ : Seg α).idxs = [i] := by simp [Seg.idxs]
    have hxv : (⟨i, i, a⟩ : Seg α).Valid := by simp [Seg.Valid]
    have hnd' : ((⟨i, i, a⟩ : Seg α).idxs ++ cover s).Nodup := by
      simp only [Label.items, List.map_append, List.map_cons, List.map_nil] at hnd
      have h1 : ((cover s ++ lost) ++ [i]).Nodup := (hpm.append_right [i]).nodup_iff.2 hnd
      rw [hxi]
      refine List.Nodup.sublist ?_ ((List.perm_append_comm.nodup_iff).1 h1)
      simp
    unfold onItem
    simp only
    split
    · have hq0 := hp.first (by omega)
      refine ⟨?_, by simpa [e1, e2] using h2, by simpa [e2, e3] using h3⟩
      simp [hq0, CQueue.queue, e1] at h1 ⊢
      omega
    · have hdis := disjoint_queue (s := s) hp.qok hxv hnd'
      obtain ⟨f1, f2, f3, f4, f5, f6, f7⟩ := tryDispatch_fields
        { s with count := s.count + 1, notified := true } (⟨i, i, a⟩ : Seg α)
      obtain ⟨_, _, _, g4, _⟩ := tryDispatch_cover (s := { s with count := s.count + 1, notified := true })
        hp.qok hp.nonadj hxv hdis
      refine ⟨?_, by rw [f4, e1, e2]; exact h2, by rw [f5, e2, e3]; exact h3⟩
      rw [f1, f4, f5, f6, e1]
      simp only at g4 ⊢
      omega
  | inputEnd hsz =>
    have e1 : publishes (ls ++ [(.inputEnd : Label α ε ω)]) = publishes ls := by rw [publishes_append]; simp [publishes]
    have e2 : execs (ls ++ [(.inputEnd : Label α ε ω)]) = execs ls := by rw [execs_append]; simp [execs]
    have e3 : recvs (ls ++ [(.inputEnd : Label α ε ω)]) = recvs ls := by rw [recvs_append]; simp [recvs]
    unfold onInputEnd at ho' ⊢
    simp only at ho' ⊢
    split at ho'
    · simp at ho'
    · split at ho' <;> simp at ho'
    · exact ⟨by simpa [e1] using h1, by simpa [e1, e2] using h2, by simpa [e2, e3] using h3⟩
  | publish k t rest hpm =>
    have e1 : publishes (ls ++ [(.publish k : Label α ε ω)]) = publishes ls + 1 := by rw [publishes_append]; simp [publishes]
    have e2 : execs (ls ++ [(.publish k : Label α ε ω)]) = execs ls := by rw [execs_append]; simp [execs]
    have e3 : recvs (ls ++ [(.publish k : Label α ε ω)]) = recvs ls := by rw [recvs_append]; simp [recvs]
    have := hpm.length_eq
    simp at this
    refine ⟨?_, ?_, by simpa [e2, e3] using h3⟩
    · simp [e1] at h1 ⊢; omega
    · simp [e1, e2]; omega
  | exec k w t rest hpm =>
    have e1 : publishes (ls ++ [(.exec k w : Label α ε ω)]) = publishes ls := by rw [publishes_append]; simp [publishes]
    have e2 : execs (ls ++ [(.exec k w : Label α ε ω)]) = execs ls + 1 := by rw [execs_append]; simp [execs]
    have e3 : recvs (ls ++ [(.exec k w : Label α ε ω)]) = recvs ls := by rw [recvs_append]; simp [recvs]
    have := hpm.length_eq
    simp at this
    refine ⟨?_, ?_, ?_⟩
    · simp [e1] at h1 ⊢; omega
    · simp [e1, e2]; omega
    · simp [e2, e3]; omega
  | recv k r rest hn hpm =>
    have e1 : publishes (ls ++ [(.recv k : Label α ε ω)]) = publishes ls := by rw [publishes_append]; simp [publishes]
    have e2 : execs (ls ++ [(.recv k : Label α ε ω)]) = execs ls := by rw [execs_append]; simp [execs]
    have e3 : recvs (ls ++ [(.recv k : Label α ε ω)]) = recvs ls + 1 := by rw [recvs_append]; simp [recvs]
    have hlen := hpm.length_eq
    simp at hlen
    have hfin : s.final = none := by
      cases hf : s.final with
      | none => rfl
      | some v =>
        have := (hp.cls (by simp [hf])).2.2.2.2
        rw [this] at hpm; simp at hpm
    cases r with
    | err e => simp [onResult] at ho'
    | ok x =>
      obtain ⟨lost, hpl, _, _, _⟩ := hp.opn hfin
      have hf := hpm.flatMap_right Res.idxs
      have hxok : SegOk (Returns comb) (inputs ls) x := hsafe.res (.ok x) (hpm.mem_iff.2 (by simp))
      have hcov : (cover s).Perm (x.idxs ++ cover { s with results := rest }) := by
        rw [List.perm_iff_count] at hf ⊢
        intro a; have := hf a
        simp only [cover, List.flatMap_append, List.flatMap_cons, Res.idxs, List.count_append] at *
        omega
      have hnd' : (x.idxs ++ cover { s with results := rest }).Nodup := by
        simp only [Label.items, List.append_nil] at hnd
        have h1 : (cover s ++ lost).Nodup := hpl.nodup_iff.2 hnd
        exact hcov.nodup_iff.1 (List.nodup_append.1 h1).1
      have hdis := disjoint_queue (s := { s with results := rest }) hp.qok hxok.valid hnd'
      have hdisp : Cnt (ls ++ [(.recv k : Label α ε ω)]) (tryDispatch { s with results := rest } x) := by
        obtain ⟨f1, f2, f3, f4, f5, f6, f7⟩ := tryDispatch_fields { s with results := rest } x
        obtain ⟨_, _, _, g4, _⟩ := tryDispatch_cover (s := { s with results := rest }) hp.qok hp.nonadj hxok.valid hdis
        refine ⟨?_, by rw [f4, e1, e2]; exact h2, by rw [f5, e2, e3]; simp only; omega⟩
        rw [f1, f4, f5, f6, e1]
        simp only at g4 ⊢
        omega
      unfold onResult at ho' ⊢
      simp only at ho' ⊢
      split
      · split
        · simp only [hfin]
          refine ⟨?_, by rw [e1, e2]; exact h2, by rw [e2, e3]; simp only; omega⟩
          simp [e1, hfin] at h1 ⊢; omega
        · exact hdisp
      · exact hdisp

theorem cnt_run (ls : List (Label α ε ω)) (s : St α ε) (h : run comb empty dupErr init ls = some s)
    (h1 : ∀ l ∈ ls, l.lossless = true) (hnd : ((inputs ls).map (·.1)).Nodup) (ho : s.outcome = none) : Cnt ls s := by
  revert h1 hnd ho
  refine run_induction (P := fun ls s => (∀ l ∈ ls, l.lossless = true) → ((inputs ls).map (·.1)).Nodup →
    s.outcome = none → Cnt ls s) ?_ ?_ ls s h
  · intro _ _ _
    constructor <;> simp [init, publishes, execs, recvs]
  · intro ls l s s' hr ih hst h1 hnd ho
    have hin : inputs (ls ++ [l]) = inputs ls ++ l.items := by
      rw [inputs_append, inputs_cons]; simp [inputs]
    rw [hin] at hnd
    obtain ⟨hs1, hs2⟩ := safe_run ls s hr
    have hnd' : ((inputs ls).map (·.1)).Nodup := by
      rw [List.map_append] at hnd; exact (List.nodup_append.1 hnd).1
    have hso := step_outcome hst
    have hp := part_run ls s hr (fun l hl => by
      have := h1 l (by simp [hl]); cases l <;> simp_all [Label.exactlyOnce, Label.lossless]) hnd' hso
    exact cnt_step hs1 hs2 hp (h1 l (by simp)) hnd (ih (fun l hl => h1 l (by simp [hl])) hnd' hso) (stepR_of_step hst) ho

/-- `should_dispatch` has been signalled once two items have arrived. -/
theorem notified_run (ls : List (Label α ε ω)) (s : St α ε) (h : run comb empty dupErr init ls = some s) :
    2 ≤ s.count → s.notified = true := by
  refine run_induction (P := fun _ s => 2 ≤ s.count → s.notified = true) ?_ ?_ ls s h
  · simp [init]
  · intro ls l s s' _ ih hst
    have hst := stepR_of_step hst
    cases hst with
    | item i a hs =>
      unfold onItem; simp only; split
      · simp; omega
      · obtain ⟨f1, _, f3, _⟩ := tryDispatch_fields { s with count := s.count + 1, notified := true } (⟨i, i, a⟩ : Seg α)
        rw [f3]; simp
    | inputEnd =>
      unfold onInputEnd; simp only; split
      · exact ih
      · split <;> exact ih
      · exact ih
    | recv k r rest hn hp =>
      unfold onResult; split
      · exact ih
      · rename_i x
        obtain ⟨f1, _, f3, _⟩ := tryDispatch_fields { s with results := rest } x
        simp only; split
        · split
          · split <;> exact ih
          · rw [f1, f3]; exact ih
        · rw [f1, f3]; exact ih
    | _ => exact ih

/-- After the end of input the size is known and equals the number of items. -/
theorem size_run (ls : List (Label α ε ω)) (s : St α ε) (h : run comb empty dupErr init ls = some s) :
    (.inputEnd ∈ ls ↔ s.size.isSome = true) := by
  refine run_induction (P := fun ls s => (.inputEnd ∈ ls ↔ s.size.isSome = true)) ?_ ?_ ls s h
  · simp [init]
  · intro ls l s s' _ ih hst
    have hst := stepR_of_step hst
    cases hst with
    | item i a hs =>
      unfold onItem; simp only; split
      · simpa using ih
      · obtain ⟨_, f2, _⟩ := tryDispatch_fields { s with count := s.count + 1, notified := true } (⟨i, i, a⟩ : Seg α)
        rw [f2]; simpa using ih
    | inputEnd =>
      unfold onInputEnd; simp only; split
      · simp
      · split <;> simp
      · simp
    | recv k r rest hn hp =>
      unfold onResult; split
      · simpa using ih
      · rename_i x
        obtain ⟨_, f2, _⟩ := tryDispatch_fields { s with results := rest } x
        simp only; split
        · split
          · split <;> simpa using ih
          · rw [f2]; simpa using ih
        · rw [f2]; simpa using ih
    | _ => simpa using ih

theorem reliable_lossless {l : Label α ε ω} (h : l.reliable = true) : l.lossless = true := by
  cases l <;> simp_all [Label.reliable, Label.lossless]

theorem lossless_once {l : Label α ε ω} (h : l.lossless = true) : l.exactlyOnce = true := by
  cases l <;> simp_all [Label.exactlyOnce, Label.lossless]

theorem internal_reliable {l : Label α ε ω} (h : l.internal = true) : l.reliable = true := by
  cases l <;> simp_all [Label.reliable, Label.internal]

/-- A queue of disjoint, non-adjacent ranges covering a block is a single range. -/
theorem single_of_cover {q : CQueue α} (hq : QueueOk q) (hn : NonAdj q) {st n : Nat} (h0 : 0 < n)
    (hp : (q.flatMap Seg.idxs).Perm (List.range' st n)) : ∃ x, q = [x] ∧ x.lo = st ∧ x.hi + 1 = st + n := by
  have hmem : ∀ i, i ∈ q.flatMap Seg.idxs ↔ st ≤ i ∧ i < st + n := by
    intro i; rw [hp.mem_iff, List.mem_range'_1]
  have hseg : ∀ x ∈ q, ∀ i, x.lo ≤ i → i ≤ x.hi → st ≤ i ∧ i < st + n := by
    intro x hx i h1 h2
    refine (hmem i).1 (List.mem_flatMap.2 ⟨x, hx, ?_⟩)
    simp only [Seg.idxs, List.mem_range'_1]; omega
  cases q with
  | nil => have := hp.length_eq; simp at this; omega
  | cons x rest =>
    cases rest with
    | nil =>
      refine ⟨x, rfl, ?_⟩
      have hv := hq.2 x (by simp)
      have h1 := hseg x (by simp) x.lo (by omega) hv
      have h2 := (hmem st).2 (by omega)
      simp [Seg.idxs, List.mem_range'_1] at h2
      have hlen := hp.length_eq
      simp [Seg.idxs] at hlen
      simp only [Seg.Valid] at hv
      omega
    | cons y rest =>
      exfalso
      have hx := hq.2 x (by simp)
      have hy := hq.2 y (by simp)
      have hpw := List.pairwise_cons.1 hq.1
      have hxy := hpw.1 y (by simp)
      have hna := hn x (by simp) y (by simp)
      simp only [Seg.Valid] at hx hy
      have hna' : x.hi + 1 ≠ y.lo := fun h => hna (.inl h)
      have h1 := hseg x (by simp) x.hi hx (by omega)
      have h2 := hseg y (by simp) y.lo (by omega) hy
      have h3 := (hmem (x.hi + 1)).2 (by omega)
      obtain ⟨z, hz, hzi⟩ := List.mem_flatMap.1 h3
      simp only [Seg.idxs, List.mem_range'_1] at hzi
      simp at hz
      rcases hz with rfl | rfl | hz
      · omega
      · omega
      · have hyz := (List.pairwise_cons.1 hpw.2).1 z hz
        omega

/-- Work measure. -/
def work (s : St α ε) : Nat :=
  4 * s.q.length + 5 * s.results.length + 6 * s.tasks.length + 7 * s.outbox.length +
    (if s.outcome = none then 1 else 0)

theorem tryDispatch_work {s : St α ε} (hs : s.q.Sorted) (hv : ∀ y ∈ s.q, y.Valid) {x : Seg α} (hx : x.Valid) :
    4 * (tryDispatch s x).q.length + 7 * (tryDispatch s x).outbox.length <
      4 * s.q.length + 7 * s.outbox.length + 5 := by
  have sound := CQueue.acquire_sound hs hv hx
  unfold tryDispatch
  rcases ha : s.q.acquire x with ⟨_ | ⟨l, r⟩, q'⟩ <;> rw [ha] at sound <;> simp only at sound ⊢
  · subst sound
    have : ∀ (q : CQueue α), (q.queue x).length ≤ q.length + 1 := by
      intro q
      induction q with
      | nil => simp [CQueue.queue]
      | cons z zs ih => simp only [CQueue.queue]; split <;> (try split) <;> simp <;> omega
    have := this s.q
    omega
  · have : q'.length + 1 = s.q.length := by
      obtain ⟨_, ⟨_, hm, rfl⟩ | ⟨_, hm, rfl⟩⟩ := sound <;>
      · have := (CQueue.perm_remove hs hm).length_eq; simp at this; omega
    simp; omega

theorem work_step {recd : List (Nat × α)} {s s' : St α ε} {l : Label α ε ω} (hsafe : Safe (Returns comb) empty recd s)
    (ho : s.outcome = none) (hl : l.internal = true) (h : StepR comb empty dupErr s l s') : work s' < work s := by
  have hv : ∀ y ∈ s.q, y.Valid := fun y hy => (hsafe.qok y hy).valid
  cases h with
  | publish k t rest hp =>
    have := hp.length_eq; simp at this
    simp [work]; omega
  | exec k w t rest hp =>
    have := hp.length_eq; simp at this
    simp [work]; omega
  | finish v hf => simp [work, ho]
  | recv k r rest hn hp =>
    have hlen := hp.length_eq; simp at hlen
    cases r with
    | err e => simp [work, onResult, ho]; omega
    | ok x =>
      have hxok : SegOk (Returns comb) recd x := hsafe.res (.ok x) (hp.mem_iff.2 (by simp))
      have hd : work (tryDispatch { s with results := rest } x) < work s := by
        have := tryDispatch_work (s := { s with results := rest }) hsafe.sorted hv hxok.valid
        obtain ⟨f1, f2, f3, f4, f5, f6, f7⟩ := tryDispatch_fields { s with results := rest } x
        unfold work
        rw [f4, f5, f7]
        simp only [ho] at this ⊢
        omega
      unfold onResult; simp only
      split
      · split
        · split
          · simp [work, ho]; omega
          · simp [work, ho]; omega
        · exact hd
      · exact hd
  | _ => simp [Label.internal] at hl

theorem run_snoc {s : St α ε} {ls : List (Label α ε ω)} {l : Label α ε ω} {s' : St α ε}
    (h : run comb empty dupErr s ls = some s') : run comb empty dupErr s (ls ++ [l]) = step comb empty dupErr s' l := by
  rw [run_append, h]; simp only [Option.bind_some, run]
  cases step comb empty dupErr s' l <;> simp

theorem work_run (ls : List (Label α ε ω)) (s : St α ε) (h : run comb empty dupErr init ls = some s)
    (ls' : List (Label α ε ω)) (s' : St α ε) (h' : run comb empty dupErr s ls' = some s')
    (hint : ∀ l ∈ ls', l.internal = true) : ls'.length + work s' ≤ work s := by
  induction ls' generalizing ls s with
  | nil => simp [run] at h'; subst h'; simp
  | cons l ls' ih =>
    simp only [run] at h'
    cases hst : step comb empty dupErr s l with
    | none => simp [hst] at h'
    | some s1 =>
      simp [hst] at h'
      have h1 := run_snoc (l := l) h
      rw [hst] at h1
      have := ih (ls ++ [l]) s1 h1 h' (fun l hl => hint l (by simp [hl]))
      have hw := work_step (safe_run ls s h).1 (step_outcome hst) (hint l (by simp)) (stepR_of_step hst)
      simp; omega

/-- When nothing internal can happen and fold has not returned, nothing is in flight. -/
theorem stuck_empty [Inhabited ω] (ls : List (Label α ε ω)) (s : St α ε) (h : run comb empty dupErr init ls = some s)
    (hcnt : 2 ≤ s.count) (ho : s.outcome = none)
    (hstuck : ∀ l : Label α ε ω, l.internal = true → step comb empty dupErr s l = none) :
    s.outbox = [] ∧ s.tasks = [] ∧ s.results = [] ∧ s.final = none := by
  have hn := notified_run ls s h hcnt
  refine ⟨?_, ?_, ?_, ?_⟩
  · by_cases hb : s.outbox = []
    · exact hb
    · obtain ⟨t, rest, ht⟩ := takeAt_zero hb
      have := hstuck (.publish 0) rfl
      simp [step, ho, ht] at this
  · by_cases hb : s.tasks = []
    · exact hb
    · obtain ⟨t, rest, ht⟩ := takeAt_zero hb
      have := hstuck (.exec 0 default) rfl
      simp [step, ho, ht] at this
  · by_cases hb : s.results = []
    · exact hb
    · obtain ⟨t, rest, ht⟩ := takeAt_zero hb
      have := hstuck (.recv 0) rfl
      simp [step, ho, ht, hn] at this
  · cases hf : s.final with
    | none => rfl
    | some v =>
      have := hstuck .finish rfl
      simp [step, ho, hf] at this

theorem run_of_outcome {s : St α ε} (h : s.outcome ≠ none) {ls : List (Label α ε ω)} {s' : St α ε}
    (hr : run comb empty dupErr s ls = some s') : ls = [] ∧ s' = s := by
  cases ls with
  | nil => simp [run] at hr; exact ⟨rfl, hr.symm⟩
  | cons l ls =>
    simp only [run] at hr
    have : step comb empty dupErr s l = none := by
      cases ho : s.outcome with
      | none => exact absurd ho h
      | some o => simp [step, ho]
    simp [this] at hr

/-- Split a run at a label. -/
theorem run_split {ls1 ls2 : List (Label α ε ω)} {l : Label α ε ω} {s : St α ε}
    (h : run comb empty dupErr init (ls1 ++ l :: ls2) = some s) :
    ∃ s1 s2, run comb empty dupErr init ls1 = some s1 ∧ step comb empty dupErr s1 l = some s2 ∧
      run comb empty dupErr init (ls1 ++ [l]) = some s2 ∧ run comb empty dupErr s2 ls2 = some s := by
  rw [run_append] at h
  cases h1 : run comb empty dupErr init ls1 with
  | none => simp [h1] at h
  | some s1 =>
    simp only [h1, Option.bind_some, run] at h
    cases h2 : step comb empty dupErr s1 l with
    | none => simp [h2] at h
    | some s2 =>
      simp [h2] at h
      exact ⟨s1, s2, rfl, h2, by rw [run_snoc h1, h2], h⟩

/-- Without failing combines no error result exists. -/
theorem noErr_run (htot : ∀ w a b, ∃ c, comb w a b = .ok c) (ls : List (Label α ε ω)) (s : St α ε)
    (h : run comb empty dupErr init ls = some s) : s.results.countP Res.isErr = 0 := by
  refine run_induction (P := fun _ s => s.results.countP Res.isErr = 0) (by simp [init]) ?_ ls s h
  intro ls l s s' _ ih hst
  have hst := stepR_of_step hst
  cases hst with
  | item i a hs =>
    unfold onItem; simp only; split
    · exact ih
    · obtain ⟨_, _, _, _, f5, _⟩ := tryDispatch_fields { s with count := s.count + 1, notified := true } (⟨i, i, a⟩ : Seg α)
      rw [f5]; exact ih
  | inputEnd =>
    unfold onInputEnd; simp only; split
    · exact ih
    · split <;> exact ih
    · exact ih
  | exec k w t rest hp =>
    obtain ⟨c, hc⟩ := htot w t.a t.b
    have he : execute comb w t = .ok ⟨t.lo, t.hi, c⟩ := by simp [execute, hc]
    simp only [he, List.countP_append, ih]
    rfl
  | recv k r rest hn hp =>
    have hrest : rest.countP Res.isErr = 0 := by
      have := hp.countP_eq Res.isErr
      simp only [List.countP_cons] at this; omega
    unfold onResult; split
    · exact hrest
    · rename_i x
      obtain ⟨_, _, _, _, f5, _⟩ := tryDispatch_fields { s with results := rest } x
      simp only; split
      · split
        · split <;> exact hrest
        · rw [f5]; exact hrest
      · rw [f5]; exact hrest
  | loseResult k r rest hp =>
    have := hp.countP_eq Res.isErr
    simp only [List.countP_cons] at this; simp only; omega
  | dupResult k r hm =>
    have := List.countP_eq_zero.1 ih r hm
    simp only [List.countP_append, ih]
    simp at this
    simp [this]
  | _ => exact ih

end
end Fold
end Paladin
