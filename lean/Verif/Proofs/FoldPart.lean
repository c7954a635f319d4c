import Verif.Proofs.FoldSafe
/-! # Fold: live segments partition the received items (exactly-once delivery) -/
namespace Paladin

namespace Fold

def NonAdj (q : CQueue α) : Prop := ∀ a ∈ q, ∀ b ∈ q, ¬ Adjacent a b

/-- The partition invariant, for states in which fold has not returned. -/
structure Part (ll lossy : Prop) (recd : List (Nat × α)) (s : St α ε) : Prop where
  qok : QueueOk s.q
  nonadj : NonAdj s.q
  first : s.count = 0 → s.q = []
  opn : s.final = none → ∃ lost, (cover s ++ lost).Perm (recd.map (·.1)) ∧ (s.results.countP Res.isErr ≤ lost.length) ∧
    (ll → s.results.countP Res.isErr = 0 → lost = []) ∧ (lossy → lost ≠ [])
  cls : s.final ≠ none → ¬ lossy ∧ s.q = [] ∧ s.outbox = [] ∧ s.tasks = [] ∧ s.results = []

theorem join_idxs {l r : Seg α} (hl : l.Valid) (hr : r.Valid) (h : Before l r) :
    List.range' l.lo (r.hi + 1 - l.lo) = l.idxs ++ r.idxs := by
  simp only [Seg.idxs, Before, Seg.Valid] at *
  have : r.lo = l.lo + (l.hi + 1 - l.lo) := by omega
  rw [this, List.range'_append_1]
  congr 1; omega

theorem disjoint_of_idxs {x y : Seg α} (hx : x.Valid) (hy : y.Valid) (h : ∀ i ∈ y.idxs, i ∉ x.idxs) : Disjoint y x := by
  simp only [Disjoint, Seg.Valid, Seg.idxs] at *
  by_cases h1 : y.hi < x.lo
  · exact .inl h1
  · by_cases h2 : x.hi < y.lo
    · exact .inr h2
    · exfalso
      have hm : max x.lo y.lo ∈ List.range' y.lo (y.hi + 1 - y.lo) := by
        rw [List.mem_range'_1]; omega
      refine h _ hm ?_
      rw [List.mem_range'_1]; omega

/-- Effect of `try_dispatch` on the cover and the queue, for a segment disjoint from what is queued. -/
theorem tryDispatch_cover {s : St α ε} (hq : QueueOk s.q) (hn : NonAdj s.q) {x : Seg α} (hx : x.Valid)
    (hd : ∀ y ∈ s.q, Disjoint y x) :
    (cover (tryDispatch s x)).Perm (x.idxs ++ cover s) ∧ QueueOk (tryDispatch s x).q ∧ NonAdj (tryDispatch s x).q ∧
    ((tryDispatch s x).q.length + 2 * (tryDispatch s x).outbox.length = s.q.length + 1 + 2 * s.outbox.length) ∧
    (((tryDispatch s x).outbox = s.outbox ∧ ((tryDispatch s x).q.Perm (x :: s.q))) ∨
      ((tryDispatch s x).outbox.length = s.outbox.length + 1 ∧ (tryDispatch s x).q.Sublist s.q)) := by
  have hs := CQueue.QueueOk.sorted hq
  have sound := CQueue.acquire_sound hs hq.2 hx
  rcases ha : s.q.acquire x with ⟨_ | ⟨l, r⟩, q'⟩
  · have hnone := CQueue.findContiguous_complete hq hx hd (CQueue.acquire_none (by rw [ha]))
    rw [ha] at sound; simp only at sound; subst sound
    have hp : (s.q.queue x).Perm (x :: s.q) := by
      refine CQueue.perm_queue fun y hy => ?_
      have h1 := hd y hy; have h2 := hq.2 y hy
      simp only [Disjoint, Seg.Valid] at *; omega
    have he : tryDispatch s x = { s with q := s.q.queue x } := by unfold tryDispatch; rw [ha]
    rw [he]
    refine ⟨?_, CQueue.queueOk_queue hq hx hd, ?_, ?_, .inl ⟨rfl, hp⟩⟩
    · have := (hp.flatMap_right Seg.idxs)
      simp only [cover, List.flatMap_cons] at this ⊢
      refine (this.append_right _).trans ?_
      simp [List.append_assoc]
    · intro a ha b hb
      have ha' := hp.mem_iff.1 ha; have hb' := hp.mem_iff.1 hb
      clear ha hb
      simp at ha' hb'
      rcases ha' with rfl | ha' <;> rcases hb' with rfl | hb'
      · simp only [Adjacent, Before, Seg.Valid] at *; omega
      · intro h; exact hnone b hb' h.symm
      · exact hnone a ha'
      · exact hn a ha' b hb'
    · have := hp.length_eq; simp at this ⊢; omega
  · rw [ha] at sound; simp only at sound
    have he : tryDispatch s x = { s with q := q', outbox := s.outbox ++ [⟨l.lo, r.hi, l.val, r.val⟩] } := by
      unfold tryDispatch; rw [ha]
    rw [he]
    obtain ⟨hb, hcase⟩ := sound
    have hq' : ∃ e, e ∈ s.q ∧ q' = s.q.remove e.lo ∧ (x.idxs ++ e.idxs).Perm (l.idxs ++ r.idxs) ∧ l.Valid ∧ r.Valid := by
      rcases hcase with ⟨rfl, hm, hh⟩ | ⟨rfl, hm, hh⟩
      · exact ⟨r, hm, hh, .refl _, hx, hq.2 r hm⟩
      · exact ⟨l, hm, hh, List.perm_append_comm, hq.2 l hm, hx⟩
    obtain ⟨e, hm, rfl, hpe, hl, hr⟩ := hq'
    have hp := CQueue.perm_remove hs hm
    refine ⟨?_, CQueue.queueOk_remove hq _, fun a ha b hb => hn a (CQueue.mem_remove.1 ha).1 b (CQueue.mem_remove.1 hb).1, ?_,
      .inr ⟨by simp, List.filter_sublist⟩⟩
    · have h2 := hp.flatMap_right Seg.idxs
      rw [List.perm_iff_count] at h2 hpe ⊢
      intro a
      have h2 := h2 a; have hpe := hpe a
      simp only [cover, CTask.idxs, List.flatMap_append, List.flatMap_cons, List.flatMap_nil, List.append_nil,
        List.count_append, join_idxs hl hr hb] at h2 hpe ⊢
      omega
    · have := hp.length_eq; simp at this ⊢; omega

theorem mem_cover_q {s : St α ε} {y : Seg α} (hy : y ∈ s.q) {i : Nat} (hi : i ∈ y.idxs) : i ∈ cover s := by
  simp only [cover, List.mem_append, List.mem_flatMap]
  exact .inl ⟨y, hy, hi⟩

/-- A segment whose indices are not among the live ones is disjoint from the queue. -/
theorem disjoint_queue {s : St α ε} (hq : QueueOk s.q) {x : Seg α} (hx : x.Valid)
    (hnd : (x.idxs ++ cover s).Nodup) : ∀ y ∈ s.q, Disjoint y x := by
  intro y hy
  refine disjoint_of_idxs hx (hq.2 y hy) fun i hi hxi => ?_
  have := (List.nodup_append.1 hnd).2.2
  exact this i hxi i (mem_cover_q hy hi) rfl

section
variable {comb : ω → α → α → Except ε α} {empty : α} {dupErr : ε}

theorem TaskOk.valid {R : α → α → α → Prop} {recd : List (Nat × α)} {t : CTask α} (h : TaskOk R recd t) : t.lo < t.hi := by
  obtain ⟨l, r, h1, h2, hb, rfl⟩ := h
  have := h1.valid; have := h2.valid
  simp only [Seg.Valid, Before] at *; omega

theorem idxs_length (x : Seg α) : x.idxs.length = x.hi + 1 - x.lo := by simp [Seg.idxs]

theorem part_init : Part (ε := ε) True False ([] : List (Nat × α)) init := by
  refine ⟨by simp [init, QueueOk], by simp [init, NonAdj], by simp [init], ?_, by simp [init]⟩
  intro _; exact ⟨[], by simp [init, cover], by simp [init], by simp, by simp⟩

theorem execute_idxs (w : ω) (t : CTask α) :
    (execute comb w t).idxs = t.idxs ∧ (execute comb w t).isErr = false ∨
    (execute comb w t).idxs = [] ∧ (execute comb w t).isErr = true := by
  unfold execute; split
  · left; simp [Res.idxs, CTask.idxs, Seg.idxs, Res.isErr]
  · right; simp [Res.idxs, Res.isErr]

theorem perm_nil_of_length {l l' m : List β} (h : (l ++ l').Perm m) (hl : m.length ≤ l.length) : l' = [] := by
  have := h.length_eq; simp at this
  exact List.eq_nil_of_length_eq_zero (by omega)

theorem flatMap_nil_of {l : List β} {f : β → List γ} (h : l.flatMap f = []) (hf : ∀ x ∈ l, f x ≠ []) : l = [] := by
  cases l with
  | nil => rfl
  | cons x xs => simp at h; exact absurd h.1 (hf x (by simp))

theorem seg_idxs_ne {x : Seg α} (h : x.Valid) : x.idxs ≠ [] := by
  intro hh; have := congrArg List.length hh
  simp [Seg.idxs, Seg.Valid] at *; omega

theorem task_idxs_ne {t : CTask α} (h : t.lo < t.hi) : t.idxs ≠ [] := by
  intro hh; have := congrArg List.length hh
  simp [CTask.idxs] at *; omega

/-- No live indices and no error results: nothing is in flight. -/
theorem all_nil {R : α → α → α → Prop} {recd : List (Nat × α)} {s : St α ε} (hs : Safe R empty recd s)
    (hc : cover s = []) (he : s.results.countP Res.isErr = 0) :
    s.q = [] ∧ s.outbox = [] ∧ s.tasks = [] ∧ s.results = [] := by
  simp only [cover, List.append_eq_nil_iff] at hc
  obtain ⟨h1, h2, h3, h4⟩ := hc
  refine ⟨flatMap_nil_of h1 fun x hx => seg_idxs_ne (hs.qok x hx).valid,
    flatMap_nil_of h2 fun x hx => task_idxs_ne (hs.outb x hx).valid,
    flatMap_nil_of h3 fun x hx => task_idxs_ne (hs.tsk x hx).valid,
    flatMap_nil_of h4 fun x hx => ?_⟩
  cases x with
  | ok x => exact seg_idxs_ne (SegOk.valid (hs.res _ hx))
  | err e =>
    have := (List.countP_eq_zero.1 he) _ hx
    simp [Res.isErr] at this

theorem part_step {ll lossy : Prop} {recd : List (Nat × α)} {s s' : St α ε} {l : Label α ε ω}
    (hsafe : Safe (Returns comb) empty recd s) (hnf : NoFinalEarly s)
    (hi : Part ll lossy recd s) (hl : l.exactlyOnce = true) (hnd : ((recd ++ l.items).map (·.1)).Nodup)
    (h : StepR comb empty dupErr s l s') (ho' : s'.outcome = none) : Part (ll ∧ l.lossless = true) (lossy ∨ l.loses = true) (recd ++ l.items) s' := by
  cases h with
  | dupTask | dupResult => simp [Label.exactlyOnce] at hl
  | inputErr | ioErr | disconnect | finish => simp at ho'
  | item i a hsz =>
    have hfin := hnf hsz
    obtain ⟨lost, hp, he, hll, hly⟩ := hi.opn hfin
    simp only [Label.items, List.map_append, List.map_cons, List.map_nil] at hnd
    simp only [Label.items]
    have hxi : (⟨i, i, a⟩ : Seg α).idxs = [i] := by simp [Seg.idxs]
    have hxv : (⟨i, i, a⟩ : Seg α).Valid := by simp [Seg.Valid]
    have hnd' : ((⟨i, i, a⟩ : Seg α).idxs ++ cover s).Nodup := by
      have h1 : ((cover s ++ lost) ++ [i]).Nodup := (hp.append_right [i]).nodup_iff.2 hnd
      rw [hxi]
      refine List.Nodup.sublist ?_ ((List.perm_append_comm.nodup_iff).1 h1)
      simp
    have hperm : ∀ c : List Nat, c.Perm ([i] ++ cover s) → (c ++ lost).Perm ((recd ++ [(i, a)]).map (·.1)) := by
      intro c hc
      rw [List.map_append]
      rw [List.perm_iff_count] at hc hp ⊢
      intro j; have := hc j; have := hp j
      simp only [List.count_append, List.map_cons, List.map_nil] at *; omega
    unfold onItem
    simp only
    split
    · rename_i hlt
      have h0 : s.count = 0 := by omega
      have hq0 := hi.first h0
      refine ⟨?_, ?_, by simp, ?_, ?_⟩
      · simp [hq0, CQueue.queue, QueueOk, Seg.Valid]
      · simp [hq0, CQueue.queue, NonAdj, Adjacent, Before]
      · intro _
        refine ⟨lost, hperm _ ?_, he, fun h => hll h.1, by simpa [Label.loses] using hly⟩
        simp [cover, hq0, CQueue.queue, hxi]
      · simp [hfin]
    · have hdis := disjoint_queue (s := s) hi.qok hxv hnd'
      obtain ⟨f1, f2, f3, f4, f5, f6, f7⟩ := tryDispatch_fields
        { s with count := s.count + 1, notified := true } (⟨i, i, a⟩ : Seg α)
      obtain ⟨g1, g2, g3, g4⟩ := tryDispatch_cover (s := { s with count := s.count + 1, notified := true })
        hi.qok hi.nonadj hxv hdis
      refine ⟨g2, g3, by rw [f1]; simp, ?_, by rw [f6]; simp [hfin]⟩
      intro _
      refine ⟨lost, ?_, by rw [f5]; exact he, by rw [f5]; exact fun h => hll h.1, by simpa [Label.loses] using hly⟩
      rw [hxi] at g1
      exact hperm _ g1
  | inputEnd hsz =>
    simp only [Label.items, List.append_nil] at hnd ⊢
    unfold onInputEnd at ho' ⊢
    simp only at ho' ⊢
    split at ho'
    · simp at ho'
    · split at ho' <;> simp at ho'
    · refine ⟨hi.qok, hi.nonadj, hi.first, ?_, by simpa [Label.loses] using hi.cls⟩
      intro hfin
      obtain ⟨lost, hpl, he, hll, hly⟩ := hi.opn hfin
      exact ⟨lost, hpl, he, fun h => hll h.1, by simpa [Label.loses] using hly⟩
  | publish k t rest hp =>
    simp only [Label.items, List.append_nil] at hnd ⊢
    have hfin : s.final = none := by
      cases hf : s.final with
      | none => rfl
      | some v =>
        have := (hi.cls (by simp [hf])).2.2.1
        rw [this] at hp; simp at hp
    refine ⟨hi.qok, hi.nonadj, hi.first, ?_, by simp [hfin]⟩
    intro _
    obtain ⟨lost, hpl, he, hll, hly⟩ := hi.opn hfin
    refine ⟨lost, ?_, he, fun h => hll h.1, by simpa [Label.loses] using hly⟩
    refine List.Perm.trans ?_ hpl
    have := hp.flatMap_right CTask.idxs
    rw [List.perm_iff_count] at this ⊢
    intro a; have := this a
    simp only [cover, List.flatMap_append, List.flatMap_cons, List.flatMap_nil, List.count_append, List.count_nil] at *
    omega
  | exec k w t rest hp =>
    simp only [Label.items, List.append_nil] at hnd ⊢
    have hfin : s.final = none := by
      cases hf : s.final with
      | none => rfl
      | some v =>
        have := (hi.cls (by simp [hf])).2.2.2.1
        rw [this] at hp; simp at hp
    refine ⟨hi.qok, hi.nonadj, hi.first, ?_, by simp [hfin]⟩
    intro _
    obtain ⟨lost, hpl, he, hll, hly⟩ := hi.opn hfin
    have hf := hp.flatMap_right CTask.idxs
    rcases execute_idxs (comb := comb) w t with ⟨h1, h2⟩ | ⟨h1, h2⟩
    · refine ⟨lost, List.Perm.trans ?_ hpl, by simpa [h2] using he, by simpa [h2] using fun h _ => hll h, by simpa [Label.loses] using hly⟩
      rw [List.perm_iff_count] at hf ⊢
      intro a; have := hf a
      simp only [cover, List.flatMap_append, List.flatMap_cons, List.flatMap_nil, List.count_append, List.count_nil, h1] at *
      omega
    · refine ⟨t.idxs ++ lost, List.Perm.trans ?_ hpl, ?_, by simp [h2], ?_⟩
      · rw [List.perm_iff_count] at hf ⊢
        intro a; have := hf a
        simp only [cover, List.flatMap_append, List.flatMap_cons, List.flatMap_nil, List.count_append, List.count_nil, h1] at *
        omega
      · have hv := (hsafe.tsk t (hp.mem_iff.2 (by simp))).valid
        simp [h2, CTask.idxs]; omega
      · intro _ hh; exact task_idxs_ne (hsafe.tsk t (hp.mem_iff.2 (by simp))).valid (List.append_eq_nil_iff.1 hh).1
  | recv k r rest hn hp =>
    simp only [Label.items, List.append_nil] at hnd ⊢
    have hfin : s.final = none := by
      cases hf : s.final with
      | none => rfl
      | some v =>
        have := (hi.cls (by simp [hf])).2.2.2.2
        rw [this] at hp; simp at hp
    obtain ⟨lost, hpl, he, hll, hly⟩ := hi.opn hfin
    have hf := hp.flatMap_right Res.idxs
    have hcp := hp.countP_eq Res.isErr
    cases r with
    | err e => simp [onResult] at ho'
    | ok x =>
      have hxok : SegOk (Returns comb) recd x := hsafe.res (.ok x) (hp.mem_iff.2 (by simp))
      have hxv := hxok.valid
      have hcov : (cover s).Perm (x.idxs ++ cover { s with results := rest }) := by
        rw [List.perm_iff_count] at hf ⊢
        intro a; have := hf a
        simp only [cover, List.flatMap_append, List.flatMap_cons, Res.idxs, List.count_append] at *
        omega
      have hnd' : (x.idxs ++ cover { s with results := rest }).Nodup := by
        have h1 : (cover s ++ lost).Nodup := hpl.nodup_iff.2 hnd
        exact hcov.nodup_iff.1 (List.nodup_append.1 h1).1
      have hdis := disjoint_queue (s := { s with results := rest }) hi.qok hxv hnd'
      have herr : rest.countP Res.isErr ≤ lost.length := by
        simp [Res.isErr] at hcp; omega
      have hdisp : Part (ll ∧ (Label.recv (α := α) (ε := ε) (ω := ω) k).lossless = true) (lossy ∨ (Label.recv (α := α) (ε := ε) (ω := ω) k).loses = true) recd (tryDispatch { s with results := rest } x) := by
        obtain ⟨f1, f2, f3, f4, f5, f6, f7⟩ := tryDispatch_fields { s with results := rest } x
        obtain ⟨g1, g2, g3, _⟩ := tryDispatch_cover (s := { s with results := rest }) hi.qok hi.nonadj hxv hdis
        refine ⟨g2, g3, ?_, ?_, by rw [f6]; simp [hfin]⟩
        · rw [f1]; intro h0
          have hc := hsafe.cnt
          simp only at h0
          have : recd = [] := List.eq_nil_of_length_eq_zero (by omega)
          subst this
          obtain ⟨xs, _, _, h3, h4⟩ := hxok
          cases xs with
          | nil => simp at h3
          | cons y ys => have := h4 (x.lo, y) (by simp [indexed]); simp at this
        · intro _
          refine ⟨lost, ((g1.trans hcov.symm).append_right lost).trans hpl, by rw [f5]; exact herr, ?_, by simpa [Label.loses] using hly⟩
          rw [f5]; intro h h0
          refine hll h.1 ?_
          simp only [List.countP_cons, Res.isErr] at hcp h0 ⊢
          simp at hcp; omega
      unfold onResult at ho' ⊢
      simp only at ho' ⊢
      split
      · rename_i n hsz
        split
        · rename_i hisf
          simp only [hfin]
          have hn := hsafe.sz n hsz
          have hw : x.idxs.length = recd.length := by
            simp only [Seg.isFinal, beq_iff_eq] at hisf
            simp only [idxs_length, Seg.Valid] at *; omega
          have hlen := hpl.length_eq
          have hlen2 := hcov.length_eq
          simp only [List.length_append, List.length_map] at hlen hlen2
          have hc0 : cover { s with results := rest } = [] := List.eq_nil_of_length_eq_zero (by omega)
          have hsafe' : Safe (Returns comb) empty recd { s with results := rest } :=
            ⟨hsafe.cnt, hsafe.sz, hsafe.sorted, hsafe.qok, hsafe.outb, hsafe.tsk,
              fun t ht => hsafe.res t (hp.mem_iff.2 (by simp [ht])), hsafe.fin, hsafe.out⟩
          have hall := all_nil hsafe' hc0 (by simp only; omega)
          refine ⟨hi.qok, hi.nonadj, hi.first, by simp, fun _ => ⟨?_, hall⟩⟩
          rintro (hly' | hly')
          · have := hly hly'
            exact this (List.eq_nil_of_length_eq_zero (by omega))
          · simp [Label.loses] at hly'
        · exact hdisp
      · exact hdisp
  | loseTask k t rest hp =>
    simp only [Label.items, List.append_nil] at hnd ⊢
    have hfin : s.final = none := by
      cases hf : s.final with
      | none => rfl
      | some v =>
        have := (hi.cls (by simp [hf])).2.2.2.1
        rw [this] at hp; simp at hp
    refine ⟨hi.qok, hi.nonadj, hi.first, ?_, by simp [hfin]⟩
    intro _
    obtain ⟨lost, hpl, he, hll, hly⟩ := hi.opn hfin
    have hf := hp.flatMap_right CTask.idxs
    refine ⟨t.idxs ++ lost, List.Perm.trans ?_ hpl, by simp; omega, by simp [Label.lossless], ?_⟩
    rotate_left
    · intro _ hh; exact task_idxs_ne (hsafe.tsk t (hp.mem_iff.2 (by simp))).valid (List.append_eq_nil_iff.1 hh).1
    rw [List.perm_iff_count] at hf ⊢
    intro a; have := hf a
    simp only [cover, List.flatMap_append, List.flatMap_cons, List.flatMap_nil, List.count_append, List.count_nil] at *
    omega
  | loseResult k r rest hp =>
    simp only [Label.items, List.append_nil] at hnd ⊢
    have hfin : s.final = none := by
      cases hf : s.final with
      | none => rfl
      | some v =>
        have := (hi.cls (by simp [hf])).2.2.2.2
        rw [this] at hp; simp at hp
    refine ⟨hi.qok, hi.nonadj, hi.first, ?_, by simp [hfin]⟩
    intro _
    obtain ⟨lost, hpl, he, hll, hly⟩ := hi.opn hfin
    have hf := hp.flatMap_right Res.idxs
    have hcp := hp.countP_eq Res.isErr
    refine ⟨r.idxs ++ lost, List.Perm.trans ?_ hpl, ?_, by simp [Label.lossless], ?_⟩
    · rw [List.perm_iff_count] at hf ⊢
      intro a; have := hf a
      simp only [cover, List.flatMap_append, List.flatMap_cons, List.flatMap_nil, List.count_append, List.count_nil] at *
      omega
    · simp only [List.countP_cons, List.length_append] at hcp ⊢; omega
    · intro _ hh
      have hh := List.append_eq_nil_iff.1 hh
      cases r with
      | ok x => exact seg_idxs_ne (SegOk.valid (hsafe.res (.ok x) (hp.mem_iff.2 (by simp)))) hh.1
      | err e => rw [hh.2] at he; simp only [List.countP_cons, Res.isErr, List.length_nil] at hcp he; simp at hcp; omega

end
end Fold
end Paladin
