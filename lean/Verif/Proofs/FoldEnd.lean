import Verif.Proofs.FoldLive
/-! # Fold: what happens after the end of the input -/
namespace Paladin
namespace Fold

section
variable {comb : ω → α → α → Except ε α} {empty : α} {dupErr : ε}

theorem idxs_cover_q {s : St α ε} {x : Seg α} (hx : x ∈ s.q) : x.idxs.length ≤ (cover s).length := by
  obtain ⟨a, b, hab⟩ := List.append_of_mem hx
  simp only [cover, hab, List.flatMap_append, List.flatMap_cons, List.length_append]; omega

/-- A queued segment as wide as the whole input means that every result has been received. -/
theorem wide_recvs {ls : List (Label α ε ω)} {s : St α ε} (hs : Safe (Returns comb) empty (inputs ls) s)
    (hc : Cnt ls s) {ll lossy : Prop} (hp : Part ll lossy (inputs ls) s)
    {x : Seg α} (hx : x ∈ s.q) (hw : x.hi + 1 = x.lo + (inputs ls).length) : recvs ls + 1 = (inputs ls).length := by
  have hfin : s.final = none := by
    cases hf : s.final with
    | none => rfl
    | some v => have := (hp.cls (by simp [hf])).2.1; rw [this] at hx; simp at hx
  obtain ⟨lost, hpl, he, _, _⟩ := hp.opn hfin
  have hlen := hpl.length_eq
  have hcnt := hs.cnt
  obtain ⟨a, b, hab⟩ := List.append_of_mem hx
  have hcl : (cover s).length = x.idxs.length + ((a.flatMap Seg.idxs).length + (b.flatMap Seg.idxs).length +
      (s.outbox.flatMap CTask.idxs).length + (s.tasks.flatMap CTask.idxs).length + (s.results.flatMap Res.idxs).length) := by
    simp only [cover, hab, List.flatMap_append, List.flatMap_cons, List.length_append]; omega
  simp only [List.length_append, List.length_map, hcl, idxs_length] at hlen
  have ha : a = [] := flatMap_nil_of (f := Seg.idxs) (List.eq_nil_of_length_eq_zero (by omega)) fun y hy =>
    seg_idxs_ne (hp.qok.2 y (by rw [hab]; simp [hy]))
  have hb : b = [] := flatMap_nil_of (f := Seg.idxs) (List.eq_nil_of_length_eq_zero (by omega)) fun y hy =>
    seg_idxs_ne (hp.qok.2 y (by rw [hab]; simp [hy]))
  have ho : s.outbox = [] := flatMap_nil_of (f := CTask.idxs) (List.eq_nil_of_length_eq_zero (by omega)) fun y hy =>
    task_idxs_ne (hs.outb y hy).valid
  have ht : s.tasks = [] := flatMap_nil_of (f := CTask.idxs) (List.eq_nil_of_length_eq_zero (by omega)) fun y hy =>
    task_idxs_ne (hs.tsk y hy).valid
  have hr : s.results = [] := by
    have herr : s.results.countP Res.isErr = 0 := by omega
    refine flatMap_nil_of (f := Res.idxs) (List.eq_nil_of_length_eq_zero (by omega)) fun y hy => ?_
    cases y with
    | ok z => exact seg_idxs_ne (SegOk.valid (hs.res _ hy))
    | err e => exact absurd (List.countP_eq_zero.1 herr _ hy) (by simp [Res.isErr])
  have h1 := hc.obj; have h2 := hc.ex; have h3 := hc.rc
  simp [hab, ha, hb, ho, ht, hr, hfin] at h1 h2 h3
  omega

/-- No queued segment is as wide as the input, once the size is known. -/
def NoWide (s : St α ε) : Prop := ∀ n, s.size = some n → ∀ x ∈ s.q, x.hi + 1 ≠ x.lo + n

theorem tryDispatch_mem {s : St α ε} (hs : s.q.Sorted) (hv : ∀ y ∈ s.q, y.Valid) {x y : Seg α} (hx : x.Valid)
    (hy : y ∈ (tryDispatch s x).q) : y = x ∨ y ∈ s.q := by
  have sound := CQueue.acquire_sound hs hv hx
  unfold tryDispatch at hy
  rcases ha : s.q.acquire x with ⟨_ | ⟨l, r⟩, q'⟩ <;> rw [ha] at sound hy <;> simp only at sound hy
  · subst sound; exact CQueue.mem_queue hy
  · obtain ⟨_, ⟨_, hm, rfl⟩ | ⟨_, hm, rfl⟩⟩ := sound <;> exact .inr (CQueue.mem_remove.1 hy).1

theorem noWide_step {recd : List (Nat × α)} {s s' : St α ε} {l : Label α ε ω} (hsafe : Safe (Returns comb) empty recd s)
    (hsz : s.size ≠ none) (hi : NoWide s) (h : StepR comb empty dupErr s l s') : s'.size ≠ none ∧ NoWide s' := by
  have hv : ∀ y ∈ s.q, y.Valid := fun y hy => (hsafe.qok y hy).valid
  cases h with
  | item _ _ hs | inputErr _ hs | inputEnd hs => exact absurd hs hsz
  | recv k r rest hn hp =>
    cases r with
    | err e => exact ⟨hsz, hi⟩
    | ok x =>
      have hxok : SegOk (Returns comb) recd x := hsafe.res (.ok x) (hp.mem_iff.2 (by simp))
      unfold onResult; simp only
      split
      · rename_i n hn
        split
        · split
          · exact ⟨hsz, fun n hn => hi n hn⟩
          · exact ⟨hsz, fun n hn => hi n hn⟩
        · rename_i hnf
          obtain ⟨_, f2, _⟩ := tryDispatch_fields { s with results := rest } x
          refine ⟨by rw [f2]; exact hsz, fun m hm y hy => ?_⟩
          rw [f2] at hm
          simp only [hn, Option.some.injEq] at hm
          subst hm
          rcases tryDispatch_mem (s := { s with results := rest }) hsafe.sorted hv hxok.valid hy with rfl | hy
          · have hvx := hxok.valid
            simp only [Seg.isFinal, Seg.Valid, beq_iff_eq] at hnf hvx
            omega
          · exact hi n hn y hy
      · rename_i hn
        exact absurd hn hsz
  | _ => exact ⟨hsz, fun n hn => hi n hn⟩

theorem noWide_run (ls : List (Label α ε ω)) (s : St α ε) (h : run comb empty dupErr init ls = some s)
    (hsz : s.size ≠ none) (hi : NoWide s) (post : List (Label α ε ω)) (s' : St α ε)
    (h' : run comb empty dupErr s post = some s') : s'.size ≠ none ∧ NoWide s' := by
  induction post generalizing ls s with
  | nil => simp [run] at h'; subst h'; exact ⟨hsz, hi⟩
  | cons l post ih =>
    simp only [run] at h'
    cases hst : step comb empty dupErr s l with
    | none => simp [hst] at h'
    | some s1 =>
      simp [hst] at h'
      have h1 := run_snoc (l := l) h
      rw [hst] at h1
      obtain ⟨a, b⟩ := noWide_step (safe_run ls s h).1 hsz hi (stepR_of_step hst)
      exact ih _ s1 h1 a b h'

/-- Where errors come from. -/
structure Prov (comb : ω → α → α → Except ε α) (dupErr : ε) (ls : List (Label α ε ω)) (s : St α ε) : Prop where
  res : ∀ e, Res.err e ∈ s.results → ∃ k w a b, .exec k w ∈ ls ∧ comb w a b = .error e
  out : ∀ e, s.outcome = some (.err e) → .inputErr e ∈ ls ∨ .ioErr e ∈ ls ∨
    (∃ k w a b, .exec k w ∈ ls ∧ comb w a b = .error e) ∨
    (e = dupErr ∧ ∃ p s1 x, p <+: ls ∧ run comb empty dupErr init p = some s1 ∧ s1.outcome = none ∧
      s1.final ≠ none ∧ Res.ok x ∈ s1.results)

theorem mono_exec {ls ls' : List (Label α ε ω)} {e : ε}
    (h : ∃ k w a b, .exec k w ∈ ls ∧ comb w a b = .error e) :
    ∃ k w a b, .exec k w ∈ ls ++ ls' ∧ comb w a b = .error e := by
  obtain ⟨k, w, a, b, h1, h2⟩ := h
  exact ⟨k, w, a, b, by simp [h1], h2⟩

theorem prov_run (ls : List (Label α ε ω)) (s : St α ε) (h : run comb empty dupErr init ls = some s) :
    Prov (empty := empty) comb dupErr ls s := by
  refine run_induction (P := fun ls s => Prov (empty := empty) comb dupErr ls s) ?_ ?_ ls s h
  · constructor <;> simp [init]
  · intro ls l s s' hr ih hst
    have ho := step_outcome hst
    have hst := stepR_of_step hst
    have hres : ∀ e, Res.err e ∈ s.results →
        ∃ k w a b, .exec k w ∈ ls ++ [l] ∧ comb w a b = .error e := fun e he => mono_exec (ih.res e he)
    cases hst with
    | item i a hs =>
      have hd := tryDispatch_fields { s with count := s.count + 1, notified := true } (⟨i, i, a⟩ : Seg α)
      obtain ⟨_, _, _, _, f5, _, f7⟩ := hd
      unfold onItem; simp only; split
      · exact ⟨hres, by simp [ho]⟩
      · exact ⟨by rw [f5]; exact hres, by rw [f7]; simp [ho]⟩
    | inputEnd hs =>
      unfold onInputEnd; simp only; split
      · exact ⟨hres, by simp⟩
      · split <;> exact ⟨hres, by simp⟩
      · exact ⟨hres, by simp [ho]⟩
    | inputErr e hs => exact ⟨hres, by simp⟩
    | ioErr e => exact ⟨hres, by simp⟩
    | exec k w t rest hp =>
      refine ⟨?_, by simp [ho]⟩
      intro e he
      simp at he
      rcases he with he | he
      · exact hres e he
      · unfold execute at he
        split at he
        · simp at he
        · rename_i e' hc
          simp at he; subst he
          exact ⟨k, w, t.a, t.b, by simp, hc⟩
    | recv k r rest hn hp =>
      have hrest : ∀ e, Res.err e ∈ rest →
          ∃ k' w a b, .exec k' w ∈ ls ++ [(.recv k : Label α ε ω)] ∧ comb w a b = .error e :=
        fun e he => hres e (hp.mem_iff.2 (by simp [he]))
      cases r with
      | err e =>
        refine ⟨hrest, ?_⟩
        intro e' he'
        simp [onResult] at he'
        subst he'
        exact .inr (.inr (.inl (hres e (hp.mem_iff.2 (by simp)))))
      | ok x =>
        obtain ⟨_, _, _, _, f5, _, f7⟩ := tryDispatch_fields { s with results := rest } x
        unfold onResult; simp only
        split
        · split
          · split
            · exact ⟨hrest, by simp [ho]⟩
            · rename_i v hv
              refine ⟨hrest, ?_⟩
              intro e he
              simp at he
              exact .inr (.inr (.inr ⟨he.symm, ls, s, x, List.prefix_append _ _, hr, ho, by simp [hv],
                hp.mem_iff.2 (by simp)⟩))
          · exact ⟨by rw [f5]; exact hrest, by rw [f7]; simp [ho]⟩
        · exact ⟨by rw [f5]; exact hrest, by rw [f7]; simp [ho]⟩
    | loseResult k r rest hp => exact ⟨fun e he => hres e (hp.mem_iff.2 (by simp [he])), by simp [ho]⟩
    | dupResult k r hm =>
      refine ⟨fun e he => hres e ?_, by simp [ho]⟩
      simp at he
      rcases he with he | he
      · exact he
      · rw [he]; exact hm
    | _ => exact ⟨hres, by simp [ho]⟩

/-- With at most one item nothing is ever dispatched. -/
structure Early (recd : List (Nat × α)) (s : St α ε) : Prop where
  len : s.count = recd.length
  emp : s.outcome = none → s.count ≤ 1 → s.outbox = [] ∧ s.tasks = [] ∧ s.results = []
  que : s.outcome = none → s.count ≤ 1 → s.q = recd.map fun p => ⟨p.1, p.1, p.2⟩

theorem early_run (ls : List (Label α ε ω)) (s : St α ε) (h : run comb empty dupErr init ls = some s) :
    Early (inputs ls) s := by
  refine run_induction (P := fun ls s => Early (inputs ls) s) ?_ ?_ ls s h
  · constructor <;> simp [init, inputs]
  · intro ls l s s' hr ih hst
    have ho := step_outcome hst
    have hst := stepR_of_step hst
    obtain ⟨h1, h2, h3⟩ := ih
    have h2 := h2 ho
    have h3 := h3 ho
    rw [inputs_append, inputs_cons]
    simp only [inputs, List.append_nil]
    cases hst with
    | item i a hs =>
      obtain ⟨f1, f2, f3, f4, f5, f6, f7⟩ := tryDispatch_fields { s with count := s.count + 1, notified := true } (⟨i, i, a⟩ : Seg α)
      unfold onItem; simp only; split
      · have h0 : s.count = 0 := by omega
        have hq := h3 (by omega)
        have hnil : inputs ls = [] := List.eq_nil_of_length_eq_zero (by omega)
        refine ⟨by simp [Label.items, h1], fun _ _ => h2 (by omega), fun _ _ => ?_⟩
        simp [hq, hnil, Label.items, CQueue.queue]
      · refine ⟨by rw [f1]; simp [Label.items, h1], fun _ hh => ?_, fun _ hh => ?_⟩ <;>
        · rw [f1] at hh; simp at hh; omega
    | inputEnd hs =>
      simp only [Label.items, List.append_nil]
      unfold onInputEnd; simp only; split
      · exact ⟨h1, by simp, by simp⟩
      · split <;> exact ⟨h1, by simp, by simp⟩
      · exact ⟨h1, fun _ => h2, fun _ => h3⟩
    | recv k r rest hn hp =>
      simp only [Label.items, List.append_nil]
      have hc : 2 ≤ s.count := by
        by_cases hc : 2 ≤ s.count
        · exact hc
        · have := (h2 (by omega)).2.2; rw [this] at hp; simp at hp
      have key : ∀ s' : St α ε, s'.count = s.count → Early (inputs ls) s' := by
        intro s' hs'
        exact ⟨by rw [hs', h1], fun _ hh => by omega, fun _ hh => by omega⟩
      apply key
      unfold onResult; split
      · rfl
      · rename_i x
        have hd := (tryDispatch_fields { s with results := rest } x).1
        simp only; split
        · split
          · split <;> rfl
          · exact hd
        · exact hd
    | publish k t rest hp | exec k w t rest hp | loseTask k t rest hp | loseResult k t rest hp =>
      simp only [Label.items, List.append_nil]
      refine ⟨h1, fun _ hh => ?_, fun _ hh => h3 hh⟩
      obtain ⟨g1, g2, g3⟩ := h2 hh
      simp only [g1, g2, g3] at hp
      simp at hp
    | dupTask k t hm | dupResult k t hm =>
      simp only [Label.items, List.append_nil]
      refine ⟨h1, fun _ hh => ?_, fun _ hh => h3 hh⟩
      obtain ⟨g1, g2, g3⟩ := h2 hh
      simp [g1, g2, g3] at hm
    | _ =>
      simp only [Label.items, List.append_nil]
      exact ⟨h1, by simp, by simp⟩

/-- Panics: disconnection, or a single item that is not at index 0. -/
theorem panic_run (ls : List (Label α ε ω)) (s : St α ε) (h : run comb empty dupErr init ls = some s) :
    s.outcome = some .panic → .disconnect ∈ ls ∨ (∃ i a, inputs ls = [(i, a)] ∧ i ≠ 0 ∧ .inputEnd ∈ ls) := by
  intro hv
  have hne : ls ≠ [] := by
    rintro rfl; simp [run] at h; subst h; simp [init] at hv
  obtain ⟨ls', l, rfl⟩ : ∃ ls' l, ls = ls' ++ [l] := ⟨_, _, (List.dropLast_append_getLast hne).symm⟩
  obtain ⟨s1, s2, h1, h2, h3, h4⟩ := run_split h
  simp [run] at h4; subst h4
  have ho := step_outcome h2
  have hst := stepR_of_step h2
  have hs := (safe_run ls' s1 h1).1
  cases hst with
  | item i a hs =>
    have hd := tryDispatch_fields { s1 with count := s1.count + 1, notified := true } (⟨i, i, a⟩ : Seg α)
    unfold onItem at hv; simp only at hv; split at hv
    · simp [ho] at hv
    · rw [hd.2.2.2.2.2.2] at hv; simp [ho] at hv
  | inputEnd hsz =>
    right
    unfold onInputEnd at hv; simp only at hv; split at hv
    · simp at hv
    · rename_i h1'
      split at hv
      · simp at hv
      · rename_i q' hd
        have hcnt := hs.cnt
        rw [inputs_append, inputs_cons]
        simp only [Label.items, inputs, List.append_nil]
        obtain ⟨⟨i, a⟩, hia⟩ : ∃ p, inputs ls' = [p] := by
          cases hI : inputs ls' with
          | nil => simp [hI] at hcnt; omega
          | cons p t => cases t with
            | nil => exact ⟨p, rfl⟩
            | cons _ _ => simp [hI] at hcnt; omega
        refine ⟨i, a, hia, ?_, by simp⟩
        have hq := (early_run ls' s1 h1).que ho (by omega)
        rintro rfl
        simp [CQueue.dequeue, hq, hia] at hd
    · simp [ho] at hv
  | recv k r rest hn hp =>
    obtain hd := fun x => tryDispatch_fields { s1 with results := rest } x
    unfold onResult at hv; split at hv
    · simp at hv
    · rename_i x
      simp only at hv; split at hv
      · split at hv
        · split at hv
          · simp [ho] at hv
          · simp at hv
        · rw [(hd x).2.2.2.2.2.2] at hv; simp [ho] at hv
      · rw [(hd x).2.2.2.2.2.2] at hv; simp [ho] at hv
  | disconnect => left; simp
  | _ => simp [ho] at hv

end
end Fold
end Paladin
