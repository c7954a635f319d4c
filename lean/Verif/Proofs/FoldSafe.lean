import Verif.Proofs.Util
import Verif.Proofs.Contig
import Verif.Spec.FoldTrace
import Mathlib.Data.List.Perm.Subperm
/-! # Fold: the safety invariant (holds under loss and duplication) -/
namespace Paladin
namespace Fold

theorem takeAt_some {l : List β} {k : Nat} {x : β} {rest : List β} (h : takeAt l k = some (x, rest)) :
    l.Perm (x :: rest) := by
  unfold takeAt at h
  split at h
  · rename_i y hy
    simp at h; obtain ⟨rfl, rfl⟩ := h
    obtain ⟨hk, rfl⟩ := List.getElem?_eq_some_iff.1 hy
    exact (List.getElem_cons_eraseIdx_perm hk).symm
  · simp at h

theorem takeAt_zero {l : List β} (h : l ≠ []) : ∃ x rest, takeAt l 0 = some (x, rest) := by
  cases l with
  | nil => simp at h
  | cons x xs => exact ⟨x, xs, by simp [takeAt]⟩

theorem mem_indexed {xs : List α} {st : Nat} {p : Nat × α} (h : p ∈ indexed st xs) :
    st ≤ p.1 ∧ p.1 < st + xs.length := by
  induction xs generalizing st with
  | nil => simp [indexed] at h
  | cons x xs ih =>
    simp [indexed] at h
    rcases h with rfl | h
    · simp
    · have := ih h; simp; omega

theorem indexed_append (st : Nat) (xs ys : List α) :
    indexed st (xs ++ ys) = indexed st xs ++ indexed (st + xs.length) ys := by
  induction xs generalizing st with
  | nil => simp [indexed]
  | cons x xs ih => simp only [List.cons_append, indexed, ih, List.length_cons]; congr 3; omega

theorem length_indexed (st : Nat) (xs : List α) : (indexed st xs).length = xs.length := by
  induction xs generalizing st with
  | nil => simp [indexed]
  | cons x xs ih => simp [indexed, ih]

theorem pairwise_indexed (st : Nat) (xs : List α) : (indexed st xs).Pairwise (fun p q => p.1 < q.1) := by
  induction xs generalizing st with
  | nil => simp [indexed]
  | cons x xs ih =>
    simp only [indexed, List.pairwise_cons]
    exact ⟨fun p hp => by have := mem_indexed hp; simp; omega, ih _⟩

theorem nodup_indexed (st : Nat) (xs : List α) : (indexed st xs).Nodup :=
  (pairwise_indexed st xs).imp fun h he => by subst he; omega

theorem map_fst_indexed (st : Nat) (xs : List α) : (indexed st xs).map (·.1) = List.range' st xs.length := by
  induction xs generalizing st with
  | nil => simp [indexed]
  | cons x xs ih => simp [indexed, ih, List.range'_succ]

theorem map_snd_indexed (st : Nat) (xs : List α) : (indexed st xs).map (·.2) = xs := by
  induction xs generalizing st with
  | nil => simp [indexed]
  | cons x xs ih => simp [indexed, ih]

/-- Two blocks with the same items are the same block. -/
theorem indexed_perm_eq {st st' : Nat} {xs ys : List α} (h : (indexed st xs).Perm (indexed st' ys)) :
    xs = ys ∧ (xs ≠ [] → st = st') := by
  have he : indexed st xs = indexed st' ys := by
    refine h.eq_of_pairwise (le := fun p q => p.1 < q.1) ?_ (pairwise_indexed _ _) (pairwise_indexed _ _)
    intro a b _ _ h1 h2; omega
  refine ⟨by rw [← map_snd_indexed st xs, he, map_snd_indexed], ?_⟩
  intro hne
  cases xs with
  | nil => simp at hne
  | cons x xs =>
    cases ys with
    | nil => simp [indexed] at he
    | cons y ys => simp [indexed] at he; exact he.1.1

section
variable (R : α → α → α → Prop)

/-- A segment holds an in-order combination of the received items in its range. -/
def SegOk (recd : List (Nat × α)) (x : Seg α) : Prop :=
  ∃ xs, Tree R xs x.val ∧ x.lo + xs.length = x.hi + 1 ∧ 0 < xs.length ∧ ∀ p ∈ indexed x.lo xs, p ∈ recd

/-- A task joins two neighbouring good segments. -/
def TaskOk (recd : List (Nat × α)) (t : CTask α) : Prop :=
  ∃ l r : Seg α, SegOk R recd l ∧ SegOk R recd r ∧ Before l r ∧ t = ⟨l.lo, r.hi, l.val, r.val⟩

def ResOk (recd : List (Nat × α)) : Res α ε → Prop
  | .ok x => SegOk R recd x
  | .err _ => True

/-- A good segment that covers as many indices as items were received. -/
def Full (recd : List (Nat × α)) (v : α) : Prop :=
  ∃ x : Seg α, SegOk R recd x ∧ x.hi + 1 = x.lo + recd.length ∧ x.val = v

structure Safe (empty : α) (recd : List (Nat × α)) (s : St α ε) : Prop where
  cnt : s.count = recd.length
  sz : ∀ n, s.size = some n → n = recd.length
  sorted : s.q.Sorted
  qok : ∀ x ∈ s.q, SegOk R recd x
  outb : ∀ t ∈ s.outbox, TaskOk R recd t
  tsk : ∀ t ∈ s.tasks, TaskOk R recd t
  res : ∀ r ∈ s.results, ResOk R recd r
  fin : ∀ v, s.final = some v → Full R recd v
  out : ∀ v, s.outcome = some (.ok v) → (recd = [] ∧ v = empty) ∨ Full R recd v

variable {R}

theorem SegOk.valid {recd : List (Nat × α)} {x : Seg α} (h : SegOk R recd x) : x.Valid := by
  obtain ⟨xs, _, h2, h3, _⟩ := h
  simp only [Seg.Valid]; omega

theorem SegOk.mono {recd recd' : List (Nat × α)} (hs : ∀ p ∈ recd, p ∈ recd') {x : Seg α}
    (h : SegOk R recd x) : SegOk R recd' x := by
  obtain ⟨xs, h1, h2, h3, h4⟩ := h
  exact ⟨xs, h1, h2, h3, fun p hp => hs p (h4 p hp)⟩

theorem TaskOk.mono {recd recd' : List (Nat × α)} (hs : ∀ p ∈ recd, p ∈ recd') {t : CTask α}
    (h : TaskOk R recd t) : TaskOk R recd' t := by
  obtain ⟨l, r, h1, h2, h3, h4⟩ := h
  exact ⟨l, r, h1.mono hs, h2.mono hs, h3, h4⟩

theorem ResOk.mono {recd recd' : List (Nat × α)} (hs : ∀ p ∈ recd, p ∈ recd') {t : Res α ε}
    (h : ResOk R recd t) : ResOk R recd' t := by
  cases t with
  | ok x => exact SegOk.mono hs h
  | err e => trivial

/-- Executing a good task gives a good segment. -/
theorem TaskOk.exec {recd : List (Nat × α)} {t : CTask α} (h : TaskOk R recd t) {c : α} (hc : R t.a t.b c) :
    SegOk R recd ⟨t.lo, t.hi, c⟩ := by
  obtain ⟨l, r, ⟨xs, h1, h2, h3, h4⟩, ⟨ys, g1, g2, g3, g4⟩, hb, rfl⟩ := h
  simp only [Before] at hb
  refine ⟨xs ++ ys, .node h1 g1 hc, ?_, ?_, ?_⟩
  · simp only [List.length_append]; omega
  · simp only [List.length_append]; omega
  · intro p hp
    rw [indexed_append] at hp
    rcases List.mem_append.1 hp with hp | hp
    · exact h4 p hp
    · refine g4 p ?_
      have : l.lo + xs.length = r.lo := by omega
      rw [← this]; exact hp

theorem tryDispatch_fields (s : St α ε) (x : Seg α) :
    (tryDispatch s x).count = s.count ∧ (tryDispatch s x).size = s.size ∧
    (tryDispatch s x).notified = s.notified ∧
    (tryDispatch s x).tasks = s.tasks ∧ (tryDispatch s x).results = s.results ∧
    (tryDispatch s x).final = s.final ∧ (tryDispatch s x).outcome = s.outcome := by
  unfold tryDispatch; split <;> simp

theorem tryDispatch_safe {empty : α} {recd : List (Nat × α)} {s : St α ε} (h : Safe R empty recd s) {x : Seg α}
    (hx : SegOk R recd x) : Safe R empty recd (tryDispatch s x) := by
  obtain ⟨f1, f2, _, f4, f5, f6, f7⟩ := tryDispatch_fields s x
  have hv : ∀ y ∈ s.q, y.Valid := fun y hy => (h.qok y hy).valid
  have sound := CQueue.acquire_sound h.sorted hv hx.valid
  have key : (tryDispatch s x).q.Sorted ∧ (∀ y ∈ (tryDispatch s x).q, SegOk R recd y) ∧
      (∀ t ∈ (tryDispatch s x).outbox, TaskOk R recd t) := by
    unfold tryDispatch
    rcases ha : s.q.acquire x with ⟨_ | ⟨l, r⟩, q'⟩ <;> rw [ha] at sound <;> simp only at sound ⊢
    · subst sound
      refine ⟨CQueue.sorted_queue h.sorted x, ?_, h.outb⟩
      intro y hy
      rcases CQueue.mem_queue hy with rfl | hy
      · exact hx
      · exact h.qok y hy
    · obtain ⟨hb, hcase⟩ := sound
      have hq' : ∃ k, q' = s.q.remove k := by
        rcases hcase with ⟨_, _, hh⟩ | ⟨_, _, hh⟩ <;> exact ⟨_, hh⟩
      obtain ⟨k, rfl⟩ := hq'
      refine ⟨CQueue.sorted_remove h.sorted k, fun y hy => h.qok y (CQueue.mem_remove.1 hy).1, ?_⟩
      intro t ht
      rcases List.mem_append.1 ht with ht | ht
      · exact h.outb t ht
      · simp at ht; subst ht
        rcases hcase with ⟨rfl, hr, _⟩ | ⟨rfl, hl, _⟩
        · exact ⟨l, r, hx, h.qok r hr, hb, rfl⟩
        · exact ⟨l, r, h.qok l hl, hx, hb, rfl⟩
  refine ⟨by rw [f1]; exact h.cnt, by rw [f2]; exact h.sz, key.1, key.2.1, key.2.2, by rw [f4]; exact h.tsk,
    by rw [f5]; exact h.res, by rw [f6]; exact h.fin, by rw [f7]; exact h.out⟩

theorem safe_init (empty : α) : Safe (ε := ε) R empty [] (init : St α ε) := by
  constructor <;> simp [init, CQueue.Sorted]

/-- The items delivered by one label. -/
def Label.items : Label α ε ω → List (Nat × α)
  | .item i a => [(i, a)]
  | _ => []

theorem inputs_cons (l : Label α ε ω) (ls : List (Label α ε ω)) : inputs (l :: ls) = l.items ++ inputs ls := by
  cases l <;> rfl

theorem inputs_append (ls ls' : List (Label α ε ω)) : inputs (ls ++ ls') = inputs ls ++ inputs ls' := by
  induction ls with
  | nil => rfl
  | cons l ls ih => rw [List.cons_append, inputs_cons, ih, inputs_cons, List.append_assoc]

theorem Safe.mono_recd {empty : α} {recd : List (Nat × α)} {s : St α ε} (h : Safe R empty recd s) (p : Nat × α)
    (ho : s.outcome = none) (hf : s.final = none) (hs : s.size = none) :
    Safe R empty (recd ++ [p]) { s with count := s.count + 1 } := by
  have hm : ∀ x ∈ recd, x ∈ recd ++ [p] := fun x hx => List.mem_append_left _ hx
  exact {
    cnt := by simp [h.cnt]
    sz := by simp [hs]
    sorted := h.sorted
    qok := fun x hx => (h.qok x hx).mono hm
    outb := fun t ht => (h.outb t ht).mono hm
    tsk := fun t ht => (h.tsk t ht).mono hm
    res := fun t ht => (h.res t ht).mono hm
    fin := by simp [hf]
    out := by simp [ho] }

theorem segOk_item (recd : List (Nat × α)) (i : Nat) (a : α) : SegOk R (recd ++ [(i, a)]) ⟨i, i, a⟩ :=
  ⟨[a], .leaf a, by simp, by simp, by simp [indexed]⟩

theorem subset_perm {xs : List α} {st : Nat} {recd : List (Nat × α)} (h : ∀ p ∈ indexed st xs, p ∈ recd)
    : (indexed st xs).Subperm recd := List.subperm_of_subset (nodup_indexed st xs) h

/-- A full segment is the in-order combination of all items, which form one block. -/
theorem Full.block {recd : List (Nat × α)} {v : α} (h : Full R recd v) :
    ∃ start xs, recd.Perm (indexed start xs) ∧ Tree R xs v ∧ xs ≠ [] := by
  obtain ⟨x, ⟨xs, h1, h2, h3, h4⟩, hl, rfl⟩ := h
  refine ⟨x.lo, xs, ?_, h1, by intro hn; simp [hn] at h3⟩
  have hsub := subset_perm h4
  exact (hsub.perm_of_length_le (by rw [length_indexed]; omega)).symm

theorem onItem_safe {empty : α} {recd : List (Nat × α)} {s : St α ε} (h : Safe R empty recd s) (i : Nat) (a : α)
    (ho : s.outcome = none) (hf : s.final = none) (hs : s.size = none) :
    Safe R empty (recd ++ [(i, a)]) (onItem s i a) := by
  have h' := h.mono_recd (i, a) ho hf hs
  unfold onItem
  simp only
  split
  · refine ⟨h'.cnt, h'.sz, CQueue.sorted_queue h.sorted _, ?_, h'.outb, h'.tsk, h'.res, h'.fin, h'.out⟩
    intro y hy
    rcases CQueue.mem_queue hy with rfl | hy
    · exact segOk_item recd i a
    · exact h'.qok y hy
  · refine tryDispatch_safe ?_ (segOk_item recd i a)
    exact ⟨h'.cnt, h'.sz, h'.sorted, h'.qok, h'.outb, h'.tsk, h'.res, h'.fin, h'.out⟩

theorem onInputEnd_safe {empty : α} {recd : List (Nat × α)} {s : St α ε} (h : Safe R empty recd s) : Safe R empty recd (onInputEnd empty s) := by
  have hc := h.cnt
  unfold onInputEnd
  simp only
  split
  · rename_i h0
    refine ⟨h.cnt, by simp [h.cnt], h.sorted, h.qok, h.outb, h.tsk, h.res, h.fin, ?_⟩
    intro v hv; simp at hv; subst hv
    exact .inl ⟨List.eq_nil_of_length_eq_zero (by omega), rfl⟩
  · rename_i h1
    split
    · rename_i v q' hd
      simp only [CQueue.dequeue, Prod.mk.injEq] at hd
      obtain ⟨hfind, rfl⟩ := hd
      have hm := List.mem_of_find?_eq_some hfind
      refine ⟨h.cnt, by simp [h.cnt], CQueue.sorted_remove h.sorted _,
        fun y hy => h.qok y (CQueue.mem_remove.1 hy).1, h.outb, h.tsk, h.res, h.fin, ?_⟩
      intro v' hv; simp at hv; subst hv
      refine .inr ⟨v, h.qok v hm, ?_, rfl⟩
      obtain ⟨xs, _, h2, h3, h4⟩ := h.qok v hm
      have := (subset_perm h4).length_le
      rw [length_indexed] at this
      omega
    · rename_i q' hd
      simp only [CQueue.dequeue, Prod.mk.injEq] at hd
      obtain ⟨hfind, rfl⟩ := hd
      exact ⟨h.cnt, by simp [h.cnt], CQueue.sorted_remove h.sorted _,
        fun y hy => h.qok y (CQueue.mem_remove.1 hy).1, h.outb, h.tsk, h.res, h.fin, by simp⟩
  · exact ⟨h.cnt, by simp [h.cnt], h.sorted, h.qok, h.outb, h.tsk, h.res, h.fin, h.out⟩

theorem onResult_safe {empty : α} {dupErr : ε} {recd : List (Nat × α)} {s : St α ε} (h : Safe R empty recd s)
    {r : Res α ε} (hr : ResOk R recd r) : Safe R empty recd (onResult dupErr s r) := by
  unfold onResult
  split
  · exact ⟨h.cnt, h.sz, h.sorted, h.qok, h.outb, h.tsk, h.res, h.fin, by simp⟩
  · rename_i x
    split
    · rename_i n hn
      split
      · rename_i hfin
        split
        · refine ⟨h.cnt, h.sz, h.sorted, h.qok, h.outb, h.tsk, h.res, ?_, h.out⟩
          intro v hv; simp at hv; subst hv
          refine ⟨x, hr, ?_, rfl⟩
          have := h.sz n hn
          have hv := SegOk.valid hr
          simp [Seg.isFinal] at hfin
          simp only [Seg.Valid] at hv; omega
        · exact ⟨h.cnt, h.sz, h.sorted, h.qok, h.outb, h.tsk, h.res, h.fin, by simp⟩
      · exact tryDispatch_safe h hr
    · exact tryDispatch_safe h hr

/-- While the input is open nothing is final. -/
def NoFinalEarly (s : St α ε) : Prop := s.size = none → s.final = none

end

section
variable {comb : ω → α → α → Except ε α} {empty : α} {dupErr : ε}

/-- Case analysis of a step. -/
inductive StepR (comb : ω → α → α → Except ε α) (empty : α) (dupErr : ε) (s : St α ε) : Label α ε ω → St α ε → Prop where
  | item (i a) (hs : s.size = none) : StepR comb empty dupErr s (.item i a) (onItem s i a)
  | inputErr (e) (hs : s.size = none) : StepR comb empty dupErr s (.inputErr e) { s with outcome := some (.err e) }
  | inputEnd (hs : s.size = none) : StepR comb empty dupErr s .inputEnd (onInputEnd empty s)
  | publish (k t rest) (hp : s.outbox.Perm (t :: rest)) :
      StepR comb empty dupErr s (.publish k) { s with outbox := rest, tasks := s.tasks ++ [t] }
  | ioErr (e) : StepR comb empty dupErr s (.ioErr e) { s with outcome := some (.err e) }
  | exec (k w t rest) (hp : s.tasks.Perm (t :: rest)) :
      StepR comb empty dupErr s (.exec k w) { s with tasks := rest, results := s.results ++ [execute comb w t] }
  | recv (k r rest) (hn : s.notified = true) (hp : s.results.Perm (r :: rest)) :
      StepR comb empty dupErr s (.recv k) (onResult dupErr { s with results := rest } r)
  | finish (v) (hf : s.final = some v) : StepR comb empty dupErr s .finish { s with outcome := some (.ok v) }
  | disconnect : StepR comb empty dupErr s .disconnect { s with outcome := some .panic }
  | loseTask (k t rest) (hp : s.tasks.Perm (t :: rest)) :
      StepR comb empty dupErr s (.loseTask k) { s with tasks := rest }
  | loseResult (k r rest) (hp : s.results.Perm (r :: rest)) :
      StepR comb empty dupErr s (.loseResult k) { s with results := rest }
  | dupTask (k t) (hm : t ∈ s.tasks) : StepR comb empty dupErr s (.dupTask k) { s with tasks := s.tasks ++ [t] }
  | dupResult (k r) (hm : r ∈ s.results) : StepR comb empty dupErr s (.dupResult k) { s with results := s.results ++ [r] }

theorem step_outcome {s s' : St α ε} {l : Label α ε ω} (h : step comb empty dupErr s l = some s') :
    s.outcome = none := by
  unfold step at h
  split at h
  · simp at h
  · rename_i hn; simpa using hn

theorem stepR_of_step {s s' : St α ε} {l : Label α ε ω} (h : step comb empty dupErr s l = some s') :
    StepR comb empty dupErr s l s' := by
  unfold step at h
  split at h
  · simp at h
  · clear * - h
    cases l <;> simp only at h
    all_goals repeat' split at h
    all_goals first | (simp at h; done) | skip
    all_goals (simp only [Option.some.injEq] at h; subst h)
    all_goals first
      | exact .item _ _ (by simpa using ‹¬ s.size.isSome = true›)
      | exact .inputErr _ (by simpa using ‹¬ s.size.isSome = true›)
      | exact .inputEnd (by simpa using ‹¬ s.size.isSome = true›)
      | exact .ioErr _
      | exact .disconnect
      | exact .publish _ _ _ (takeAt_some ‹_›)
      | exact .exec _ _ _ _ (takeAt_some ‹_›)
      | exact .recv _ _ _ (by simpa using ‹¬ (!s.notified) = true›) (takeAt_some ‹_›)
      | exact .finish _ ‹_›
      | exact .loseTask _ _ _ (takeAt_some ‹_›)
      | exact .loseResult _ _ _ (takeAt_some ‹_›)
      | exact .dupTask _ _ (List.mem_of_getElem? ‹_›)
      | exact .dupResult _ _ (List.mem_of_getElem? ‹_›)

theorem noFinalEarly_step {s s' : St α ε} {l : Label α ε ω} (hi : NoFinalEarly s)
    (h : StepR comb empty dupErr s l s') : NoFinalEarly s' := by
  unfold NoFinalEarly at *
  cases h with
  | item i a hs =>
    unfold onItem; simp only; split
    · simpa using hi
    · obtain ⟨_, f2, _, _, _, f6, _⟩ := tryDispatch_fields
        { s with count := s.count + 1, notified := true } (⟨i, i, a⟩ : Seg α)
      rw [f2, f6]; simpa using hi
  | inputEnd hs =>
    unfold onInputEnd; simp only; split
    · simp
    · split <;> simp
    · simp
  | recv k r rest hn hp =>
    unfold onResult; split
    · simpa using hi
    · rename_i x
      simp only
      split
      · rename_i n hn
        split
        · split <;> simp [hn]
        · obtain ⟨_, f2, _, _, _, f6, _⟩ := tryDispatch_fields { s with results := rest } x
          rw [f2, f6]; simpa using hi
      · obtain ⟨_, f2, _, _, _, f6, _⟩ := tryDispatch_fields { s with results := rest } x
        rw [f2, f6]; simpa using hi
  | _ => simpa using hi

theorem safe_step {recd : List (Nat × α)} {s s' : St α ε} {l : Label α ε ω}
    (hi : Safe (Returns comb) empty recd s) (hf : NoFinalEarly s) (ho : s.outcome = none)
    (h : StepR comb empty dupErr s l s') : Safe (Returns comb) empty (recd ++ l.items) s' := by
  cases h with
  | item i a hs => exact onItem_safe hi i a ho (hf hs) hs
  | inputEnd hs =>
    simp only [Label.items, List.append_nil]
    exact onInputEnd_safe hi
  | inputErr | ioErr | disconnect =>
    simp only [Label.items, List.append_nil]
    exact ⟨hi.cnt, hi.sz, hi.sorted, hi.qok, hi.outb, hi.tsk, hi.res, hi.fin, by simp⟩
  | publish k t rest hp =>
    simp only [Label.items, List.append_nil]
    refine ⟨hi.cnt, hi.sz, hi.sorted, hi.qok, fun t ht => hi.outb t (hp.mem_iff.2 (by simp [ht])), ?_, hi.res, hi.fin,
      hi.out⟩
    intro t' ht'
    rcases List.mem_append.1 ht' with ht' | ht'
    · exact hi.tsk t' ht'
    · simp at ht'; subst ht'; exact hi.outb t' (hp.mem_iff.2 (by simp))
  | exec k w t rest hp =>
    simp only [Label.items, List.append_nil]
    refine ⟨hi.cnt, hi.sz, hi.sorted, hi.qok, hi.outb, fun t ht => hi.tsk t (hp.mem_iff.2 (by simp [ht])), ?_, hi.fin,
      hi.out⟩
    intro r hr
    rcases List.mem_append.1 hr with hr | hr
    · exact hi.res r hr
    · simp at hr; subst hr
      unfold execute
      split
      · rename_i c hc
        exact (hi.tsk t (hp.mem_iff.2 (by simp))).exec ⟨w, hc⟩
      · trivial
  | recv k r rest hn hp =>
    simp only [Label.items, List.append_nil]
    refine onResult_safe ?_ (hi.res r (hp.mem_iff.2 (by simp)))
    exact ⟨hi.cnt, hi.sz, hi.sorted, hi.qok, hi.outb, hi.tsk, fun t ht => hi.res t (hp.mem_iff.2 (by simp [ht])),
      hi.fin, hi.out⟩
  | finish v hv =>
    simp only [Label.items, List.append_nil]
    refine ⟨hi.cnt, hi.sz, hi.sorted, hi.qok, hi.outb, hi.tsk, hi.res, hi.fin, ?_⟩
    intro v' hv'; simp at hv'; subst hv'
    exact .inr (hi.fin v hv)
  | loseTask k t rest hp =>
    simp only [Label.items, List.append_nil]
    exact ⟨hi.cnt, hi.sz, hi.sorted, hi.qok, hi.outb, fun t ht => hi.tsk t (hp.mem_iff.2 (by simp [ht])), hi.res, hi.fin,
      hi.out⟩
  | loseResult k t rest hp =>
    simp only [Label.items, List.append_nil]
    exact ⟨hi.cnt, hi.sz, hi.sorted, hi.qok, hi.outb, hi.tsk, fun t ht => hi.res t (hp.mem_iff.2 (by simp [ht])), hi.fin,
      hi.out⟩
  | dupTask k t hm =>
    simp only [Label.items, List.append_nil]
    refine ⟨hi.cnt, hi.sz, hi.sorted, hi.qok, hi.outb, ?_, hi.res, hi.fin, hi.out⟩
    intro t' ht'
    rcases List.mem_append.1 ht' with ht' | ht'
    · exact hi.tsk t' ht'
    · simp at ht'; subst ht'; exact hi.tsk _ hm
  | dupResult k r hm =>
    simp only [Label.items, List.append_nil]
    refine ⟨hi.cnt, hi.sz, hi.sorted, hi.qok, hi.outb, hi.tsk, ?_, hi.fin, hi.out⟩
    intro t' ht'
    rcases List.mem_append.1 ht' with ht' | ht'
    · exact hi.res t' ht'
    · simp at ht'; subst ht'; exact hi.res _ hm

theorem run_append {s : St α ε} {ls ls' : List (Label α ε ω)} :
    run comb empty dupErr s (ls ++ ls') = (run comb empty dupErr s ls).bind fun s' => run comb empty dupErr s' ls' := by
  induction ls generalizing s with
  | nil => simp [run]
  | cons l ls ih =>
    simp only [List.cons_append, run]
    cases step comb empty dupErr s l with
    | none => simp
    | some s' => simp [ih]

/-- Induction over executions, one label at a time at the end. -/
theorem run_induction {P : List (Label α ε ω) → St α ε → Prop} (h0 : P [] init)
    (hs : ∀ ls l s s', run comb empty dupErr init ls = some s → P ls s → step comb empty dupErr s l = some s' → P (ls ++ [l]) s') :
    ∀ ls s, run comb empty dupErr init ls = some s → P ls s := by
  have key : ∀ (n : Nat) (ls : List (Label α ε ω)), ls.length = n → ∀ s, run comb empty dupErr init ls = some s → P ls s := by
   intro n
   induction n with
   | zero =>
    intro ls hl s h
    have : ls = [] := List.eq_nil_of_length_eq_zero hl
    subst this; simp [run] at h; subst h; exact h0
   | succ n ih =>
    intro ls hl s h
    have hne : ls ≠ [] := by intro hh; simp [hh] at hl
    obtain ⟨ls, l, rfl⟩ : ∃ ls' l, ls = ls' ++ [l] := ⟨_, _, (List.dropLast_append_getLast hne).symm⟩
    have hl : ls.length = n := by simpa using hl
    rw [run_append] at h
    cases hr : run comb empty dupErr init ls with
    | none => simp [hr] at h
    | some s1 =>
      simp only [hr, Option.bind_some, run] at h
      cases hst : step comb empty dupErr s1 l with
      | none => simp [hst] at h
      | some s2 => simp [hst] at h; subst h; exact hs ls l s1 s2 hr (ih ls hl s1 hr) hst
  exact fun ls s h => key ls.length ls rfl s h

theorem safe_run (ls : List (Label α ε ω)) (s : St α ε) (h : run comb empty dupErr init ls = some s) :
    Safe (Returns comb) empty (inputs ls) s ∧ NoFinalEarly s := by
  refine run_induction (P := fun ls s => Safe (Returns comb) empty (inputs ls) s ∧ NoFinalEarly s)
    ⟨safe_init empty, fun _ => rfl⟩ ?_ ls s h
  intro ls l s s' _ ⟨h1, h2⟩ hst
  refine ⟨?_, noFinalEarly_step h2 (stepR_of_step hst)⟩
  have := safe_step h1 h2 (step_outcome hst) (stepR_of_step hst)
  rw [inputs_append]
  simpa [inputs_cons, inputs] using this

end
end Fold
end Paladin
