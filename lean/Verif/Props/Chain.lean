import Verif.Model.Chain
import Verif.Spec.Feeds
import Verif.Props.MapDup
import Verif.Props.FoldLive
/-! # Property C18: map stages followed by a fold -/
namespace Paladin

/-! ## Stages fed by a stream -/

/-- A stream that, if it ends without an error item, holds as many items as `xs` has elements, and each item `(i, b)` is related by `R` to the `i`-th element.
(It may repeat some indices and miss others: this is what map guarantees when messages are redelivered.) -/
def Faithful (R : α → β → Prop) (xs : List α) (items : List (MapS.Item β ε)) (ended : Bool) : Prop :=
  ended = true → MapS.errs items = [] →
    (MapS.oks items).length = xs.length ∧ ∀ i b, (i, b) ∈ MapS.oks items → ∃ a, xs[i]? = some a ∧ R a b

theorem mem_indexed_iff {start : Nat} {xs : List α} {i : Nat} {b : α} : (i, b) ∈ indexed start xs ↔ start ≤ i ∧ xs[i - start]? = some b := by
  induction xs generalizing start with
  | nil => simp [indexed]
  | cons x xs ih =>
    simp only [indexed, List.mem_cons, ih, Prod.mk.injEq]
    constructor
    · rintro (⟨rfl, rfl⟩ | ⟨h1, h2⟩)
      · simp
      · refine ⟨by omega, ?_⟩
        rw [show i - start = (i - (start + 1)) + 1 by omega]; simpa using h2
    · rintro ⟨h1, h2⟩
      by_cases he : i = start
      · subst he; simp at h2; exact .inl ⟨rfl, h2.symm⟩
      · right
        refine ⟨by omega, ?_⟩
        rw [show i - start = (i - (start + 1)) + 1 by omega] at h2; simpa using h2

theorem forall₂_of_getElem {R : α → β → Prop} {xs : List α} {ys : List β} (hl : ys.length = xs.length)
    (h : ∀ (i : Nat) b, ys[i]? = some b → ∃ a, xs[i]? = some a ∧ R a b) : List.Forall₂ R xs ys := by
  induction xs generalizing ys with
  | nil => simp at hl; subst hl; exact .nil
  | cons x xs ih =>
    cases ys with
    | nil => simp at hl
    | cons y ys =>
      refine .cons ?_ (ih (by simpa using hl) fun i b hb => ?_)
      · obtain ⟨a, ha, hr⟩ := h 0 y (by simp)
        simp at ha; subst ha; exact hr
      · simpa using h (i + 1) b (by simpa using hb)

namespace MapS

theorem reads_inputs (ls : List (Label α ε ω)) : oks (reads ls) = inputs ls := by
  induction ls with
  | nil => rfl
  | cons l ls ih => cases l <;> simp [reads, inputs, oks, ih]

theorem reads_append (a b : List (Label α ε ω)) : reads (a ++ b) = reads a ++ reads b := by
  induction a with
  | nil => rfl
  | cons l a ih => cases l <;> simp [reads, ih]

theorem errs_reads (ls : List (Label α ε ω)) (h : ∀ l ∈ ls, l.fails = false) : errs (reads ls) = [] := by
  induction ls with
  | nil => rfl
  | cons l ls ih =>
    have ih := ih (fun l hl => h l (by simp [hl]))
    have := h l (by simp)
    cases l <;> simp_all [reads, errs, Label.fails]

variable {op : ω → α → Except ε β}

/-- A map that ended without an error item has seen the end of its input. -/
theorem ended_inputEnd (ls : List (Label α ε ω)) (s : St α β ε) (h : run op init ls = some s) (hs : s.sendDone = true) (he : errs s.outs = []) :
    .inputEnd ∈ ls ∧ ∀ l ∈ ls, l.fails = false := by
  have hf : ∀ l ∈ ls, l.fails = false := by
    intro l hl
    by_contra hc
    exact (C15_failure_surfaces ls s [] h ⟨l, hl, by simpa using hc⟩).1 he
  refine ⟨?_, hf⟩
  clear he
  revert hf hs
  refine run_induction (P := fun ls s => s.sendDone = true → (∀ l ∈ ls, l.fails = false) → .inputEnd ∈ ls) (by simp [init]) ?_ ls s h
  intro ls l s s' _ ih hst hs hf
  have hf' := hf l (by simp)
  have hst := stepR_of_step hst
  cases hst <;> simp_all [Label.fails]

theorem sendDone_of_ended (ls : List (Label α ε ω)) (s : St α β ε) (h : run op init ls = some s) (he : s.ended = true) : s.sendDone = true := by
  revert he
  refine run_induction (P := fun ls s => s.ended = true → s.sendDone = true) (by simp [init]) ?_ ls s h
  intro ls l s s' _ ih hst
  have hst := stepR_of_step hst
  cases hst <;> simp_all [sendFail]

/-- **C18, one map stage.** If the input stream of a map is faithful to `xs` with relation `R`, the mapped stream is faithful to `xs` with the composition of
`R` and the operation. By repetition: any number of map stages. -/
theorem C18_map_stage {R : γ → α → Prop} {xs : List γ} {items : List (Item α ε)} {en : Bool} (hin : Faithful R xs items en)
    (ls : List (Label α ε ω)) (s : St α β ε) (h : run op init ls = some s) (hc : ∀ l ∈ ls, l.connected = true) (hfeed : Feeds ls items en) :
    Faithful (fun x z => ∃ y, R x y ∧ Returns op y z) xs s.outs s.ended := by
  intro he herr
  obtain ⟨h1, h2⟩ := ended_inputEnd ls s h (sendDone_of_ended ls s h he) herr
  obtain ⟨h3, h4⟩ := hfeed.2 h1
  obtain ⟨h5, h8⟩ := C16_redelivery_partial ls s h hc he herr
  have h6 : errs items = [] := by rw [← h4]; exact errs_reads ls h2
  obtain ⟨h7, h9⟩ := hin h3 h6
  rw [← h4, reads_inputs] at h7 h9
  refine ⟨h5.trans h7, fun i b hb => ?_⟩
  obtain ⟨a, ha, hr⟩ := h8 i b hb
  obtain ⟨x, hx, hr'⟩ := h9 i a ha
  exact ⟨x, hx, a, hr', hr⟩

end MapS

/-- The stream `IndexedStream::from(xs)` (directive/indexed_stream/mod.rs:152-157) is faithful. -/
theorem faithful_source (xs : List α) (k : Nat) (en : Bool) (hen : en = true → k = xs.length) :
    Faithful (ε := ε) Eq xs ((indexed 0 (xs.take k)).map .ok) en := by
  intro he _
  rw [hen he, List.take_length, MapS.oks_map_ok]
  exact ⟨Fold.length_indexed _ _, fun i b hb => ⟨b, by simpa using (mem_indexed_iff.1 hb).2, rfl⟩⟩

namespace Fold

variable {comb : ω → α → α → Except ε α} {empty : α} {dupErr : ε}

theorem reads_append (a b : List (Label α ε ω)) : reads (a ++ b) = reads a ++ reads b := by
  induction a with
  | nil => rfl
  | cons l a ih => cases l <;> simp [reads, ih]

theorem reads_inputs (ls : List (Label α ε ω)) : MapS.oks (reads ls) = inputs ls := by
  induction ls with
  | nil => rfl
  | cons l ls ih => cases l <;> simp [reads, inputs, MapS.oks, ih]

theorem onItem_fields (s : St α ε) (i : Nat) (a : α) :
    (onItem s i a).size = s.size ∧ (onItem s i a).final = s.final ∧ (onItem s i a).outcome = s.outcome := by
  unfold onItem tryDispatch
  dsimp only
  split
  · simp
  · split <;> simp

theorem onResult_fields (s : St α ε) (r : Res α ε) : (onResult dupErr s r).size = s.size ∧
    ((onResult dupErr s r).final.isSome → s.final.isSome ∨ s.size.isSome) ∧
    (∀ v, (onResult dupErr s r).outcome = some (.ok v) → s.outcome = some (.ok v)) := by
  cases r with
  | err e => refine ⟨rfl, fun h => .inl h, fun v h => ?_⟩; simp [onResult] at h
  | ok x =>
    have hd : ∀ s : St α ε, (tryDispatch s x).size = s.size ∧ (tryDispatch s x).final = s.final ∧ (tryDispatch s x).outcome = s.outcome := by
      intro s; unfold tryDispatch; split <;> simp
    simp only [onResult]
    split
    · rename_i n hn
      split
      · split
        · exact ⟨rfl, fun _ => .inr (by simp [hn]), fun v h => h⟩
        · exact ⟨rfl, fun h => .inl h, fun v h => by simp at h⟩
      · rw [(hd s).1, (hd s).2.1, (hd s).2.2]; exact ⟨rfl, .inl, fun v h => h⟩
    · rw [(hd s).1, (hd s).2.1, (hd s).2.2]; exact ⟨rfl, .inl, fun v h => h⟩

theorem size_inputEnd (ls : List (Label α ε ω)) (s : St α ε) (h : run comb empty dupErr init ls = some s) :
    (s.size.isSome ∨ s.final.isSome ∨ ∃ v, s.outcome = some (.ok v)) → .inputEnd ∈ ls := by
  refine run_induction (P := fun ls s => (s.size.isSome ∨ s.final.isSome ∨ ∃ v, s.outcome = some (.ok v)) → .inputEnd ∈ ls) (by simp [init]) ?_ ls s h
  intro ls l s s' _ ih hst hs
  have hst := stepR_of_step hst
  cases hst with
  | inputEnd => simp
  | item i a _ =>
    obtain ⟨h1, h2, h3⟩ := onItem_fields s i a
    rw [h1, h2, h3] at hs
    simp [ih hs]
  | recv k r rest _ _ =>
    obtain ⟨h1, h2, h3⟩ := onResult_fields (dupErr := dupErr) { s with results := rest } r
    rw [h1] at hs
    have : .inputEnd ∈ ls := by
      apply ih
      rcases hs with hs | hs | ⟨v, hs⟩
      · exact .inl hs
      · rcases h2 hs with h | h
        · exact .inr (.inl h)
        · exact .inl h
      · exact .inr (.inr ⟨v, h3 v hs⟩)
    simp [this]
  | finish v hv => simp [ih (.inr (.inl (by simp [hv])))]
  | _ =>
    simp at hs
    simp only [List.mem_append, List.mem_singleton, reduceCtorEq, or_false]
    apply ih
    first | exact hs | (rcases hs with h | h <;> simp [h])

theorem size_of_inputEnd (ls : List (Label α ε ω)) (s : St α ε) (h : run comb empty dupErr init ls = some s) :
    .inputEnd ∈ ls → s.size.isSome = true := by
  refine run_induction (P := fun ls s => .inputEnd ∈ ls → s.size.isSome = true) (by simp) ?_ ls s h
  intro ls l s s' _ ih hst hs
  have hst := stepR_of_step hst
  cases hst with
  | inputEnd =>
    unfold onInputEnd
    dsimp only
    split
    · simp
    · split <;> simp
    · simp
  | item i a _ => rw [(onItem_fields s i a).1]; apply ih; simpa using hs
  | recv k r rest _ _ => rw [(onResult_fields (dupErr := dupErr) { s with results := rest } r).1]; apply ih; simpa using hs
  | _ => first | (apply ih; simpa using hs) | simp_all

/-- **C18, fold stage.** A fold over a stream faithful to `xs` returns, if `Ok`, `empty()` when `xs = []` and otherwise an in-order combination of one image per
element of `xs`. -/
theorem C18_fold_stage {R : γ → α → Prop} {xs : List γ} {items : List (MapS.Item α ε)} {en : Bool} (hin : Faithful R xs items en)
    (ls : List (Label α ε ω)) (s : St α ε) (v : α) (h : run comb empty dupErr init ls = some s) (hv : s.outcome = some (.ok v))
    (hfeed : Feeds ls items en) :
    ∃ ys, List.Forall₂ R xs ys ∧ ((ys = [] ∧ v = empty) ∨ Tree (Returns comb) ys v) := by
  have h1 := size_inputEnd ls s h (.inr (.inr ⟨v, hv⟩))
  obtain ⟨h2, h3⟩ := hfeed.2 h1
  have h4 : MapS.errs items = [] := by
    rw [← h3]
    by_contra hc
    obtain ⟨e, he⟩ := List.exists_mem_of_ne_nil _ hc
    have : .inputErr e ∈ ls := by
      clear hc h3 h1 h hfeed
      induction ls with
      | nil => simp [reads, MapS.errs] at he
      | cons l ls ih => cases l <;> simp_all [reads, MapS.errs] <;> tauto
    obtain ⟨a, b, rfl⟩ := List.append_of_mem this
    have := (C09_input_error a b s e h).2
    rw [hv] at this; simp at this
  obtain ⟨h5, h6⟩ := hin h2 h4
  rw [← h3, reads_inputs] at h5 h6
  rcases C05_fold_ok ls s v h hv with ⟨h7, rfl⟩ | ⟨st, zs, hp, ht⟩
  · rw [h7] at h5
    have : xs = [] := List.eq_nil_of_length_eq_zero (by simpa using h5.symm)
    subst this
    exact ⟨[], .nil, .inl ⟨rfl, rfl⟩⟩
  · have hlen : zs.length = xs.length := by rw [← h5, hp.length_eq, length_indexed]
    have h6' : ∀ i b, (i, b) ∈ indexed st zs → ∃ a, xs[i]? = some a ∧ R a b := fun i b hb => h6 i b (hp.mem_iff.2 hb)
    have hpos : 0 < zs.length := List.length_pos_iff.2 ht.ne_nil
    have hst : st = 0 := by
      obtain ⟨a, ha, _⟩ := h6' (st + (zs.length - 1)) (zs[zs.length - 1]) (mem_indexed_iff.2 ⟨by omega, by
        rw [show st + (zs.length - 1) - st = zs.length - 1 by omega, List.getElem?_eq_getElem]⟩)
      have : st + (zs.length - 1) < xs.length := by
        by_contra hc; rw [List.getElem?_eq_none (by omega)] at ha; simp at ha
      omega
    subst hst
    exact ⟨zs, forall₂_of_getElem hlen (fun i b hb => h6' i b (mem_indexed_iff.2 ⟨by omega, by simpa using hb⟩)), .inr ht⟩

/-- A fold over a stream that comes from mapping `xs` panics only if its connection is gone. -/
theorem C18_fold_panic {R : γ → α → Prop} {xs : List γ} {items : List (MapS.Item α ε)} {en : Bool} (hin : Faithful R xs items en)
    (ls : List (Label α ε ω)) (s : St α ε) (h : run comb empty dupErr init ls = some s) (hv : s.outcome = some .panic) (hfeed : Feeds ls items en) : .disconnect ∈ ls := by
  rcases panic_run ls s h hv with h0 | ⟨i, a, h1, h2, h3⟩
  · exact h0
  obtain ⟨h4, h5⟩ := hfeed.2 h3
  have h6 : MapS.errs items = [] := by
    rw [← h5]
    by_contra hc
    obtain ⟨e, he⟩ := List.exists_mem_of_ne_nil _ hc
    have : .inputErr e ∈ ls := by
      clear hc h1 h3 h5 h hfeed
      induction ls with
      | nil => simp [reads, MapS.errs] at he
      | cons l ls ih => cases l <;> simp_all [reads, MapS.errs] <;> tauto
    obtain ⟨a, b, rfl⟩ := List.append_of_mem this
    have := (C09_input_error a b s e h).2
    rw [hv] at this; simp at this
  obtain ⟨h7, h8⟩ := hin h4 h6
  rw [← h5, reads_inputs, h1] at h7 h8
  obtain ⟨x, hx, -⟩ := h8 i a (by simp)
  have := (List.getElem?_eq_some_iff.1 hx).1
  simp at h7
  omega

end Fold

/-! ## The two stages together -/
namespace Chain

variable {op : ω → α → Except ε β} {comb : ω' → β → β → Except ε β} {empty : β} {dupErr : ε} {xs : List α}

/-- The map's consumer stream does not end. -/
def Label.mapSafe : Label α β ε ω ω' → Bool
  | .map l => l.connected
  | _ => true

theorem run_append {s : St α β ε} {ls ls' : List (Label α β ε ω ω')} :
    run op comb empty dupErr xs s (ls ++ ls') = (run op comb empty dupErr xs s ls).bind fun s' => run op comb empty dupErr xs s' ls' := by
  induction ls generalizing s with
  | nil => simp [run]
  | cons l ls ih =>
    simp only [List.cons_append, run]
    cases step op comb empty dupErr xs s l <;> simp [ih]

/-- The two stages of a chain execution are executions of map and fold, the first fed by the source and the second by the first. -/
structure Proj (op : ω → α → Except ε β) (comb : ω' → β → β → Except ε β) (empty : β) (dupErr : ε) (xs : List α) (s : St α β ε)
    (lm : List (MapS.Label α ε ω)) (lf : List (Fold.Label β ε ω')) : Prop where
  m : MapS.run op MapS.init lm = some s.m
  f : Fold.run comb empty dupErr Fold.init lf = some s.f
  src : MapS.reads lm = (indexed 0 (xs.take s.pos)).map .ok
  srcEnd : .inputEnd ∈ lm → s.pos = xs.length
  le : s.pos ≤ xs.length
  pass : Fold.reads lf = s.m.outs.take s.taken
  passEnd : .inputEnd ∈ lf → s.m.ended = true ∧ s.taken = s.m.outs.length
  tle : s.taken ≤ s.m.outs.length
  safe : ∀ l ∈ lm, l.connected = true

theorem indexed_snoc (k : Nat) (l : List τ) (x : τ) : indexed k (l ++ [x]) = indexed k l ++ [(k + l.length, x)] := by
  induction l generalizing k with
  | nil => simp [indexed]
  | cons y l ih => simp [indexed, ih]; omega

theorem outs_prefix {m m' : MapS.St α β ε} {l : MapS.Label α ε ω} (h : MapS.step op m l = some m') : m.outs <+: m'.outs := by
  have := MapS.stepR_of_step h
  cases this <;> simp [MapS.sendFail]

theorem take_prefix {a b : List τ} (h : a <+: b) {n : Nat} (hn : n ≤ a.length) : b.take n = a.take n := by
  obtain ⟨c, rfl⟩ := h
  rw [List.take_append_of_le_length hn]

theorem proj_map {s : St α β ε} {lm lf} (h : Proj op comb empty dupErr xs s lm lf) {l : MapS.Label α ε ω} {m' : MapS.St α β ε} {p' : Nat}
    (hst : MapS.step op s.m l = some m') (hp : p' ≤ xs.length) (hr : MapS.reads (lm ++ [l]) = (indexed 0 (xs.take p')).map .ok)
    (he : .inputEnd ∈ lm ++ [l] → p' = xs.length) (hs : l.connected = true) :
    Proj op comb empty dupErr xs { s with m := m', pos := p' } (lm ++ [l]) lf := by
  have hpre := outs_prefix hst
  refine ⟨?_, h.f, hr, he, hp, ?_, ?_, Nat.le_trans h.tle hpre.length_le, ?_⟩
  · rw [MapS.run_append, h.m]; simp [MapS.run, hst]
  · rw [h.pass]; exact (take_prefix hpre h.tle).symm
  · intro hx
    have := (h.passEnd hx).1
    rw [MapS.step_ended hst] at this; simp at this
  · intro l' hl'
    rcases List.mem_append.1 hl' with hl' | hl'
    · exact h.safe l' hl'
    · simp at hl'; subst hl'; exact hs

theorem proj_fold {s : St α β ε} {lm lf} (h : Proj op comb empty dupErr xs s lm lf) {l : Fold.Label β ε ω'} {f' : Fold.St β ε} {t' : Nat}
    (hst : Fold.step comb empty dupErr s.f l = some f') (ht : t' ≤ s.m.outs.length) (hr : Fold.reads (lf ++ [l]) = s.m.outs.take t')
    (he : .inputEnd ∈ lf ++ [l] → s.m.ended = true ∧ t' = s.m.outs.length) :
    Proj op comb empty dupErr xs { s with f := f', taken := t' } lm (lf ++ [l]) := by
  refine ⟨h.m, ?_, h.src, h.srcEnd, h.le, hr, he, ht, h.safe⟩
  rw [Fold.run_append, h.f]; simp [Fold.run, hst]

theorem sendDone_of_inputEnd (ls : List (MapS.Label α ε ω)) (s : MapS.St α β ε) (h : MapS.run op MapS.init ls = some s) :
    .inputEnd ∈ ls → s.sendDone = true := by
  refine MapS.run_induction (P := fun ls s => .inputEnd ∈ ls → s.sendDone = true) (by simp) ?_ ls s h
  intro ls l s s' _ ih hst
  have hst := MapS.stepR_of_step hst
  cases hst <;> simp_all [MapS.sendFail]

theorem proj_run (ls : List (Label α β ε ω ω')) (s : St α β ε) (h : run op comb empty dupErr xs init ls = some s)
    (hsafe : ∀ l ∈ ls, l.mapSafe = true) : ∃ lm lf, Proj op comb empty dupErr xs s lm lf := by
  suffices H : ∀ (ls : List (Label α β ε ω ω')) (s0 : St α β ε) (lm : List (MapS.Label α ε ω)) (lf : List (Fold.Label β ε ω')),
      (∀ l ∈ ls, l.mapSafe = true) → Proj op comb empty dupErr xs s0 lm lf → ∀ s, run op comb empty dupErr xs s0 ls = some s →
      ∃ lm lf, Proj op comb empty dupErr xs s lm lf by
    refine H ls init [] [] hsafe ?_ s h
    constructor <;> simp [init, MapS.run, Fold.run, MapS.reads, Fold.reads, indexed]
  clear h hsafe
  intro ls
  induction ls with
  | nil => intro s0 lm lf _ hp s h; simp [run] at h; subst h; exact ⟨lm, lf, hp⟩
  | cons l ls ih =>
    intro s0 lm lf hsafe hp s h
    simp only [run] at h
    cases hst : step op comb empty dupErr xs s0 l with
    | none => simp [hst] at h
    | some s1 =>
      simp [hst] at h
      have hsl := hsafe l (by simp)
      suffices hq : ∃ lm lf, Proj op comb empty dupErr xs s1 lm lf by
        obtain ⟨lm', lf', hq⟩ := hq
        exact ih s1 lm' lf' (fun l hl => hsafe l (by simp [hl])) hq s h
      cases l with
      | src =>
        simp only [step] at hst
        split at hst
        · rename_i x hx
          simp at hst
          obtain ⟨m', hm', rfl⟩ := hst
          have hlt : s0.pos < xs.length := by
            by_contra hc; rw [List.getElem?_eq_none (by omega)] at hx; simp at hx
          refine ⟨_, lf, proj_map hp hm' (by omega) ?_ ?_ rfl⟩
          · rw [MapS.reads_append, hp.src, List.take_add_one, hx]
            simp [MapS.reads, indexed_snoc]; omega
          · intro hin
            simp at hin
            have := sendDone_of_inputEnd lm s0.m hp.m hin
            have hr := MapS.stepR_of_step hm'
            cases hr; simp_all
        · simp at hst
      | srcEnd =>
        simp only [step] at hst
        split at hst
        · rename_i hpos
          simp at hst
          obtain ⟨m', hm', rfl⟩ := hst
          exact ⟨_, lf, proj_map hp hm' hp.le (by simp [MapS.reads_append, hp.src, MapS.reads]) (fun _ => hpos) rfl⟩
        · simp at hst
      | srcCloseErr e =>
        simp only [step] at hst
        split at hst
        · rename_i hpos
          simp at hst
          obtain ⟨m', hm', rfl⟩ := hst
          exact ⟨_, lf, proj_map hp hm' hp.le (by simp [MapS.reads_append, hp.src, MapS.reads]) (fun _ => hpos) rfl⟩
        · simp at hst
      | map l =>
        simp only [step] at hst
        split at hst
        · simp at hst
        · rename_i hr
          simp at hst
          obtain ⟨m', hm', rfl⟩ := hst
          simp [Label.mapSafe] at hsl
          refine ⟨_, lf, proj_map hp hm' hp.le ?_ ?_ hsl⟩
          · rw [MapS.reads_append, hp.src]; cases l <;> simp_all [MapS.reads, mapReads]
          · intro hin; apply hp.srcEnd; cases l <;> simp_all [mapReads]
      | pass =>
        simp only [step] at hst
        have nope : ∀ l f', Fold.step comb empty dupErr s0.f l = some f' → (∃ i b, l = .item i b) ∨ (∃ e, l = .inputErr e) → .inputEnd ∈ lf → False := by
          intro l f' hs hl hin
          have := Fold.size_of_inputEnd lf s0.f hp.f hin
          simp only [Fold.step] at hs
          rcases hl with ⟨i, b, rfl⟩ | ⟨e, rfl⟩ <;> simp [this] at hs
        split at hst
        · rename_i i b hx
          simp at hst
          obtain ⟨f', hf', rfl⟩ := hst
          have hlt : s0.taken < s0.m.outs.length := by
            by_contra hc; rw [List.getElem?_eq_none (by omega)] at hx; simp at hx
          refine ⟨lm, _, proj_fold hp hf' (by omega) ?_ ?_⟩
          · rw [Fold.reads_append, hp.pass, List.take_add_one, hx]; simp [Fold.reads]
          · intro hin; simp at hin; exact (nope _ _ hf' (.inl ⟨_, _, rfl⟩) hin).elim
        · rename_i e hx
          simp at hst
          obtain ⟨f', hf', rfl⟩ := hst
          have hlt : s0.taken < s0.m.outs.length := by
            by_contra hc; rw [List.getElem?_eq_none (by omega)] at hx; simp at hx
          refine ⟨lm, _, proj_fold hp hf' (by omega) ?_ ?_⟩
          · rw [Fold.reads_append, hp.pass, List.take_add_one, hx]; simp [Fold.reads]
          · intro hin; simp at hin; exact (nope _ _ hf' (.inr ⟨_, rfl⟩) hin).elim
        · simp at hst
      | passEnd =>
        simp only [step] at hst
        split at hst
        · rename_i hc
          simp at hst
          obtain ⟨f', hf', rfl⟩ := hst
          exact ⟨lm, _, proj_fold hp hf' hp.tle (by rw [Fold.reads_append, hp.pass]; simp [Fold.reads]) (fun _ => hc)⟩
        · simp at hst
      | fold l =>
        simp only [step] at hst
        split at hst
        · simp at hst
        · rename_i hr
          simp at hst
          obtain ⟨f', hf', rfl⟩ := hst
          refine ⟨lm, _, proj_fold hp hf' hp.tle ?_ ?_⟩
          · rw [Fold.reads_append, hp.pass]; cases l <;> simp_all [Fold.reads, foldReads]
          · intro hin; apply hp.passEnd; cases l <;> simp_all [foldReads]

/-- **C18.** `IndexedStream::from(xs).map(op).fold(m).run`: whatever the interleaving of the two stages, an `Ok` value is `empty()` for empty `xs` and otherwise an
in-order combination of one output per element of `xs`. Messages of both stages may be lost or duplicated; only the map's consumer stream must not end. -/
theorem C18_map_fold (ls : List (Label α β ε ω ω')) (s : St α β ε) (v : β) (h : run op comb empty dupErr xs init ls = some s)
    (hsafe : ∀ l ∈ ls, l.mapSafe = true) (hv : s.f.outcome = some (.ok v)) :
    ∃ ys, List.Forall₂ (MapS.Returns op) xs ys ∧ ((ys = [] ∧ v = empty) ∨ Tree (Fold.Returns comb) ys v) := by
  obtain ⟨lm, lf, hp⟩ := proj_run ls s h hsafe
  have h1 := faithful_source (ε := ε) xs s.pos (decide (s.pos = xs.length)) (by simp)
  have h2 := MapS.C18_map_stage h1 lm s.m hp.m hp.safe
    ⟨by rw [hp.src]; exact List.prefix_refl _, fun hin => ⟨by simp [hp.srcEnd hin], hp.src⟩⟩
  obtain ⟨ys, h3, h4⟩ := Fold.C18_fold_stage h2 lf s.f v hp.f hv
    ⟨by rw [hp.pass]; exact List.take_prefix _ _, fun hin => ⟨(hp.passEnd hin).1, by rw [hp.pass, (hp.passEnd hin).2, List.take_length]⟩⟩
  refine ⟨ys, h3.imp ?_, h4⟩
  rintro a b ⟨y, rfl, hy⟩; exact hy

/-- **C18, sequential program.** If every successful execution of the operation on `x` returns `g x`, and every successful combine of `a` and `b` returns `c a b` with `c`
associative and `empty` a left identity, an `Ok` value is `(xs.map g).foldl c empty`. -/
theorem C18_map_fold_sequential (g : α → β) (c : β → β → β) (hassoc : ∀ a b d, c (c a b) d = c a (c b d)) (hid : ∀ a, c empty a = a)
    (hop : ∀ w x y, op w x = .ok y → y = g x) (hcomb : ∀ w a b d, comb w a b = .ok d → d = c a b)
    (ls : List (Label α β ε ω ω')) (s : St α β ε) (v : β) (h : run op comb empty dupErr xs init ls = some s)
    (hsafe : ∀ l ∈ ls, l.mapSafe = true) (hv : s.f.outcome = some (.ok v)) : v = (xs.map g).foldl c empty := by
  obtain ⟨ys, h1, h2⟩ := C18_map_fold ls s v h hsafe hv
  have hy : ys = xs.map g := by
    clear h2 h
    induction h1 with
    | nil => rfl
    | cons hr _ ih => obtain ⟨w, hw⟩ := hr; simp [ih, hop w _ _ hw]
  rw [← hy]
  rcases h2 with ⟨rfl, rfl⟩ | ht
  · rfl
  · have ht' := ht.mono (S := fun a b d => (fun a b => some (c a b)) a b = some d) (fun a b d ⟨w, hw⟩ => by simp [hcomb w a b d hw])
    obtain ⟨z, zs, he, hf⟩ := ht'.seqFold (by intro a b d; simp [hassoc])
    rw [seqFold_total] at hf
    simp at hf
    simp [he, hid, hf]

/-! ## A concrete chain -/

def demoOp : Unit → Nat → Except String Nat := fun _ a => .ok (a * a)
def demoComb : Unit → Nat → Nat → Except String Nat := fun _ a b => .ok (a + b)

/-- `from([2, 3]).map(square).fold(sum)`, the outputs arriving in reverse. -/
def demo : List (Label Nat Nat String Unit Unit) :=
  [.src, .src, .map (.send 0), .map .confirm, .map (.send 0), .map .confirm, .srcEnd, .map (.exec 1 ()), .map (.recv 0), .pass,
   .map (.exec 0 ()), .map (.recv 0), .pass, .map .recvEnd, .map .finish, .fold (.publish 0), .passEnd, .fold (.exec 0 ()), .fold (.recv 0), .fold .finish]

example : ∃ s, run demoOp demoComb 0 "dup" [2, 3] init demo = some s ∧ s.f.outcome = some (.ok 13) ∧ ∀ l ∈ demo, l.mapSafe = true := by
  refine ⟨_, rfl, by decide, by decide⟩

/-- As `demo`, but the task of the second element is executed twice: fold sees index 1 twice and does not return. -/
example : ∃ s, run demoOp demoComb 0 "dup" [2, 3] init
    [.src, .src, .map (.send 0), .map .confirm, .map (.send 0), .map .confirm, .srcEnd, .map (.dupTask 1), .map (.exec 1 ()), .map (.recv 0), .pass,
     .map (.exec 1 ()), .map (.recv 0), .pass, .map .recvEnd, .map .finish, .passEnd] = some s ∧ s.f.outcome = none ∧ s.f.outbox = [] := by
  refine ⟨_, rfl, by decide, by decide⟩

/-- The hypothesis on the connection is needed: the map's consumer stream ends after the first result and fold returns `Ok(4)` for `[2, 3]`. -/
theorem C18_disconnect_witness : ∃ (ls : List (Label Nat Nat String Unit Unit)) (s : St Nat Nat String),
    run demoOp demoComb 0 "dup" [2, 3] init ls = some s ∧ s.f.outcome = some (.ok 4) := by
  refine ⟨[.src, .map (.send 0), .map .confirm, .map (.exec 0 ()), .map (.recv 0), .pass, .map .disconnect, .map .recvEnd, .src, .map (.send 0),
    .map .confirm, .srcEnd, .map .finish, .passEnd], _, rfl, by decide⟩

end Chain
end Paladin
