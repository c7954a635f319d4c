import Verif.Spec.SystemPipe
import Verif.Props.Chain
import Verif.Props.System
import Verif.Props.SystemBytes
import Verif.Props.SystemLive
/-!
# Property C75: chained directives in the whole system

`IndexedStream::from(xs).map(&op₁)…map(&opₙ)`, drained with `into_values_sorted` or folded, on any number of workers, beside any other jobs. Vocabulary: `Verif/Spec/SystemPipe.lean`.
-/
namespace Paladin

/-! ## Reads of a job alone -/

namespace System
open Retry

theorem reads_toMap (jls : List (JobLabel (MapS.Label α ε ω) ω)) : MapS.reads (jls.map toMap) = MapS.reads (JobLabel.leads jls) := by
  induction jls with
  | nil => rfl
  | cons x jls ih =>
    cases x with
    | lead l => cases l <;> simp [JobLabel.leads, toMap, MapS.reads, ih]
    | _ => simp [JobLabel.leads, toMap, MapS.reads, ih]

theorem reads_toFold (jls : List (JobLabel (Fold.Label α ε ω) ω)) : Fold.reads (jls.map toFold) = Fold.reads (JobLabel.leads jls) := by
  induction jls with
  | nil => rfl
  | cons x jls ih =>
    cases x with
    | lead l => cases l <;> simp [JobLabel.leads, toFold, Fold.reads, ih]
    | _ => simp [JobLabel.leads, toFold, Fold.reads, ih]

theorem end_toMap (jls : List (JobLabel (MapS.Label α ε ω) ω)) : .inputEnd ∈ jls.map toMap ↔ .inputEnd ∈ JobLabel.leads jls := by
  induction jls with
  | nil => simp [JobLabel.leads]
  | cons x jls ih => cases x <;> simp [JobLabel.leads, toMap, ih]

theorem disconnect_toFold (jls : List (JobLabel (Fold.Label α ε ω) ω)) : .disconnect ∈ jls.map toFold ↔ .disconnect ∈ JobLabel.leads jls := by
  induction jls with
  | nil => simp [JobLabel.leads]
  | cons x jls ih => cases x <;> simp [JobLabel.leads, toFold, ih]

theorem end_toFold (jls : List (JobLabel (Fold.Label α ε ω) ω)) : .inputEnd ∈ jls.map toFold ↔ .inputEnd ∈ JobLabel.leads jls := by
  induction jls with
  | nil => simp [JobLabel.leads]
  | cons x jls ih => cases x <;> simp [JobLabel.leads, toFold, ih]

section
variable {A B : Type} [DecidableEq A] [DecidableEq B] {α β : A → Type} {γ : B → Type} {T O ε χ ω X : Type} {op : (a : A) → ω → α a → Except ε (β a)}
  {comb : (b : B) → ω → γ b → γ b → Except ε (γ b)} {empty : (b : B) → γ b} {dupErr : ε} {encM : (a : A) → Nat × α a → Option T} {decM : (a : A) → O → Except ε (Nat × β a)}
  {encF : (b : B) → Fold.CTask (γ b) → Option T} {decF : (b : B) → O → Except ε (Seg (γ b))} {cfg : Worker.Cfg (A ⊕ B)} {exec : ω → T → Except (OpError χ) O} {text : OpError χ → ε}
  {G : (a : A) → α a → β a → Prop}

theorem map_alone_reads (a : A) (hf : MapFaithful exec text (op a) (encM a) (decM a)) {ls : List (Label (A ⊕ B) (DirLabel α γ ε ω) O χ ω)} {s : St (A ⊕ B) (DirSt α β γ ε) T O ε χ}
    (h : dirRun op comb empty dupErr encM decM encF decF cfg exec text ls = some s) : ∃ mls m, MapS.run (op a) MapS.init mls = some m ∧
      mapOf s a = { m with tasks := [], results := [] } ∧ MapS.reads mls = MapS.reads (mapSteps ls a) ∧ (.inputEnd ∈ mls ↔ .inputEnd ∈ mapSteps ls a) ∧
      ((∀ l ∈ mapSteps ls a, l.connected = true) → ∀ l ∈ mls, l.connected = true) := by
  obtain ⟨jls, J, h1, h2, h3, h4, h5, h6⟩ := C68_isolation ls s h (.inl a)
  obtain ⟨pre, m', g1, g2, g3, g4, g5⟩ := map_job (exec := exec) (text := text) hf jls J h1
  have hin : JobLabel.leads pre = mapSteps ls a := g2.trans h4
  exact ⟨_, m', g3, h2.symm.trans g4, by rw [reads_toMap, hin], by rw [end_toMap, hin], fun hc => connected_toMap (hin ▸ hc)⟩

theorem fold_alone_reads (b : B) (hf : FoldFaithful exec text (comb b) (encF b) (decF b)) {ls : List (Label (A ⊕ B) (DirLabel α γ ε ω) O χ ω)} {s : St (A ⊕ B) (DirSt α β γ ε) T O ε χ}
    (h : dirRun op comb empty dupErr encM decM encF decF cfg exec text ls = some s) : ∃ fls m, Fold.run (comb b) (empty b) dupErr Fold.init fls = some m ∧
      foldOf s b = { m with tasks := [], results := [] } ∧ Fold.reads fls = Fold.reads (foldSteps ls b) ∧ (.inputEnd ∈ fls ↔ .inputEnd ∈ foldSteps ls b) ∧
      (.disconnect ∈ fls ↔ .disconnect ∈ foldSteps ls b) := by
  obtain ⟨jls, J, h1, h2, h3, h4, h5, h6⟩ := C68_isolation ls s h (.inr b)
  obtain ⟨pre, m', g1, g2, g3, g4, g5⟩ := fold_job (exec := exec) (text := text) (foldFaithful_execute hf) jls J h1
  have hin : JobLabel.leads pre = foldSteps ls b := g2.trans h4
  exact ⟨_, m', g3, h2.symm.trans g4, by rw [reads_toFold, hin], by rw [end_toFold, hin], by rw [disconnect_toFold, hin]⟩

theorem _root_.Paladin.Faithful.mono {R S : α' → β' → Prop} (hRS : ∀ x y, R x y → S x y) {xs : List α'} {items : List (MapS.Item β' ε)} {en : Bool} (h : Faithful R xs items en) :
    Faithful S xs items en := by
  intro he hr
  obtain ⟨h1, h2⟩ := h he hr
  refine ⟨h1, fun i b hb => ?_⟩
  obtain ⟨a, ha, hab⟩ := h2 i b hb
  exact ⟨a, ha, hRS _ _ hab⟩

/-- The stream of a pipeline, if it ends without an error, holds as many items as `xs` has elements, and each item is an image of the element with its index. Tasks may be executed
several times. -/
theorem pipeline_faithful {ls : List (Label (A ⊕ B) (DirLabel α γ ε ω) O χ ω)} {s : St (A ⊕ B) (DirSt α β γ ε) T O ε χ}
    (h : dirRun op comb empty dupErr encM decM encF decF cfg exec text ls = some s) {xs : List X} {as : List A} {Y : Type} {R : X → Y → Prop} {items : List (MapS.Item Y ε)} {en : Bool}
    (hp : Pipeline G ls s xs as Y R items en) (hf : ∀ a ∈ as, MapFaithful exec text (op a) (encM a) (decM a)) (hc : ∀ a ∈ as, ∀ l ∈ mapSteps ls a, l.connected = true)
    (hG : ∀ a ∈ as, ∀ x y, MapS.Returns (op a) x y → G a x y) : Faithful R xs items en := by
  induction hp with
  | source => simpa using faithful_source (ε := ε) xs xs.length true fun _ => rfl
  | @map a as items en R _ feeds ih =>
    have ih := ih (fun a ha => hf a (by simp [ha])) (fun a ha => hc a (by simp [ha])) fun a ha => hG a (by simp [ha])
    obtain ⟨mls, m, h1, h2, h3, h4, h5⟩ := map_alone_reads a (hf a (by simp)) h
    have := MapS.C18_map_stage ih mls m h1 (h5 (hc a (by simp))) (by rw [MapS.Feeds, h3, h4]; exact feeds)
    rw [h2]
    refine this.mono ?_
    rintro x z ⟨y, h6, h7⟩
    exact ⟨y, h6, hG a (by simp) y z h7⟩

/-- **C75, fold.** `IndexedStream::from(xs).map(..)…map(..).fold(..)`, any number of maps, runs beside any other jobs on any workers. If the fold returns `Ok(v)`, there is one image of each element of
`xs` under the operations such that `v` is an in-order combination of these images (or `xs` is empty and `v` is `empty()`). Tasks may be lost, returned to the queue and executed several
times. Assumed: the leader's connection lasts for the maps. -/
theorem C75_fold (b : B) (ls : List (Label (A ⊕ B) (DirLabel α γ ε ω) O χ ω)) (s : St (A ⊕ B) (DirSt α β γ ε) T O ε χ)
    (h : dirRun op comb empty dupErr encM decM encF decF cfg exec text ls = some s) (xs : List X) (as : List A) (R : X → γ b → Prop) (items : List (MapS.Item (γ b) ε)) (en : Bool)
    (hp : Pipeline G ls s xs as (γ b) R items en) (hfeed : Fold.Feeds (foldSteps ls b) items en) (hf : ∀ a ∈ as, MapFaithful exec text (op a) (encM a) (decM a))
    (hc : ∀ a ∈ as, ∀ l ∈ mapSteps ls a, l.connected = true) (hG : ∀ a ∈ as, ∀ x y, MapS.Returns (op a) x y → G a x y)
    (hff : FoldFaithful exec text (comb b) (encF b) (decF b)) (v : γ b) (hv : (foldOf s b).outcome = some (.ok v)) :
    ∃ ys, List.Forall₂ R xs ys ∧ ((ys = [] ∧ v = empty b) ∨ Tree (Fold.Returns (comb b)) ys v) := by
  obtain ⟨fls, m, h1, h2, h3, h4, -⟩ := fold_alone_reads b hff h
  rw [h2] at hv
  exact Fold.C18_fold_stage (pipeline_faithful h hp hf hc hG) fls m v h1 hv (by rw [Fold.Feeds, h3, h4]; exact hfeed)

/-- **C75, panics.** The fold of a pipeline panics only if the leader's connection for its results is gone. -/
theorem C75_no_panic (b : B) (ls : List (Label (A ⊕ B) (DirLabel α γ ε ω) O χ ω)) (s : St (A ⊕ B) (DirSt α β γ ε) T O ε χ)
    (h : dirRun op comb empty dupErr encM decM encF decF cfg exec text ls = some s) (xs : List X) (as : List A) (R : X → γ b → Prop) (items : List (MapS.Item (γ b) ε)) (en : Bool)
    (hp : Pipeline G ls s xs as (γ b) R items en) (hfeed : Fold.Feeds (foldSteps ls b) items en) (hf : ∀ a ∈ as, MapFaithful exec text (op a) (encM a) (decM a))
    (hc : ∀ a ∈ as, ∀ l ∈ mapSteps ls a, l.connected = true) (hG : ∀ a ∈ as, ∀ x y, MapS.Returns (op a) x y → G a x y)
    (hff : FoldFaithful exec text (comb b) (encF b) (decF b)) (hv : (foldOf s b).outcome = some .panic) : .disconnect ∈ foldSteps ls b := by
  obtain ⟨fls, m, h1, h2, h3, h4, h5⟩ := fold_alone_reads b hff h
  rw [h2] at hv
  exact h5.1 (Fold.C18_fold_panic (pipeline_faithful h hp hf hc hG) fls m h1 hv (by rw [Fold.Feeds, h3, h4]; exact hfeed))

theorem _root_.Paladin.MapS.OneEach.comp {α' β' γ' : Type} {R : α' → β' → Prop} {S : β' → γ' → Prop} {I : List (Nat × α')} {J : List (Nat × β')} {K : List (Nat × γ')}
    (h1 : MapS.OneEach R I J) (h2 : MapS.OneEach S J K) : MapS.OneEach (fun x z => ∃ y, R x y ∧ S y z) I K := by
  obtain ⟨T1, a1, a2, a3⟩ := h1
  obtain ⟨T2, b1, b2, b3⟩ := h2
  rw [← a2] at b1
  obtain ⟨T, c1, c2⟩ := List.perm_comp_forall₂ (r := fun p (t : Nat × α' × β') => p = (t.1, t.2.2)) b1 (v := T1) (by
    clear b1 a1 a2 a3; induction T1 with
    | nil => simp
    | cons t T1 ih => exact .cons rfl ih)
  have a3 : ∀ t ∈ T, R t.2.1 t.2.2 := fun t ht => a3 t (c2.subset ht)
  replace a1 := (c2.map fun t : Nat × α' × β' => (t.1, t.2.1)).trans a1
  suffices H : ∃ U : List (Nat × α' × γ'), (U.map fun t => (t.1, t.2.1)) = (T.map fun t => (t.1, t.2.1)) ∧ (U.map fun t => (t.1, t.2.2)) = (T2.map fun t => (t.1, t.2.2)) ∧
      ∀ t ∈ U, ∃ y, R t.2.1 y ∧ S y t.2.2 by
    obtain ⟨U, d1, d2, d3⟩ := H
    exact ⟨U, d1 ▸ a1, d2.trans b2, d3⟩
  clear a1 c2 b1 b2 a2
  induction T generalizing T2 with
  | nil =>
    cases T2 with
    | nil => exact ⟨[], by simp⟩
    | cons => simp at c1
  | cons t T ih =>
    cases T2 with
    | nil => simp at c1
    | cons t2 T2 =>
      simp only [List.map_cons, List.forall₂_cons, Prod.mk.injEq] at c1
      obtain ⟨U, d1, d2, d3⟩ := ih T2 (fun t ht => b3 t (by simp [ht])) c1.2 fun t ht => a3 t (by simp [ht])
      refine ⟨(t.1, t.2.1, t2.2.2) :: U, by simp [d1], by simp [d2, c1.1.1], ?_⟩
      intro u hu
      rcases List.mem_cons.1 hu with rfl | hu
      · exact ⟨t.2.2, a3 t (by simp), c1.1.2 ▸ b3 t2 (by simp)⟩
      · exact d3 u hu

theorem oneEach_source (xs : List X) : MapS.OneEach Eq (indexed 0 xs) (indexed 0 xs) :=
  ⟨(indexed 0 xs).map fun p => (p.1, p.2, p.2), by simp [Function.comp_def], by simp [Function.comp_def], by
    intro t ht
    obtain ⟨p, _, rfl⟩ := List.mem_map.1 ht
    rfl⟩

theorem pipeline_oneEach {ls : List (Label (A ⊕ B) (DirLabel α γ ε ω) O χ ω)} {s : St (A ⊕ B) (DirSt α β γ ε) T O ε χ}
    (h : dirRun op comb empty dupErr encM decM encF decF cfg exec text ls = some s) {xs : List X} {as : List A} {Y : Type} {R : X → Y → Prop} {items : List (MapS.Item Y ε)} {en : Bool}
    (hp : Pipeline G ls s xs as Y R items en) (hf : ∀ a ∈ as, MapFaithful exec text (op a) (encM a) (decM a)) (hc : ∀ a ∈ as, ∀ l ∈ mapSteps ls a, l.connected = true)
    (hG : ∀ a ∈ as, ∀ x y, MapS.Returns (op a) x y → G a x y) (hn : ∀ a ∈ as, NoReturn (.inl a) s) (he : en = true) (hr : MapS.errs items = []) :
    MapS.OneEach R (indexed 0 xs) (MapS.oks items) := by
  induction hp with
  | source => rw [MapS.oks_map_ok]; exact oneEach_source xs
  | @map a as items en R _ feeds ih =>
    have ih := ih (fun a ha => hf a (by simp [ha])) (fun a ha => hc a (by simp [ha])) (fun a ha => hG a (by simp [ha])) fun a ha => hn a (by simp [ha])
    obtain ⟨mls, m, h1, h2, h3, h4, h5⟩ := map_alone_reads a (hf a (by simp)) h
    have he' : m.ended = true := by rw [h2] at he; exact he
    have hr' : MapS.errs m.outs = [] := by rw [h2] at hr; exact hr
    obtain ⟨g1, g2⟩ := MapS.ended_inputEnd mls m h1 (MapS.sendDone_of_ended mls m h1 he') hr'
    obtain ⟨f1, f2⟩ := feeds.2 (h4.1 g1)
    have f3 : MapS.errs items = [] := by rw [← f2, ← h3]; exact MapS.errs_reads mls g2
    have := C68_map a (hf a (by simp)) ls s h (hn a (by simp)) (hc a (by simp)) he hr
    rw [← MapS.reads_inputs, f2] at this
    obtain ⟨T, t1, t2, t3⟩ := (ih f1 f3).comp this
    refine ⟨T, t1, t2, fun t ht => ?_⟩
    obtain ⟨y, y1, y2⟩ := t3 t ht
    exact ⟨y, y1, hG a (by simp) _ _ y2⟩

/-- **C75, `into_values_sorted`.** A pipeline of maps drained with `into_values_sorted`: if it returns `Ok(vs)`, then `vs` has one value per element of `xs`, in order, each an image of that element
under the operations. Assumed: the leader's connection lasts, and no delivery of the maps' tasks was returned to the queue. -/
theorem C75_sorted (ls : List (Label (A ⊕ B) (DirLabel α γ ε ω) O χ ω)) (s : St (A ⊕ B) (DirSt α β γ ε) T O ε χ)
    (h : dirRun op comb empty dupErr encM decM encF decF cfg exec text ls = some s) (xs : List X) (as : List A) (Y : Type) (R : X → Y → Prop) (items : List (MapS.Item Y ε)) (en : Bool)
    (hp : Pipeline G ls s xs as Y R items en) (hf : ∀ a ∈ as, MapFaithful exec text (op a) (encM a) (decM a)) (hc : ∀ a ∈ as, ∀ l ∈ mapSteps ls a, l.connected = true)
    (hG : ∀ a ∈ as, ∀ x y, MapS.Returns (op a) x y → G a x y) (hn : ∀ a ∈ as, NoReturn (.inl a) s) (vs : List Y) (hv : MapS.Collects items en (.ok vs)) :
    List.Forall₂ R xs vs := by
  generalize ho : items = its at hv
  generalize he : en = e at hv
  cases hv with
  | ok hp' hs =>
    have herr : MapS.errs items = [] := by rw [ho]; exact MapS.errs_map_ok _
    have := pipeline_oneEach h hp hf hc hG hn he herr
    rw [ho, MapS.oks_map_ok] at this
    exact this.sorted hp' hs

/-- A drained pipeline on healthy workers. -/
theorem drained_oneEach [Inhabited ω] {ls : List (Label (A ⊕ B) (DirLabel α γ ε ω) O χ ω)} {s : St (A ⊕ B) (DirSt α β γ ε) T O ε χ}
    (h : dirRun op comb empty dupErr encM decM encF decF cfg exec text ls = some s) (W : Nat → Bool) (hW : ∃ w, W w = true) (hst : ∀ l ∈ ls, l.steady W = true)
    {xs : List X} {as : List A} {Y : Type} {R : X → Y → Prop} {items : List (MapS.Item Y ε)} {en : Bool} (hp : Drained G ls s xs as Y R items en)
    (hf : ∀ a ∈ as, MapFaithful exec text (op a) (encM a) (decM a)) (hop : ∀ a ∈ as, ∀ p ∈ MapS.inputs (mapSteps ls a), ∀ x, ∃ u, op a x p.2 = .ok u)
    (hrel : ∀ a ∈ as, ∀ l ∈ mapSteps ls a, l.reliable = true) (henc : ∀ a ∈ as, ∀ p ∈ MapS.inputs (mapSteps ls a), (encM a p).isSome = true)
    (hG : ∀ a ∈ as, ∀ x y, MapS.Returns (op a) x y → G a x y)
    (hwork : ∀ l : Label (A ⊕ B) (DirLabel α γ ε ω) O χ ω, l.serves W = true → step (dirs op comb empty dupErr encM decM encF decF) cfg exec text s l = none)
    (hlead : ∀ a ∈ as, ∀ l : MapS.Label (α a) ε ω, l.internal = true → step (dirs op comb empty dupErr encM decM encF decF) cfg exec text s (.lead (.inl a) l) = none) :
    en = true ∧ MapS.errs items = [] ∧ MapS.OneEach R (indexed 0 xs) (MapS.oks items) := by
  induction hp with
  | source => exact ⟨rfl, MapS.errs_map_ok _, by rw [MapS.oks_map_ok]; exact oneEach_source xs⟩
  | @map a as items en R _ reads ended ih =>
    obtain ⟨i1, i2, i3⟩ := ih (fun a ha => hf a (by simp [ha])) (fun a ha => hop a (by simp [ha])) (fun a ha => hrel a (by simp [ha])) (fun a ha => henc a (by simp [ha]))
      (fun a ha => hG a (by simp [ha])) fun a ha => hlead a (by simp [ha])
    obtain ⟨g1, g2, g3⟩ := C71_map a (hf a (by simp)) ls s h W hW hst (hrel a (by simp)) (henc a (by simp)) (hop a (by simp)) hwork (hlead a (by simp))
    refine ⟨g1.2 (ended i1), g3, ?_⟩
    rw [← MapS.reads_inputs, reads] at g2
    obtain ⟨T, t1, t2, t3⟩ := i3.comp g2
    refine ⟨T, t1, t2, fun t ht => ?_⟩
    obtain ⟨y, y1, y2⟩ := t3 t ht
    exact ⟨y, y1, hG a (by simp) _ _ y2⟩

/-- **C75, completion of the maps.** If nothing goes wrong around the workers of `W` (at least one) and at the leader, the operations do not fail on what reaches them, and neither the workers nor the leader can do
anything more, then the pipeline has ended without an error, with exactly one item for each element of `xs`. -/
theorem C75_maps_complete [Inhabited ω] (ls : List (Label (A ⊕ B) (DirLabel α γ ε ω) O χ ω)) (s : St (A ⊕ B) (DirSt α β γ ε) T O ε χ)
    (h : dirRun op comb empty dupErr encM decM encF decF cfg exec text ls = some s) (W : Nat → Bool) (hW : ∃ w, W w = true) (hst : ∀ l ∈ ls, l.steady W = true)
    (xs : List X) (as : List A) (Y : Type) (R : X → Y → Prop) (items : List (MapS.Item Y ε)) (en : Bool) (hp : Drained G ls s xs as Y R items en)
    (hf : ∀ a ∈ as, MapFaithful exec text (op a) (encM a) (decM a)) (hop : ∀ a ∈ as, ∀ p ∈ MapS.inputs (mapSteps ls a), ∀ x, ∃ u, op a x p.2 = .ok u)
    (hrel : ∀ a ∈ as, ∀ l ∈ mapSteps ls a, l.reliable = true) (henc : ∀ a ∈ as, ∀ p ∈ MapS.inputs (mapSteps ls a), (encM a p).isSome = true)
    (hG : ∀ a ∈ as, ∀ x y, MapS.Returns (op a) x y → G a x y)
    (hwork : ∀ l : Label (A ⊕ B) (DirLabel α γ ε ω) O χ ω, l.serves W = true → step (dirs op comb empty dupErr encM decM encF decF) cfg exec text s l = none)
    (hlead : ∀ a ∈ as, ∀ l : MapS.Label (α a) ε ω, l.internal = true → step (dirs op comb empty dupErr encM decM encF decF) cfg exec text s (.lead (.inl a) l) = none) :
    en = true ∧ MapS.errs items = [] ∧ ∃ ys, List.Forall₂ R xs ys ∧ (MapS.oks items).Perm (indexed 0 ys) := by
  obtain ⟨h1, h2, T, t1, t2, t3⟩ := drained_oneEach h W hW hst hp hf hop hrel henc hG hwork hlead
  obtain ⟨T', c1, c2⟩ := List.perm_comp_forall₂ (r := fun p (t : Nat × X × Y) => p = (t.1, t.2.1)) t1.symm (v := T) (by
    clear t1 t2 t3; induction T with
    | nil => simp
    | cons t T ih => exact .cons rfl ih)
  have t3 : ∀ t ∈ T', R t.2.1 t.2.2 := fun t ht => t3 t (c2.subset ht)
  have key : ∀ (k : Nat) (xs : List X) (T' : List (Nat × X × Y)), List.Forall₂ (fun p (t : Nat × X × Y) => p = (t.1, t.2.1)) (indexed k xs) T' → (∀ t ∈ T', R t.2.1 t.2.2) →
      List.Forall₂ R xs (T'.map fun t => t.2.2) ∧ (T'.map fun t => (t.1, t.2.2)) = indexed k (T'.map fun t => t.2.2) := by
    intro k xs
    induction xs generalizing k with
    | nil => intro T' h _; cases h; simp [indexed]
    | cons x xs ih =>
      intro T' h ht
      cases h with
      | cons he hr =>
        rename_i t T'
        obtain ⟨e1, e2⟩ := ih (k + 1) T' hr fun t h => ht t (by simp [h])
        simp only [Prod.mk.injEq] at he
        refine ⟨.cons (he.2 ▸ ht t (by simp)) e1, ?_⟩
        simp [indexed, e2, he.1]
  obtain ⟨k1, k2⟩ := key 0 xs T' c1 t3
  refine ⟨h1, h2, _, k1, ?_⟩
  rw [← k2, ← t2]
  exact (c2.map _).symm

/-- **C75, completion with a fold (partial).** Missing: the case in which all results of the fold arrive before it sees the end of its input, where it never returns (`C08_hang`). Under the assumptions of
`C75_maps_complete`, if combining does not fail either (on what can arise from such images) and the fold has taken everything its input has yielded, and its end, before all results had arrived, then the fold has returned an in-order
combination of one image of each element. -/
theorem C75_fold_complete_partial [Inhabited ω] (b : B) (ls : List (Label (A ⊕ B) (DirLabel α γ ε ω) O χ ω)) (s : St (A ⊕ B) (DirSt α β γ ε) T O ε χ)
    (h : dirRun op comb empty dupErr encM decM encF decF cfg exec text ls = some s) (W : Nat → Bool) (hW : ∃ w, W w = true) (hst : ∀ l ∈ ls, l.steady W = true)
    (xs : List X) (as : List A) (R : X → γ b → Prop) (items : List (MapS.Item (γ b) ε)) (en : Bool) (hp : Drained G ls s xs as (γ b) R items en)
    (hf : ∀ a ∈ as, MapFaithful exec text (op a) (encM a) (decM a)) (hop : ∀ a ∈ as, ∀ p ∈ MapS.inputs (mapSteps ls a), ∀ x, ∃ u, op a x p.2 = .ok u)
    (hrel : ∀ a ∈ as, ∀ l ∈ mapSteps ls a, l.reliable = true) (henc : ∀ a ∈ as, ∀ p ∈ MapS.inputs (mapSteps ls a), (encM a p).isSome = true)
    (hG : ∀ a ∈ as, ∀ x y, MapS.Returns (op a) x y → G a x y)
    (hff : FoldFaithful exec text (comb b) (encF b) (decF b)) (hrelF : ∀ l ∈ foldSteps ls b, l.reliable = true)
    (hencF : ∀ ys, List.Forall₂ R xs ys → ∀ t, Fold.Asked (Fold.Returns (comb b)) (indexed 0 ys) t → (encF b t).isSome = true)
    (hcomb : ∀ ys, List.Forall₂ R xs ys → ∀ t, Fold.Asked (Fold.Returns (comb b)) (indexed 0 ys) t → ∀ x, ∃ c, comb b x t.a t.b = .ok c)
    (hreads : Fold.reads (foldSteps ls b) = items) (pre post : List (Fold.Label (γ b) ε ω)) (hsplit : foldSteps ls b = pre ++ .inputEnd :: post)
    (hrc : xs.length ≤ 1 ∨ Fold.recvs pre + 1 < xs.length)
    (hwork : ∀ l : Label (A ⊕ B) (DirLabel α γ ε ω) O χ ω, l.serves W = true → step (dirs op comb empty dupErr encM decM encF decF) cfg exec text s l = none)
    (hlead : ∀ a ∈ as, ∀ l : MapS.Label (α a) ε ω, l.internal = true → step (dirs op comb empty dupErr encM decM encF decF) cfg exec text s (.lead (.inl a) l) = none)
    (hleadF : ∀ l : Fold.Label (γ b) ε ω, l.internal = true → step (dirs op comb empty dupErr encM decM encF decF) cfg exec text s (.lead (.inr b) l) = none) :
    ∃ v ys, (foldOf s b).outcome = some (.ok v) ∧ List.Forall₂ R xs ys ∧ ((ys = [] ∧ v = empty b) ∨ Tree (Fold.Returns (comb b)) ys v) := by
  obtain ⟨-, -, ys, h1, h2⟩ := C75_maps_complete ls s h W hW hst xs as (γ b) R items en hp hf hop hrel henc hG hwork hlead
  have hlen := h1.length_eq
  have hall : Fold.inputs pre = MapS.oks items := by
    obtain ⟨jls, J, j1, j2, j3, j4, j5, j6⟩ := C68_isolation ls s h (.inr b)
    obtain ⟨jpre, m', g1, g2, g3, g4, g5⟩ := fold_job (exec := exec) (text := text) (foldFaithful_execute hff) jls J j1
    have hlds : JobLabel.leads jpre = foldSteps ls b := g2.trans j4
    obtain ⟨p, q, rfl, hp, hq⟩ := leads_split (hlds.trans hsplit)
    rw [List.map_append, List.map_cons] at g3
    have hall := inputs_after_end g3
    rw [← hreads, Fold.reads_inputs, hsplit, Fold.inputs_append, Fold.inputs_cons, ← hq, ← inputs_toFold, hall]
    simp [Fold.Label.items]
  obtain ⟨v, v1, v2⟩ := C71_fold_partial b hff ls s h W hW hst hrelF pre post hsplit 0 ys (by rw [hall]; exact h2)
    (by
      rw [hlen] at hrc
      cases ys with
      | nil => exact .inl rfl
      | cons y ys => cases ys with
        | nil => exact .inr (.inl ⟨rfl, rfl⟩)
        | cons y' ys => exact .inr (.inr (hrc.resolve_left (by simp))))
    (hencF ys h1) (hcomb ys h1) hwork hleadF
  exact ⟨v, ys, v1, h1, v2⟩

end

/-! ## Through bytes -/

section
open Exec Wire
variable {ε A B X : Type} [DecidableEq A] [DecidableEq B] [Anyhow ε] {join dupErr : ε} {ops : List (OpDef ε)} {k kt : Serializer} {M : A → MapJob ε} {F : B → FoldJob ε}
  {cfg : Worker.Cfg (A ⊕ B)}

/-- **C75, fold, through bytes.** As `C75_fold`, in the system whose messages are bytes. -/
theorem C75_fold_bytes (b : B) (ls) (s) (h : bytesRun join dupErr ops k kt M F cfg ls = some s) (xs : List X) (as : List A) (R : X → (F b).Elem → Prop)
    (items : List (MapS.Item (F b).Elem ε)) (en : Bool) (hp : Pipeline (fun a => (M a).Gives) ls s xs as (F b).Elem R items en) (hfeed : Fold.Feeds (foldSteps ls b) items en)
    (hreg : ∀ a ∈ as, Registered ops (M a).d (M a).id) (hc : ∀ a ∈ as, ∀ l ∈ mapSteps ls a, l.connected = true) (hregF : Registered ops (F b).d (F b).id)
    (v : (F b).Elem) (hv : (foldOf s b).outcome = some (.ok v)) :
    ∃ ys, List.Forall₂ R xs ys ∧ ((ys = [] ∧ v = (F b).empty) ∨ Tree (F b).Gives ys v) := by
  obtain ⟨ys, h1, h2⟩ := C75_fold b ls s h xs as R items en hp hfeed (fun a ha => map_faithful (hreg a ha)) hc (fun _ _ _ _ => gives_map) (fold_faithful hregF) v hv
  exact ⟨ys, h1, h2.imp id (Tree.mono fun _ _ _ => gives_fold)⟩

/-- **C75, `into_values_sorted`, through bytes.** As `C75_sorted`, in the system whose messages are bytes. -/
theorem C75_sorted_bytes (ls) (s) (h : bytesRun join dupErr ops k kt M F cfg ls = some s) (xs : List X) (as : List A) (Y : Type) (R : X → Y → Prop)
    (items : List (MapS.Item Y ε)) (en : Bool) (hp : Pipeline (fun a => (M a).Gives) ls s xs as Y R items en) (hreg : ∀ a ∈ as, Registered ops (M a).d (M a).id)
    (hc : ∀ a ∈ as, ∀ l ∈ mapSteps ls a, l.connected = true) (hn : ∀ a ∈ as, NoReturn (.inl a) s) (vs : List Y) (hv : MapS.Collects items en (.ok vs)) :
    List.Forall₂ R xs vs :=
  C75_sorted ls s h xs as Y R items en hp (fun a ha => map_faithful (hreg a ha)) hc (fun _ _ _ _ => gives_map) hn vs hv

/-- **C75, completion with a fold, through bytes (partial).** As `C75_fold_complete_partial`, in the system whose messages are bytes; the same case is missing. -/
theorem C75_fold_complete_bytes_partial (b : B) (ls) (s) (h : bytesRun join dupErr ops k kt M F cfg ls = some s) (W : Nat → Bool) (hW : ∃ w, W w = true)
    (hst : ∀ l ∈ ls, l.steady W = true) (xs : List X) (as : List A) (R : X → (F b).Elem → Prop) (items : List (MapS.Item (F b).Elem ε)) (en : Bool)
    (hp : Drained (fun a => (M a).Gives) ls s xs as (F b).Elem R items en) (hsz : xs.length ≤ 2 ^ 64)
    (hreg : ∀ a ∈ as, Registered ops (M a).d (M a).id) (hrel : ∀ a ∈ as, ∀ l ∈ mapSteps ls a, l.reliable = true)
    (hok : ∀ a ∈ as, ∀ p ∈ MapS.inputs (mapSteps ls a), ∀ i, ∃ v b, (M a).d.execute (M a).op p.2 i = .ok v ∧ (M a).d.outC.enc kt v = .ok b)
    (hidx : ∀ a ∈ as, ∀ p ∈ MapS.inputs (mapSteps ls a), p.1 < 2 ^ 64 ∧ ∃ b, (M a).d.inC.enc kt p.2 = .ok b) (hopenc : ∀ a ∈ as, ∃ b, (M a).d.opC.enc kt (M a).op = .ok b)
    (hregF : Registered ops (F b).d (F b).id) (hrelF : ∀ l ∈ foldSteps ls b, l.reliable = true)
    (hokF : ∀ ys, List.Forall₂ R xs ys → ∀ t, Fold.Asked (F b).Gives (indexed 0 ys) t → ∀ i, ∃ v c, (F b).combine (F b).op t.a t.b i = .ok v ∧ (F b).elemC.enc kt v = .ok c)
    (hencF : ∀ ys, List.Forall₂ R xs ys → ∀ t, Fold.Asked (F b).Gives (indexed 0 ys) t → ∃ c, (F b).pairC.enc kt (t.a, t.b) = .ok c)
    (hopencF : ∃ c, (F b).opC.enc kt (F b).op = .ok c)
    (hreads : Fold.reads (foldSteps ls b) = items) (pre post : List (Fold.Label (F b).Elem ε Circ)) (hsplit : foldSteps ls b = pre ++ .inputEnd :: post)
    (hrc : xs.length ≤ 1 ∨ Fold.recvs pre + 1 < xs.length)
    (hwork : ∀ l, l.serves W = true → step (dirs (fun a => (M a).run join k kt) (fun b => (F b).run join k kt) (fun b => (F b).empty) dupErr (fun a => encMap k kt (M a))
      (fun a => decMap k (M a)) (fun b => encFold k kt (F b)) (fun b => decFold k (F b))) cfg (execBytes join ops k) (textBytes k) s l = none)
    (hlead : ∀ a ∈ as, ∀ l : MapS.Label (M a).d.In ε Circ, l.internal = true → step (dirs (fun a => (M a).run join k kt) (fun b => (F b).run join k kt)
      (fun b => (F b).empty) dupErr (fun a => encMap k kt (M a)) (fun a => decMap k (M a)) (fun b => encFold k kt (F b)) (fun b => decFold k (F b))) cfg (execBytes join ops k)
      (textBytes k) s (.lead (.inl a) l) = none)
    (hleadF : ∀ l : Fold.Label (F b).Elem ε Circ, l.internal = true → step (dirs (fun a => (M a).run join k kt) (fun b => (F b).run join k kt)
      (fun b => (F b).empty) dupErr (fun a => encMap k kt (M a)) (fun a => decMap k (M a)) (fun b => encFold k kt (F b)) (fun b => decFold k (F b))) cfg (execBytes join ops k)
      (textBytes k) s (.lead (.inr b) l) = none) :
    ∃ v ys, (foldOf s b).outcome = some (.ok v) ∧ List.Forall₂ R xs ys ∧ ((ys = [] ∧ v = (F b).empty) ∨ Tree (F b).Gives ys v) := by
  obtain ⟨v, ys, h1, h2, h3⟩ := C75_fold_complete_partial b ls s h W hW hst xs as R items en hp (fun a ha => map_faithful (hreg a ha))
    (fun a ha p hp x => localOp_first (hok a ha p hp) x) hrel (fun a ha p hp => encMap_some (hidx a ha p hp).1 (hidx a ha p hp).2 (hopenc a ha)) (fun _ _ _ _ => gives_map)
    (fold_faithful hregF) hrelF
    (fun ys hys t ht => by
      obtain ⟨-, b2, b3⟩ := bounds_of_asked ht
      have := hys.length_eq
      exact encFold_some (by omega) (by omega) (hencF ys hys t (ht.mono (fun _ _ _ => gives_fold) fun _ h => h)) hopencF)
    (fun ys hys t ht x => localOp_first (d := (F b).d) (a := (t.a, t.b)) (hokF ys hys t (ht.mono (fun _ _ _ => gives_fold) fun _ h => h)) x)
    hreads pre post hsplit hrc hwork hlead hleadF
  exact ⟨v, ys, h1, h2, h3.imp id (Tree.mono fun _ _ _ => gives_fold)⟩

end
end System
end Paladin
