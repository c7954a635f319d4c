import Verif.Spec.AmqpPipe
import Verif.Props.SystemAmqp
import Verif.Props.SystemMem
import Verif.Props.SystemPipe
/-! # Pipelines on a broker are pipelines of the system with abstract queues -/
namespace Paladin
namespace SystemAmqp
open Retry System

section
variable {α' ε' ω' : Type}

theorem reads_mapAny (ls : List (MapS.Label α' ε' ω')) : MapS.reads (ls.map mapAny) = MapS.reads ls := by
  induction ls with
  | nil => rfl
  | cons l ls ih => cases l <;> simp [mapAny, MapS.reads] at ih ⊢ <;> simp [ih]

theorem reads_foldAny (ls : List (Fold.Label α' ε' ω')) : Fold.reads (ls.map foldAny) = Fold.reads ls := by
  induction ls with
  | nil => rfl
  | cons l ls ih => cases l <;> simp [foldAny, Fold.reads] at ih ⊢ <;> simp [ih]

theorem failure_mapAny (l : MapS.Label α' ε' ω') : (mapAny l).failure = l.failure := by cases l <;> rfl

theorem mem_foldAny (ls : List (Fold.Label α' ε' ω')) (x : Fold.Label α' ε' ω') (hx : ∀ k, x ≠ .recv k) : x ∈ ls.map foldAny ↔ x ∈ ls := by
  rw [List.mem_map]
  constructor
  · rintro ⟨l, h1, h2⟩
    cases l <;> simp only [foldAny] at h2 <;> first | (subst h2; exact h1) | exact absurd h2.symm (hx _)
  · intro h
    refine ⟨x, h, ?_⟩
    cases x <;> first | rfl | exact absurd rfl (hx _)

theorem feeds_mapAny {ls : List (MapS.Label α' ε' ω')} {items : List (MapS.Item α' ε')} {en : Bool} (h : MapS.Feeds (ls.map mapAny) items en) : MapS.Feeds ls items en := by
  unfold MapS.Feeds at h ⊢
  rwa [reads_mapAny, inputEnd_mapAny] at h

theorem feeds_foldAny {ls : List (Fold.Label α' ε' ω')} {items : List (MapS.Item α' ε')} {en : Bool} (h : Fold.Feeds (ls.map foldAny) items en) : Fold.Feeds ls items en := by
  unfold Fold.Feeds at h ⊢
  rwa [reads_foldAny, mem_foldAny _ _ (by simp)] at h
end

section
variable {A B : Type} [DecidableEq A] [DecidableEq B] {α β : A → Type} {γ : B → Type} {T O ε χ ω X : Type} {G : (a : A) → α a → β a → Prop}
  {ls : List (Label (A ⊕ B) (DirLabel α γ ε ω) T O ε χ ω)} {s : St (A ⊕ B) (DirSt α β γ ε) T O ε χ} {bs : List (System.Label (A ⊕ B) (DirLabel α γ ε ω) O χ ω)}
  {u : System.St (A ⊕ B) (DirSt α β γ ε) T O ε χ} {xs : List X} {as : List A} {Y : Type} {R : X → Y → Prop} {items : List (MapS.Item Y ε)} {en : Bool}

theorem pipeline_sys (hl : u.lead = s.lead) (hm : ∀ j, (System.Label.leads j bs).map (dirAny j) = Label.leads j ls) (h : Pipeline G ls s xs as Y R items en) :
    System.Pipeline G bs u xs as Y R items en := by
  induction h with
  | source => exact .source
  | map _ hf ih =>
    rename_i a _ _ _ _ _
    have e : (System.mapSteps bs a).map mapAny = mapSteps ls a := hm (.inl a)
    have := System.Pipeline.map ih (a := a) (feeds_mapAny (by rw [e]; exact hf))
    rw [System.mapOf, hl] at this
    exact this

theorem drained_sys (hl : u.lead = s.lead) (hm : ∀ j, (System.Label.leads j bs).map (dirAny j) = Label.leads j ls) (h : Drained G ls s xs as Y R items en) :
    System.Drained G bs u xs as Y R items en := by
  induction h with
  | source => exact .source
  | map _ hr he ih =>
    rename_i a _ _ _ _ _
    have e : (System.mapSteps bs a).map mapAny = mapSteps ls a := hm (.inl a)
    have := System.Drained.map ih (a := a) (by rw [← reads_mapAny, e]; exact hr) (fun h => by rw [← inputEnd_mapAny, e]; exact he h)
    rw [System.mapOf, hl] at this
    exact this

theorem steps_map (hm : ∀ j, (System.Label.leads j bs).map (dirAny j) = Label.leads j ls) {a : A} {P : MapS.Label (α a) ε ω → Prop} (hP : ∀ l, P (mapAny l) → P l) (h : ∀ l ∈ mapSteps ls a, P l) :
    ∀ l ∈ System.mapSteps bs a, P l := by
  have e : (System.mapSteps bs a).map mapAny = mapSteps ls a := hm (.inl a)
  exact fun l hl => hP l (h _ (by rw [← e]; exact List.mem_map.2 ⟨l, hl, rfl⟩))

theorem steps_fold (hm : ∀ j, (System.Label.leads j bs).map (dirAny j) = Label.leads j ls) {b : B} {P : Fold.Label (γ b) ε ω → Prop} (hP : ∀ l, P (foldAny l) → P l) (h : ∀ l ∈ foldSteps ls b, P l) :
    ∀ l ∈ System.foldSteps bs b, P l := by
  have e : (System.foldSteps bs b).map foldAny = foldSteps ls b := hm (.inr b)
  exact fun l hl => hP l (h _ (by rw [← e]; exact List.mem_map.2 ⟨l, hl, rfl⟩))
end

section
variable {A B : Type} [DecidableEq A] [DecidableEq B] {α β : A → Type} {γ : B → Type} {T O ε χ ω : Type} {op : (a : A) → ω → α a → Except ε (β a)}
  {comb : (b : B) → ω → γ b → γ b → Except ε (γ b)} {empty : (b : B) → γ b} {dupErr : ε} {encM : (a : A) → Nat × α a → Option T} {decM : (a : A) → O → Except ε (Nat × β a)}
  {encF : (b : B) → Fold.CTask (γ b) → Option T} {decF : (b : B) → O → Except ε (Seg (γ b))} {nt : Net (A ⊕ B)} {cfg : Worker.Cfg (A ⊕ B)} {exec : ω → T → Except (OpError χ) O} {text : OpError χ → ε}

/-- The execution with abstract queues, and when a job meets no returned delivery there. -/
theorem view (ls : List (Label (A ⊕ B) (DirLabel α γ ε ω) T O ε χ ω)) (s : St (A ⊕ B) (DirSt α β γ ε) T O ε χ)
    (h : amqpRun op comb empty dupErr encM decM encF decF nt cfg exec text ls = some s) :
    ∃ bs u, dirRun op comb empty dupErr encM decM encF decF cfg exec text bs = some u ∧ u.lead = s.lead ∧ (∀ j, (System.Label.leads j bs).map (dirAny j) = Label.leads j ls) ∧
      ∀ j, ¬ TaskTwice s j → NoReturn j u := by
  obtain ⟨bs, u, h1, h2, h3, h4, -⟩ := C80_refines ls s h
  exact ⟨bs, u, h1, h2, h3, fun j hj d hd hk hf => by
    obtain ⟨m, e1, e2⟩ := h4 d hd hf
    exact hj ⟨m, d.msg, e1, hk, e2⟩⟩

/-- At rest here, at rest there. -/
theorem view_rest [Inhabited ω] (ls : List (Label (A ⊕ B) (DirLabel α γ ε ω) T O ε χ ω)) (s : St (A ⊕ B) (DirSt α β γ ε) T O ε χ)
    (h : amqpRun op comb empty dupErr encM decM encF decF nt cfg exec text ls = some s) (W : Nat → Bool) (hst : ∀ l ∈ ls, l.steady W = true) (K : A ⊕ B → Bool) (j0 : A ⊕ B) (hj0 : K j0 = true)
    (hat : ∀ j, K j = true → Attended SystemMem.dirListens W j s)
    (hrest : ∀ l : Label (A ⊕ B) (DirLabel α γ ε ω) T O ε χ ω, l.moves W K (dirInternal K) = true → step (dirs op comb empty dupErr encM decM encF decF) SystemMem.dirListens nt cfg exec text s l = none) :
    ∃ bs u, dirRun op comb empty dupErr encM decM encF decF cfg exec text bs = some u ∧ u.lead = s.lead ∧ (∀ j, (System.Label.leads j bs).map (dirAny j) = Label.leads j ls) ∧
      (∃ w, W w = true) ∧ (∀ x ∈ bs, x.steady W = true) ∧
      (∀ l : System.Label (A ⊕ B) (DirLabel α γ ε ω) O χ ω, l.serves W = true → System.step (dirs op comb empty dupErr encM decM encF decF) cfg exec text u l = none) ∧
      (∀ a, K (.inl a) = true → ∀ l : MapS.Label (α a) ε ω, l.internal = true → System.step (ω := ω) (dirs op comb empty dupErr encM decM encF decF) cfg exec text u (.lead (.inl a) l) = none) ∧
      (∀ b, K (.inr b) = true → ∀ l : Fold.Label (γ b) ε ω, l.internal = true → System.step (ω := ω) (dirs op comb empty dupErr encM decM encF decF) cfg exec text u (.lead (.inr b) l) = none) := by
  obtain ⟨bs, u, ids, Q, R, h1, hw, h3, -, h5, -, h7, -⟩ := sim_run (any := dirAny) indexed_dirs h
  have hal := (alert_run h).2
  have hat0 := hat j0 hj0
  have hsa := h7 W hst (by simp [hat0.up])
  obtain ⟨w0, hW0, -⟩ := hat0.worker
  refine ⟨bs, u, h1, h3.lead, h5, ⟨w0, hW0⟩, hsa, work_quiet hw hal h3 h1 hsa hat0 hrest, fun a ha l hl => ?_, fun b hb l hl => ?_⟩
  · refine lead_quiet (listens := SystemMem.dirListens) (int := MapS.Label.internal (α := α a) (ε := ε) (ω := ω)) (Sum.inl a) ?_ hw hal h3 (hat _ ha) ?_ ?_ (hrest _ (by simpa [Label.moves] using ha)) (fun k => hrest _ rfl) l hl
    · exact SystemMem.responsive_map (op a) (encM a) (decM a)
    · exact fun l hl => hrest _ (by simp [Label.moves, dirInternal, ha]; exact hl)
    · exact fun l hl => hrest _ (by simp [Label.moves, dirInternal, ha]; exact hl)
  · refine lead_quiet (listens := SystemMem.dirListens) (int := Fold.Label.internal (α := γ b) (ε := ε) (ω := ω)) (Sum.inr b) ?_ hw hal h3 (hat _ hb) ?_ ?_ (hrest _ (by simpa [Label.moves] using hb)) (fun k => hrest _ rfl) l hl
    · exact SystemMem.responsive_fold (comb b) (empty b) dupErr (encF b) (decF b)
    · exact fun l hl => hrest _ (by simp [Label.moves, dirInternal, hb]; exact hl)
    · exact fun l hl => hrest _ (by simp [Label.moves, dirInternal, hb]; exact hl)

end
end SystemAmqp

namespace SystemMem
open Retry System
variable {A B : Type} [DecidableEq A] [DecidableEq B] {α β : A → Type} {γ : B → Type} {T O ε χ ω : Type} {op : (a : A) → ω → α a → Except ε (β a)}
  {comb : (b : B) → ω → γ b → γ b → Except ε (γ b)} {empty : (b : B) → γ b} {dupErr : ε} {encM : (a : A) → Nat × α a → Option T} {decM : (a : A) → O → Except ε (Nat × β a)}
  {encF : (b : B) → Fold.CTask (γ b) → Option T} {decF : (b : B) → O → Except ε (Seg (γ b))} {cfg : Worker.Cfg (A ⊕ B)} {exec : ω → T → Except (OpError χ) O} {text : OpError χ → ε}

/-- At rest here, at rest there. -/
theorem view_rest [Inhabited ω] (ls : List (Label (A ⊕ B) (DirLabel α γ ε ω) O χ ω)) (s : St (A ⊕ B) (DirSt α β γ ε) T O ε χ)
    (h : memRun op comb empty dupErr encM decM encF decF cfg exec text ls = some s) (W : Nat → Bool) (hW : ∃ w, W w = true) (hst : ∀ l ∈ ls, l.steady W = true) (K : A ⊕ B → Bool)
    (hrest : ∀ l : Label (A ⊕ B) (DirLabel α γ ε ω) O χ ω, l.moves W K (dirInternal K) = true → step (dirs op comb empty dupErr encM decM encF decF) dirListens cfg exec text s l = none) :
    (∀ l : System.Label (A ⊕ B) (DirLabel α γ ε ω) O χ ω, l.serves W = true → System.step (dirs op comb empty dupErr encM decM encF decF) cfg exec text s.view l = none) ∧
      (∀ a, K (.inl a) = true → ∀ l : MapS.Label (α a) ε ω, l.internal = true → System.step (ω := ω) (dirs op comb empty dupErr encM decM encF decF) cfg exec text s.view (.lead (.inl a) l) = none) ∧
      (∀ b, K (.inr b) = true → ∀ l : Fold.Label (γ b) ε ω, l.internal = true → System.step (ω := ω) (dirs op comb empty dupErr encM decM encF decF) cfg exec text s.view (.lead (.inr b) l) = none) := by
  obtain ⟨hi, hr⟩ := inv_run local_dirs h
  refine ⟨work_quiet local_dirs h hW hst hrest, fun a ha l hl => ?_, fun b hb l hl => ?_⟩
  · refine lead_quiet (listens := dirListens) (int := MapS.Label.internal (α := α a) (ε := ε) (ω := ω)) (Sum.inl a) ?_ hi ?_ ?_ (hrest _ (by simpa [Label.moves] using ha)) (hrest _ (by simpa [Label.moves] using ha)) l hl
    · exact responsive_map (op a) (encM a) (decM a)
    · exact fun l hl => hrest _ (by simp [Label.moves, dirInternal, ha]; exact hl)
    · exact fun l hl => hrest _ (by simp [Label.moves, dirInternal, ha]; exact hl)
  · refine lead_quiet (listens := dirListens) (int := Fold.Label.internal (α := γ b) (ε := ε) (ω := ω)) (Sum.inr b) ?_ hi ?_ ?_ (hrest _ (by simpa [Label.moves] using hb)) (hrest _ (by simpa [Label.moves] using hb)) l hl
    · exact responsive_fold (comb b) (empty b) dupErr (encF b) (decF b)
    · exact fun l hl => hrest _ (by simp [Label.moves, dirInternal, hb]; exact hl)
    · exact fun l hl => hrest _ (by simp [Label.moves, dirInternal, hb]; exact hl)

end SystemMem
end Paladin
