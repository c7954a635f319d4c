import Verif.Proofs.SystemMem
import Verif.Proofs.Solo
/-! # Tasks pushed in the order of the input: proofs -/
namespace Paladin
namespace System
open Retry

section
variable {A B : Type} [DecidableEq A] [DecidableEq B] {α β : A → Type} {γ : B → Type} {T O ε χ ω : Type} {op : (a : A) → ω → α a → Except ε (β a)}
  {comb : (b : B) → ω → γ b → γ b → Except ε (γ b)} {empty : (b : B) → γ b} {dupErr : ε} {encM : (a : A) → Nat × α a → Option T} {decM : (a : A) → O → Except ε (Nat × β a)}
  {encF : (b : B) → Fold.CTask (γ b) → Option T} {decF : (b : B) → O → Except ε (Seg (γ b))} {cfg : Worker.Cfg (A ⊕ B)} {exec : ω → T → Except (OpError χ) O} {text : OpError χ → ε}

/-- What a step of a map pushes, when the oldest publish under way goes first. -/
theorem map_push {α' β' ε' ω' T' O' : Type} {op' : ω' → α' → Except ε' β'} {enc : Nat × α' → Option T'} {dec : O' → Except ε' (Nat × β')} {m m' : MapS.St α' β' ε'} {l : MapS.Label α' ε' ω'}
    {rs rs' : List (Except ε' O')} {ts : List T'} (hl : ∀ k, l = .send k → k = 0) (h : (mapClient op' enc dec).step m l rs = some (m', ts, rs')) :
    (MapS.inputs [l] ≠ [] → m.sendDone = false) ∧ ((∃ ps, List.Forall₂ (fun p t => enc p = some t) ps ts ∧ m.inflight ++ MapS.inputs [l] = ps ++ m'.inflight ∧ m'.sendDone = m.sendDone) ∨
      ts = [] ∧ m'.sendDone = true ∧ MapS.inputs [l] = [] ∧ (m'.inflight = [] ∨ m'.inflight = m.inflight)) := by
  simp only [mapClient] at h
  split at h <;> try simp only [reduceCtorEq] at h
  split at h <;> simp only [Option.map_eq_some_iff, reduceCtorEq, Prod.mk.injEq] at h
  rename_i hlead _ x hx
  obtain ⟨ts', ht, rfl, rfl, -⟩ := h
  cases l <;> simp only [mapLead, Bool.false_eq_true] at hlead
  case item i a =>
    simp only [MapS.step] at hx
    (repeat' split at hx) <;> simp only [Option.some.injEq, reduceCtorEq] at hx
    subst hx
    rename_i hc
    simp only [Bool.and_eq_true, Bool.not_eq_true'] at hc
    simp at ht
    subst ht
    exact ⟨fun _ => hc.1, .inl ⟨[], .nil, rfl, rfl⟩⟩
  case send k =>
    obtain rfl := hl k rfl
    simp only [MapS.step, Fold.takeAt] at hx
    split at hx <;> try simp only [reduceCtorEq] at hx
    cases hf : m.inflight with
    | nil => simp [hf] at hx
    | cons p rest =>
      simp only [hf, List.getElem?_cons_zero, List.eraseIdx_zero, List.tail_cons, Option.some.injEq] at hx
      subst hx
      simp only [List.nil_append, List.mapM_cons, List.mapM_nil, Option.pure_def, Option.bind_eq_bind, Option.bind_some, Option.bind_eq_some_iff, Option.some.injEq] at ht
      obtain ⟨t, h1, rfl⟩ := ht
      exact ⟨fun h => absurd rfl h, .inl ⟨[p], .cons h1 .nil, by simp [MapS.inputs], rfl⟩⟩
  all_goals
    simp only [MapS.step, MapS.sendFail] at hx
    (repeat' split at hx) <;> simp only [Option.some.injEq, reduceCtorEq] at hx
    all_goals
      subst hx
      simp at ht
      subst ht
      refine ⟨fun h => absurd rfl h, ?_⟩
      first
      | exact .inl ⟨[], .nil, by simp [MapS.inputs], rfl⟩
      | exact .inr ⟨rfl, rfl, rfl, .inl rfl⟩
      | exact .inr ⟨rfl, rfl, rfl, .inr rfl⟩

theorem fst_eq {α' β' : Type} {R : Nat × α' → Nat × β' → Prop} {qs : List (Nat × α')} {os : List (Nat × β')} (h : List.Forall₂ (fun p o => o.1 = p.1 ∧ R p o) qs os) : os.map Prod.fst = qs.map Prod.fst := by
  induction h with
  | nil => rfl
  | cons h _ ih => rw [List.map_cons, List.map_cons, h.1, ih]

/-- The tasks of a job that were pushed, in order: those handed out, then those waiting. -/
def pushed {κ : Type} {σ : κ → Type} [DecidableEq κ] (s : St κ σ T O ε χ) (j : κ) : List T := ((s.dels.map Del.msg ++ s.queue).filter fun m => m.key = j).map Msg.task

/-- The first inputs of the map have been pushed, the following ones are under way, and any others were given up. -/
def Pushes (encM : (a : A) → Nat × α a → Option T) (a : A) (ls : List (Label (A ⊕ B) (DirLabel α γ ε ω) O χ ω)) (s : St (A ⊕ B) (DirSt α β γ ε) T O ε χ) : Prop :=
  ∃ ps rest, List.Forall₂ (fun p t => encM a p = some t) ps (pushed s (.inl a)) ∧ MapS.inputs (mapSteps ls a) = ps ++ ((mapOf s a).inflight ++ rest) ∧ ((mapOf s a).sendDone = false → rest = [])

theorem pushed_other {κ : Type} {σ ℓ : κ → Type} [DecidableEq κ] {cl : (j : κ) → Client (σ j) (ℓ j) T (Except ε O)} {cfg : Worker.Cfg κ} {s s' : St κ σ T O ε χ} {l : Label κ ℓ O χ ω} (si : Inv exec s)
    (hl : ∀ j k, l ≠ .lead j k) (hk : ∀ w k, l = .deliver w k → k = 0) (hr : l.requeues = false) (h : step cl cfg exec text s l = some s') (j : κ) : pushed s' j = pushed s j ∧ s'.lead = s.lead := by
  by_cases hd : ∃ w k, l = .deliver w k
  · obtain ⟨w, k, rfl⟩ := hd
    obtain rfl := hk w k rfl
    simp only [step, Fold.takeAt] at h
    cases hq : s.queue with
    | nil => rw [hq] at h; simp at h
    | cons m q =>
      rw [hq] at h
      simp only [List.getElem?_cons_zero, List.eraseIdx_zero, List.tail_cons] at h
      split at h <;> simp only [Option.some.injEq, reduceCtorEq] at h
      subst h
      simp [pushed, hq]
  · have hm : ∀ (f : Del κ T → Del κ T) (n : Nat), (∀ d, (f d).msg = d.msg) → (s.dels.modify n f).map Del.msg = s.dels.map Del.msg := by
      intro f n hf
      generalize s.dels = ds
      induction ds generalizing n with
      | nil => simp
      | cons d ds ih => cases n <;> simp [List.modify_cons, hf, ih]
    cases eff_of_step si h with
    | lead j l _ _ _ _ => exact absurd rfl (hl j l)
    | deliver w k _ _ _ _ _ _ _ _ => exact absurd ⟨w, k, rfl⟩ hd
    | finish => exact ⟨rfl, rfl⟩
    | quiet w l v b _ _ _ =>
      refine ⟨?_, rfl⟩
      unfold pushed
      cases b with
      | true => simp only [if_true, settle, hm (fun d => { d with fate := d.fate.settle }) _ fun _ => rfl]
      | false => rfl
    | answer w l v d r _ _ _ _ _ _ _ _ _ =>
      refine ⟨?_, rfl⟩
      unfold pushed
      simp only [answer, hm (fun d => { d with answered := true }) _ fun _ => rfl]
    | requeue n d _ _ => simp [Label.requeues] at hr

theorem leads_skip {κ : Type} {ℓ : κ → Type} [DecidableEq κ] {j : κ} {ls : List (Label κ ℓ O χ ω)} {l : Label κ ℓ O χ ω} (h : ∀ x, l ≠ .lead j x) : Label.leads j (ls ++ [l]) = Label.leads j ls := by
  rw [Label.leads_append]
  have : Label.leads j [l] = [] := by
    cases l with
    | lead j' x =>
      have hj : j' ≠ j := by rintro rfl; exact h x rfl
      simp [Label.leads, hj]
    | _ => rfl
  rw [this, List.append_nil]

theorem pushes_run {a : A} {ls : List (Label (A ⊕ B) (DirLabel α γ ε ω) O χ ω)} {s : St (A ⊕ B) (DirSt α β γ ε) T O ε χ} (h : dirRun op comb empty dupErr encM decM encF decF cfg exec text ls = some s)
    (hk : ∀ w k, .deliver w k ∈ ls → k = 0) (hr : ∀ l ∈ ls, l.requeues = false) (ho : ∀ k, .send k ∈ mapSteps ls a → k = 0) : Pushes encM a ls s := by
  refine Lts.run_induction (P := fun ls s => (∀ w k, .deliver w k ∈ ls → k = 0) → (∀ l ∈ ls, l.requeues = false) → (∀ k, .send k ∈ mapSteps ls a → k = 0) → Pushes encM a ls s) ?_ ?_ ls s h hk hr ho
  · intro _ _ _
    exact ⟨[], [], by simp [pushed, init], rfl, fun _ => rfl⟩
  · intro ls l s s' hrun ih hs hk hr ho
    have si : Inv exec s := inv_run hrun
    have hsub : ∀ k, .send k ∈ mapSteps ls a → k = 0 := by
      intro k hmem
      apply ho k
      unfold mapSteps at hmem ⊢
      rw [Label.leads_append]
      exact List.mem_append_left _ hmem
    obtain ⟨ps, rest, h1, h2, h3⟩ := ih (fun w k hm => hk w k (by simp [hm])) (fun l hm => hr l (by simp [hm])) hsub
    by_cases hlead : ∃ j x, l = .lead j x
    · obtain ⟨j, x, rfl⟩ := hlead
      simp only [step] at hs
      split at hs <;> simp only [Option.some.injEq, reduceCtorEq] at hs
      rename_i y ts rs hst
      by_cases e : j = .inl a
      · subst e
        have hsteps : mapSteps (ls ++ [.lead (.inl a) x]) a = mapSteps ls a ++ ([x] : List (MapS.Label (α a) ε ω)) := by
          unfold mapSteps
          rw [Label.leads_append]
          simp [Label.leads]
          rfl
        rw [hsteps] at ho
        obtain ⟨hin, hcase⟩ := map_push (fun k e => ho k (List.mem_append_right _ (e ▸ List.mem_singleton.2 rfl))) hst
        have hy : mapOf s' a = y := by subst hs; exact Function.update_self ..
        have hpush : pushed s' (.inl a) = pushed s (.inl a) ++ ts := by
          subst hs
          simp only [pushed, List.filter_append, List.map_append, List.append_assoc]
          congr 2
          simp [List.filter_map, Function.comp_def]
        unfold Pushes
        rw [hsteps, MapS.inputs_append, hy, hpush, h2]
        rcases hcase with ⟨qs, c1, c2, c3⟩ | ⟨c1, c2, c3, c4⟩
        · refine ⟨ps ++ qs, rest, List.rel_append h1 c1, ?_, ?_⟩
          · by_cases hne : MapS.inputs [x] = []
            · rw [hne, List.append_nil] at c2 ⊢
              have c2 : (mapOf s a).inflight = qs ++ y.inflight := c2
              rw [c2]
              simp
            · have hrest := h3 (hin hne)
              subst hrest
              have c2 : (mapOf s a).inflight ++ MapS.inputs [x] = qs ++ y.inflight := c2
              simp only [List.append_nil, List.append_assoc]
              rw [c2]
          · intro hd
            exact h3 (c3 ▸ hd)
        · subst c1
          rw [c3, List.append_nil, List.append_nil]
          rcases c4 with c4 | c4
          · exact ⟨ps, (mapOf s a).inflight ++ rest, h1, by rw [c4]; rfl, fun hd => by rw [c2] at hd; simp at hd⟩
          · exact ⟨ps, rest, h1, by rw [c4]; rfl, fun hd => by rw [c2] at hd; simp at hd⟩
      · have hy : mapOf s' a = mapOf s a := by subst hs; exact Function.update_of_ne (Ne.symm e) ..
        have hpush : pushed s' (.inl a) = pushed s (.inl a) := by
          subst hs
          simp only [pushed, List.filter_append, List.map_append, ← List.append_assoc]
          simp [List.filter_eq_nil_iff, e]
        have hsteps : mapSteps (ls ++ [.lead j x]) a = mapSteps ls a := leads_skip fun z hz => e (by cases hz; rfl)
        unfold Pushes
        rw [hy, hpush, hsteps]
        exact ⟨ps, rest, h1, h2, h3⟩
    · have hl : ∀ j k, l ≠ .lead j k := fun j k e => hlead ⟨j, k, e⟩
      obtain ⟨p1, p2⟩ := pushed_other si hl (fun w k e => hk w k (by simp [e])) (hr l (by simp)) hs (.inl a)
      have hy : mapOf s' a = mapOf s a := by unfold mapOf; rw [p2]
      have hsteps : mapSteps (ls ++ [l]) a = mapSteps ls a := leads_skip fun z => hl _ z
      unfold Pushes
      rw [hy, p1, hsteps]
      exact ⟨ps, rest, h1, h2, h3⟩

end
end System
end Paladin
