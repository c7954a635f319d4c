import Verif.Proofs.System
/-! # How a task is lost -/
namespace Paladin
namespace System
open Retry

variable {κ : Type} {σ ℓ : κ → Type} {T O ε χ ω : Type} [DecidableEq κ] {cl : (j : κ) → Client (σ j) (ℓ j) T (Except ε O)} {cfg : Worker.Cfg κ} {exec : ω → T → Except (OpError χ) O}
  {text : OpError χ → ε}

/-- When a delivery may have been acknowledged or rejected. -/
def Pend (d : Del κ T) : Worker.Pc κ O χ → Prop
  | .got _ _ | .checked _ _ | .skipping _ _ | .starting _ _ | .running _ _ _ _ | .interrupted _ _ | .failing _ _ _ => d.fate ≠ .settled
  | .settleOk _ _ _ a _ => d.fate = .settled → a = true
  | .settleErr _ _ e n p _ => (d.fate = .settled → n = true) ∧ (p = true → d.answered = false → e.fatalStrategy = .ignore) ∧
      (e.fatalStrategy = .ignore → p = true ∧ d.answered = false)
  | _ => True

def Inv2 (s : St κ σ T O ε χ) : Prop := ∀ w, busy (s.worker w).pc = true → ∃ d, s.dels[s.cur w]? = some d ∧ Pend d (s.worker w).pc

theorem settle_settled {f : Fate} : f.settle = .settled ↔ f ≠ .returned := by cases f <;> simp [Fate.settle]

theorem pend_step {v v' : Worker.St κ O χ} {l : Worker.Label κ O χ} (hl : plain l = true) (h : Worker.step cfg v l = some v') {d : Del κ T}
    (hb : busy v'.pc = true) (hk : Link exec d v.pc) (hp : Pend d v.pc) : Pend { d with fate := if settles l then d.fate.settle else d.fate } v'.pc := by
  cases l <;> simp only [plain, Bool.false_eq_true] at hl <;> simp only [Worker.step] at h <;> (repeat' split at h) <;>
    simp only [Option.some.injEq, reduceCtorEq] at h <;> try subst h
  all_goals (try simp_all [busy, Link, Pend, settles, settle_settled])

theorem held_of {f : Fate} (h1 : f ≠ .returned) (h2 : f ≠ .settled) : f = .held := by cases f <;> simp_all

theorem pend_answer {v v' : Worker.St κ O χ} {l : Worker.Label κ O χ} (hl : l = .pubOk ∨ l = .pubErr) (h : Worker.step cfg v l = some v') {d : Del κ T}
    (hp : Pend d v.pc) : Pend { d with answered := true } v'.pc := by
  rcases hl with rfl | rfl <;> simp only [Worker.step] at h <;> split at h <;> simp only [Option.some.injEq, reduceCtorEq] at h <;> subst h <;> simp_all [Pend]

/-- A delivery that is not yet lost becomes lost in a step of its worker exactly by the steps of `WhyLost`. -/
theorem lost_local {v v' : Worker.St κ O χ} {l : Worker.Label κ O χ} (hl : plain l = true) (h : Worker.step cfg v l = some v') {d : Del κ T}
    (hk : busy v.pc = true → Link exec d v.pc ∧ Pend d v.pc) (hn : ¬ (d.fate = .settled ∧ d.answered = false ∧ mayAnswer v.pc = false)) :
    ((if settles l then d.fate.settle else d.fate) = .settled ∧ d.answered = false ∧ mayAnswer v'.pc = false) ↔ WhyLost d v.pc l := by
  constructor
  · cases l <;> simp only [plain, Bool.false_eq_true] at hl <;> simp only [Worker.step] at h <;> (repeat' split at h) <;>
      simp only [Option.some.injEq, reduceCtorEq] at h <;> try subst h
    all_goals (try simp_all [busy, Link, Pend, settles, settle_settled, mayAnswer])
    · exact fun hr => .terminated _ _ (held_of hr hk.2)
    · rintro hr ha rfl
      exact .ignored _ _ _ _ (held_of hr hk.2.1) (hk.2.2.1 rfl ha)
    · rintro hf rfl
      exact .halfOk _ _ _ _ hf (.inr rfl)
    · exact fun hf ha => .halfErr _ _ _ _ _ hf (.inr rfl)
    · exact fun hr => .interrupted _ _ (held_of hr hk.2)
    · intro hf ha
      cases hpc : v.pc <;> simp_all
      · exact .halfOk _ _ _ _ hf (.inl rfl)
      · exact .halfErr _ _ _ _ _ hf (.inl rfl)
  · intro hw
    generalize hpc : v.pc = pc at hw
    cases hw with
    | terminated i k hf => simp [Worker.step, hpc] at h; subst h; simp_all [busy, Link, Pend, settles, Fate.settle, mayAnswer]
    | interrupted i k hf => simp [Worker.step, hpc] at h; subst h; simp_all [busy, Link, Pend, settles, Fate.settle, mayAnswer]
    | ignored i k e q hf he => simp [Worker.step, hpc] at h; subst h; simp_all [busy, Link, Pend, settles, Fate.settle, mayAnswer]
    | halfOk i k o l hf hl =>
      rcases hl with rfl | rfl <;> simp [Worker.step, hpc] at h
      · obtain ⟨_, rfl⟩ := h; simp_all [busy, Link, Pend, settles, mayAnswer]
      · subst h; simp_all [busy, Link, Pend, settles, mayAnswer]
    | halfErr i k e q l hf hl =>
      rcases hl with rfl | rfl <;> simp [Worker.step, hpc] at h
      · obtain ⟨_, rfl⟩ := h; simp_all [busy, Link, Pend, settles, mayAnswer]
      · subst h; simp_all [busy, Link, Pend, settles, mayAnswer]

theorem Pend.held {d : Del κ T} {pc : Worker.Pc κ O χ} {f : Fate} (h : Pend d pc) (hf : f ≠ .settled) : Pend { d with fate := f } pc := by
  cases pc <;> simp_all [Pend]

theorem settles_plain {v v' : Worker.St κ O χ} {l : Worker.Label κ O χ} (hl : settles l = true) (h : Worker.step cfg v l = some v') : busy v.pc = true := by
  cases l <;> simp only [settles, Bool.false_eq_true] at hl <;> simp only [Worker.step] at h <;> split at h <;> simp_all [busy]

theorem inv2_init : Inv2 (init cl : St κ σ T O ε χ) := fun w h => by simp [init, Worker.init, busy] at h

theorem inv2_eff {s s' : St κ σ T O ε χ} {l : Label κ ℓ O χ ω} (hi : Inv exec s) (h2 : Inv2 s) (h : Eff (cfg := cfg) cl exec text s l s') : Inv2 s' := by
  intro w hb
  cases h with
  | lead j l x ts rs h => exact h2 w hb
  | deliver w' k m a b i v hq hpc hv =>
    by_cases hw : w = w'
    · subst hw
      simp only [Function.update_self] at hb ⊢
      exact ⟨⟨w, m, .held, false⟩, by simp, by rw [hv]; simp [Pend]⟩
    · simp only [Function.update_of_ne hw] at hb ⊢
      obtain ⟨d, hd, hp⟩ := h2 w hb
      exact ⟨d, by rw [List.getElem?_append_left]; exact hd; exact (List.getElem?_eq_some_iff.1 hd).1, hp⟩
  | finish w' x d i k n v hd hpc hv =>
    by_cases hw : w = w'
    · subst hw
      simp only [Function.update_self] at hb ⊢
      obtain ⟨d', hd', hp⟩ := h2 w (by rw [hpc]; rfl)
      refine ⟨d', hd', ?_⟩
      rw [hpc] at hp
      rw [hv]
      cases exec x d.msg.task <;> simp_all [Pend]
    · simp only [Function.update_of_ne hw] at hb ⊢
      exact h2 w hb
  | quiet w' l v b hl hv hsl =>
    by_cases hw : w = w'
    · subst hw
      simp only [Function.update_self] at hb ⊢
      obtain ⟨p1, _, _⟩ := plain_step (exec := exec) (T := T) hl hv
      obtain ⟨d, hd, hdw, hk⟩ := hi w (p1 hb)
      obtain ⟨d', hd', hp⟩ := h2 w (p1 hb)
      rw [hd] at hd'; cases hd'
      refine ⟨_, ?_, pend_step hl hv hb hk hp⟩
      subst hsl
      split
      · simp only [settle_get, hd, Option.map_some, if_true]
      · exact hd
    · simp only [Function.update_of_ne hw] at hb ⊢
      obtain ⟨d, hd, hp⟩ := h2 w hb
      refine ⟨d, ?_, hp⟩
      split
      · rename_i hbt
        subst hsl
        obtain ⟨d1, hd1, hdw1, _⟩ := hi w' (settles_plain hbt hv)
        obtain ⟨d2, hd2, hdw2, _⟩ := hi w hb
        rw [settle_get, hd, Option.map_some, if_neg]
        intro hc
        rw [hc, hd2] at hd1; cases hd1
        exact hw (hdw2 ▸ hdw1 ▸ rfl)
      · exact hd
  | answer w' l v d r hpl hpv hd hdw ha hm hm' hl hx =>
    by_cases hw : w = w'
    · subst hw
      simp only [Function.update_self] at hb ⊢
      obtain ⟨d', hd', hp⟩ := h2 w (busy_of_mayAnswer hm)
      rw [hd] at hd'; cases hd'
      exact ⟨{ d with answered := true }, by rw [answer_get, hd]; simp, pend_answer hpl hpv hp⟩
    · simp only [Function.update_of_ne hw] at hb ⊢
      obtain ⟨d', hd', hp⟩ := h2 w hb
      obtain ⟨d2, hd2, hdw2, _⟩ := hi w hb
      refine ⟨d', ?_, hp⟩
      rw [answer_get, hd', Option.map_some, if_neg]
      intro hc
      rw [hc, hd2] at hd; cases hd
      exact hw (hdw2 ▸ hdw ▸ rfl)
  | requeue n d hd hf =>
    obtain ⟨d', hd', hp⟩ := h2 w hb
    simp only [giveBack_get, hd', Option.map_some]
    split
    · exact ⟨_, rfl, hp.held (by simp)⟩
    · exact ⟨_, rfl, hp⟩

theorem inv2_run {s : St κ σ T O ε χ} {ls : List (Label κ ℓ O χ ω)} (h : run cl cfg exec text (init cl) ls = some s) : Inv exec s ∧ Inv2 s :=
  Lts.run_inv (P := fun s => Inv exec s ∧ Inv2 s) ⟨inv_init, inv2_init⟩
    (fun _ _ _ hi hs => ⟨inv_eff hi.1 (eff_of_step hi.1 hs), inv2_eff hi.1 hi.2 (eff_of_step hi.1 hs)⟩) h

/-- A step by which a delivery becomes lost. -/
theorem lost_eff {s s' : St κ σ T O ε χ} {l : Label κ ℓ O χ ω} (hi : Inv exec s) (h2 : Inv2 s) (h : Eff (cfg := cfg) cl exec text s l s') {n : Nat} {d d' : Del κ T}
    (hd : s.dels[n]? = some d) (hd' : s'.dels[n]? = some d') (hn : ¬ Lost s n d) : Lost s' n d' ↔ Loses s n d l := by
  have hno : ∀ {l : Label κ ℓ O χ ω}, (∀ w wl, l ≠ .work w wl) → ¬ Loses s n d l := fun h ⟨wl, h1, _⟩ => h _ _ h1
  cases h with
  | lead j l x ts rs h =>
    refine iff_of_false ?_ (hno (by simp))
    rw [hd] at hd'; cases hd'
    exact hn
  | deliver w k m a b i v hq hpc hv =>
    refine iff_of_false ?_ (hno (by simp))
    have hlt := (List.getElem?_eq_some_iff.1 hd).1
    rw [List.getElem?_append_left hlt, hd] at hd'; cases hd'
    rintro ⟨e1, e2, e3⟩
    refine hn ⟨e1, e2, ?_⟩
    by_cases hw : d.worker = w
    · simp [active, hw, hpc, mayAnswer]
    · simpa [active, Function.update_of_ne hw] using e3
  | finish w x d0 i k n0 v hd0 hpc hv =>
    refine iff_of_false ?_ (hno (by simp))
    rw [hd] at hd'; cases hd'
    rintro ⟨e1, e2, e3⟩
    refine hn ⟨e1, e2, ?_⟩
    by_cases hw : d.worker = w
    · have : mayAnswer v.pc = true := by rw [hv]; cases exec x d0.msg.task <;> rfl
      have hc : s.cur w ≠ n := by
        intro hc
        simp [active, hw, hc, this] at e3
      simp [active, hw, hc]
    · simpa [active, Function.update_of_ne hw] using e3
  | quiet w l v b hl hv hsl =>
    by_cases hw : d.worker = w ∧ s.cur w = n
    · obtain ⟨hw, hc⟩ := hw
      have hk : busy (s.worker w).pc = true → Link exec d (s.worker w).pc ∧ Pend d (s.worker w).pc := by
        intro hb
        obtain ⟨d1, hd1, hdw1, hk1⟩ := hi w hb
        obtain ⟨d2, hd2, hp2⟩ := h2 w hb
        rw [hc, hd] at hd1 hd2; cases hd1; cases hd2
        exact ⟨hk1, hp2⟩
      have hact : active s n d = mayAnswer (s.worker w).pc := by simp [active, hw, hc]
      have hn' := hn
      simp only [Lost, hact] at hn'
      have key := lost_local hl hv hk hn'
      have hd'' : d' = { d with fate := if settles l then d.fate.settle else d.fate } := by
        subst hsl
        simp only at hd'
        split at hd'
        · rw [settle_get, hd, Option.map_some, if_pos hc] at hd'
          rw [if_pos (by assumption)]
          exact (Option.some.inj hd').symm
        · rw [hd] at hd'
          rw [if_neg (by assumption)]
          exact (Option.some.inj hd').symm
      subst hd''
      have : (active { s with worker := Function.update s.worker w v, dels := if b then settle s.dels (s.cur w) else s.dels } n
          { d with fate := if settles l then d.fate.settle else d.fate }) = mayAnswer v.pc := by simp [active, hw, hc]
      simp only [Lost, this]
      rw [key]
      constructor
      · exact fun h => ⟨l, by rw [hw], by rw [hw]; exact hc, by rw [hw]; exact h⟩
      · rintro ⟨wl, e1, e2, e3⟩
        cases e1
        exact e3
    · refine iff_of_false ?_ ?_
      · have hd'' : d' = d := by
          subst hsl
          simp only at hd'
          split at hd'
          · rename_i hbt
            rw [settle_get, hd, Option.map_some, if_neg] at hd'
            · exact (Option.some.inj hd').symm
            · intro hc
              obtain ⟨d1, hd1, hdw1, _⟩ := hi w (settles_plain hbt hv)
              rw [hc, hd] at hd1; cases hd1
              exact hw ⟨hdw1, hc⟩
          · rw [hd] at hd'; exact (Option.some.inj hd').symm
        subst hd''
        rintro ⟨e1, e2, e3⟩
        refine hn ⟨e1, e2, ?_⟩
        by_cases hw' : d'.worker = w
        · have : s.cur w ≠ n := fun h => hw ⟨hw', h⟩
          simp [active, hw', this]
        · simpa [active, Function.update_of_ne hw'] using e3
      · rintro ⟨wl, e1, e2, _⟩
        simp only [Label.work.injEq] at e1
        exact hw ⟨e1.1.symm, by rw [e1.1]; exact e2⟩
  | answer w l v d0 r hpl hpv hd0 hdw ha hm hm' hl hx =>
    refine iff_of_false ?_ ?_
    · rw [answer_get, hd, Option.map_some] at hd'
      split at hd'
      · rintro ⟨_, e2, _⟩
        cases hd'
        simp at e2
      · rename_i hc
        cases hd'
        rintro ⟨e1, e2, e3⟩
        refine hn ⟨e1, e2, ?_⟩
        by_cases hw' : d.worker = w
        · simp [active, hw', hc]
        · simpa [active, Function.update_of_ne hw'] using e3
    · rintro ⟨wl, e1, e2, e3⟩
      cases e1
      rcases hpl with rfl | rfl <;> generalize hpc : (s.worker d.worker).pc = pc at e3 <;> cases e3 <;> simp_all
  | requeue n' d0 hd0 hf =>
    refine iff_of_false ?_ (hno (by simp))
    rw [giveBack_get, hd, Option.map_some] at hd'
    split at hd'
    · cases hd'; rintro ⟨e1, _, _⟩; simp at e1
    · cases hd'; exact hn

/-! ## Calm workers lose nothing -/

/-- The worker knows of no reason to drop tasks of job `j`. -/
structure Keeps (cfg : Worker.Cfg κ) (j : κ) (v : Worker.St κ O χ) : Prop where
  unmarked : ∀ p ∈ v.term, p.1 ≠ j
  idle : ∀ k, v.handler = .got k ∨ v.handler = .marked k → k ≠ j ∧ k ≠ cfg.abortAll
  watch : cfg.abortAll ∉ v.watch
  skip : ∀ i, v.pc ≠ .skipping i j
  int : ∀ i k, v.pc ≠ .interrupted i k

theorem keeps_init (j : κ) : Keeps cfg j (Worker.init : Worker.St κ O χ) := by constructor <;> simp [Worker.init]

theorem keeps_step {v v' : Worker.St κ O χ} {l : Worker.Label κ O χ} {j : κ} (h : Worker.step cfg v l = some v') (hk : Keeps cfg j v)
    (hc : ∀ k, l = .cmd k → k ≠ j ∧ k ≠ cfg.abortAll) (hf : ∀ i e, v.pc ≠ .failing i j e) : Keeps cfg j v' := by
  obtain ⟨h1, h2, h3, h4, h5⟩ := hk
  cases l <;> simp only [Worker.step] at h <;> (repeat' split at h) <;> simp only [Option.some.injEq, reduceCtorEq] at h <;> try subst h
  all_goals first
    | exact ⟨h1, h2, h3, h4, h5⟩
    | (refine ⟨h1, h2, h3, ?_, ?_⟩ <;> (intros; simp; done))
    | skip
  · rename_i hm
    refine ⟨h1, h2, h3, ?_, nofun⟩
    intro i hc
    obtain ⟨rfl, rfl⟩ := by simpa using hc
    simp only [Worker.marked, List.any_eq_true, beq_iff_eq] at hm
    obtain ⟨p, hp, he⟩ := hm
    exact h1 _ hp he
  · rename_i hw
    exact absurd (List.mem_of_getLast? hw) h3
  · rename_i hpc _ _ _
    refine ⟨?_, h2, h3, nofun, nofun⟩
    intro p hp hj
    rcases List.mem_cons.1 hp with rfl | hp
    · simp only at hj; subst hj; exact hf _ _ hpc
    · exact h1 p hp hj
  · rename_i hpc _ _ _
    refine ⟨?_, h2, h3, nofun, nofun⟩
    intro p hp hj
    rcases List.mem_cons.1 hp with rfl | hp
    · simp only at hj; subst hj; exact hf _ _ hpc
    · exact h1 p hp hj
  · refine ⟨h1, ?_, h3, h4, h5⟩
    rintro k (h | h) <;> simp at h
    subst h; exact hc _ rfl
  · exact ⟨h1, by simp, h3, h4, h5⟩
  · rename_i hh _ _
    refine ⟨?_, ?_, h3, h4, h5⟩
    · intro p hp hj
      rcases List.mem_cons.1 hp with rfl | hp
      · exact (h2 _ (.inl hh)).1 hj
      · exact h1 p hp hj
    · rintro k (h | h) <;> simp at h
      subst h; exact h2 _ (.inl hh)
  · rename_i hh _
    refine ⟨h1, by simp, ?_, h4, h5⟩
    intro hm
    rcases List.mem_append.1 hm with hm | hm
    · exact h3 hm
    · simp at hm; exact (h2 _ (.inr hh)).2 hm.symm
  · exact ⟨h1, by simp, h3, h4, h5⟩
  · exact ⟨fun p hp => h1 p (List.mem_filter.1 hp).1, h2, h3, h4, h5⟩

/-- The part of a worker's step that the system makes. -/
theorem worker_of_step {s s' : St κ σ T O ε χ} {l : Label κ ℓ O χ ω} (h : step cl cfg exec text s l = some s') (w : Nat) :
    s'.worker w = s.worker w ∨ ∃ wl, Worker.step cfg (s.worker w) wl = some (s'.worker w) ∧ (l = .work w wl ∨ (∃ k, wl = .deliver k) ∨ ∃ r, wl = .finish r) := by
  cases l with
  | lead j l => simp only [step] at h; split at h <;> simp only [Option.some.injEq, reduceCtorEq] at h; subst h; exact .inl rfl
  | deliver w' k =>
    simp only [step] at h
    split at h <;> try simp only [reduceCtorEq] at h
    split at h <;> simp only [Option.some.injEq, reduceCtorEq] at h
    subst h
    by_cases hw : w = w'
    · subst hw; exact .inr ⟨_, by simp only [Function.update_self]; assumption, .inr (.inl ⟨_, rfl⟩)⟩
    · left; simp [Function.update_of_ne hw]
  | finish w' x =>
    simp only [step] at h
    split at h <;> try simp only [reduceCtorEq] at h
    split at h <;> simp only [Option.some.injEq, reduceCtorEq] at h
    subst h
    by_cases hw : w = w'
    · subst hw; exact .inr ⟨_, by simp only [Function.update_self]; assumption, .inr (.inr ⟨_, rfl⟩)⟩
    · left; simp [Function.update_of_ne hw]
  | work w' wl =>
    simp only [step] at h
    split at h <;> try simp only [reduceCtorEq] at h
    split at h <;> simp only [Option.some.injEq, reduceCtorEq] at h
    subst h
    by_cases hw : w = w'
    · subst hw; exact .inr ⟨wl, by simp only [Function.update_self]; assumption, .inl rfl⟩
    · left; simp [Function.update_of_ne hw]
  | requeue n =>
    simp only [step] at h
    split at h <;> try simp only [reduceCtorEq] at h
    split at h <;> simp only [Option.some.injEq, reduceCtorEq] at h
    subst h; exact .inl rfl

/-- A new delivery. -/
theorem new_held {s s' : St κ σ T O ε χ} {l : Label κ ℓ O χ ω} (h : Eff (cfg := cfg) cl exec text s l s') {n : Nat} (hge : s.dels.length ≤ n) {d : Del κ T}
    (hd : s'.dels[n]? = some d) : d.fate = .held ∧ d.answered = false := by
  have hlt := (List.getElem?_eq_some_iff.1 hd).1
  cases h with
  | deliver w k m a b i v hq hpc hv =>
    simp at hlt
    have : n = s.dels.length := by omega
    subst this
    simp at hd; subst hd; exact ⟨rfl, rfl⟩
  | quiet w l v b hl hv hsl => cases b <;> simp at hlt <;> omega
  | _ => simp at hlt; omega

theorem neverFails_back {s s' : St κ σ T O ε χ} {l : Label κ ℓ O χ ω} {j : κ} (hi : Inv exec s) (h : Eff (cfg := cfg) cl exec text s l s') (hf : NeverFails exec j s') :
    NeverFails exec j s := by
  intro d hd
  obtain ⟨n, hn⟩ := List.getElem?_of_mem hd
  obtain ⟨d', hd', hm, _⟩ := del_mono hi h hn
  have := hf d' (List.mem_of_getElem? hd')
  rwa [hm] at this

/-- No failure, no reason to drop: what holds in calm executions. -/
theorem calm_run {s : St κ σ T O ε χ} {ls : List (Label κ ℓ O χ ω)} {j : κ} (h : run cl cfg exec text (init cl) ls = some s) :
    (∀ l ∈ ls, l.calm cfg j = true) → NeverFails exec j s → (∀ w, Keeps cfg j (s.worker w)) ∧ NoLoss j s := by
  refine Lts.run_induction (P := fun ls s => (∀ l ∈ ls, l.calm cfg j = true) → NeverFails exec j s → (∀ w, Keeps cfg j (s.worker w)) ∧ NoLoss j s) ?_ ?_ ls s h
  · intro _ _
    exact ⟨fun w => keeps_init j, fun n d hd => by simp [init] at hd⟩
  · intro ls l s s' hr ih hst hc hf
    obtain ⟨hi, h2⟩ := inv2_run hr
    have he := eff_of_step hi hst
    have hf0 := neverFails_back hi he hf
    obtain ⟨hk, hn⟩ := ih (fun l hl => hc l (by simp [hl])) hf0
    have hcl := hc l (by simp)
    have nofail : ∀ w i e, (s.worker w).pc ≠ .failing i j e := by
      intro w i e hpc
      obtain ⟨d, hd, _, hl⟩ := hi w (by rw [hpc]; rfl)
      rw [hpc] at hl
      obtain ⟨h1, _, x, hx⟩ := hl
      exact hf0 d (List.mem_of_getElem? hd) h1 x e hx
    refine ⟨fun w => ?_, ?_⟩
    · rcases worker_of_step hst w with hw | ⟨wl, hw, hwl⟩
      · rw [hw]; exact hk w
      · refine keeps_step hw (hk w) ?_ (nofail w)
        rintro k rfl
        rcases hwl with rfl | ⟨_, h⟩ | ⟨_, h⟩
        · simpa [Label.calm] using hcl
        · simp at h
        · simp at h
    · intro n d' hd' hj hlost
      rcases Nat.lt_or_ge n s.dels.length with hlt | hge
      · have hd := List.getElem?_eq_getElem hlt
        obtain ⟨d1, hd1, hm, _⟩ := del_mono hi he hd
        rw [hd'] at hd1; cases hd1
        have hj' : (s.dels[n]).msg.key = j := by rw [← hm]; exact hj
        have hn' := hn n _ hd hj'
        obtain ⟨wl, e1, e2, e3⟩ := (lost_eff hi h2 he hd hd' hn').1 hlost
        subst e1
        have hb : busy (s.worker (s.dels[n]).worker).pc = true := by
          generalize (s.worker (s.dels[n]).worker).pc = pc at e3
          cases e3 <;> rfl
        obtain ⟨d2, hd2, _, hl2⟩ := hi _ hb
        rw [e2, hd] at hd2; cases hd2
        generalize hpc : (s.worker (s.dels[n]).worker).pc = pc at e3 hl2
        cases e3 with
        | terminated i k hf => exact (hk _).skip i (by rw [hpc, ← hl2.1, hj'])
        | interrupted i k hf => exact (hk _).int i k hpc
        | ignored i k e q hf hs => obtain ⟨_, _, x, hx⟩ := hl2; exact hf0 _ (List.mem_of_getElem? hd) hj' x _ hx
        | halfOk i k o l hf hs => rcases hs with rfl | rfl <;> simp [Label.calm] at hcl
        | halfErr i k e q l hf hs => rcases hs with rfl | rfl <;> simp [Label.calm] at hcl
      · have := (new_held he hge hd').1
        rw [hlost.1] at this
        simp at this

end System
end Paladin
