import Verif.Spec.Aftermath
import Verif.Proofs.SystemFailsDir
import Verif.Props.Abort
/-! # Workers after an abort-all command -/
namespace Paladin
namespace Worker

/-- Only abort-all commands have reached the worker. -/
structure Clean [DecidableEq κ] (c : Cfg κ) (v : St κ ο χ) : Prop where
  watch : ∀ k ∈ v.watch, k = c.abortAll
  got : ∀ k, v.handler = .got k → k = c.abortAll
  marked : ∀ k, v.handler = .marked k → k = c.abortAll

theorem clean_init [DecidableEq κ] {c : Cfg κ} : Clean c (init : St κ ο χ) := ⟨by simp [init], by simp [init], by simp [init]⟩

theorem clean_step [DecidableEq κ] {c : Cfg κ} {v v' : St κ ο χ} {l : Label κ ο χ} (hc : Clean c v) (hl : ∀ k, l = .cmd k → k = c.abortAll) (h : step c v l = some v') : Clean c v' := by
  obtain ⟨h1, h2, h3⟩ := hc
  cases l <;> simp only [step] at h <;> (repeat' split at h) <;> simp only [Option.some.injEq, reduceCtorEq] at h <;> try subst h
  all_goals try exact ⟨h1, h2, h3⟩
  all_goals
    constructor <;> intro k' h <;> simp only [reduceCtorEq, Handler.got.injEq, Handler.marked.injEq] at h <;>
      first
      | exact h1 _ h
      | exact h2 _ h
      | exact h3 _ h
      | exact h ▸ hl _ rfl
      | exact h ▸ h2 _ (by assumption)
      | exact (List.mem_append.1 h).elim (h1 _) fun h => by rw [List.mem_singleton.1 h]; exact h3 _ (by assumption)

theorem watch_step [DecidableEq κ] {c : Cfg κ} {v v' : St κ ο χ} {l : Label κ ο χ} (h : step c v l = some v') : (v.watch ≠ [] → v'.watch ≠ []) ∧ (l = .hSend → v'.watch ≠ []) := by
  cases l <;> simp only [step] at h <;> (repeat' split at h) <;> simp only [Option.some.injEq, reduceCtorEq] at h <;> subst h <;> simp

/-- What the loop of a worker that has heard does with a task of job `j`: it never gets past the `select!`. -/
def Mute (j : κ) (v : St κ ο χ) : Prop :=
  match v.pc with
  | .got _ k | .checked _ k | .skipping _ k | .starting _ k => k = j → v.watch ≠ []
  | .running _ k seen r => k = j → v.watch ≠ [] ∧ (r = false → seen = 0)
  | .failing _ k _ | .settleOk _ k _ _ _ | .settleErr _ k _ _ _ _ => k ≠ j
  | _ => True

theorem mute_step [DecidableEq κ] {c : Cfg κ} {v v' : St κ ο χ} {l : Label κ ο χ} {j : κ} (hc : Clean c v) (hm : Mute j v) (hd : l = .deliver j → v.watch ≠ [])
    (hf : ∀ r, l = .finish r → ∀ i seen b, v.pc = .running i j seen b → seen = v.watch.length) (h : step c v l = some v') : Mute j v' := by
  have hlast : v.watch ≠ [] → v.watch.getLast? = some c.abortAll := by
    intro hne
    rw [List.getLast?_eq_some_getLast hne, hc.watch _ (List.getLast_mem hne)]
  unfold Mute at hm ⊢
  cases l <;> simp only [step] at h <;> (repeat' split at h) <;> simp only [Option.some.injEq, reduceCtorEq] at h <;> try subst h
  all_goals try (simp_all; done)
  · rename_i i k seen hpc r o
    simp only [hpc] at hm
    intro hk
    obtain ⟨h1, h2⟩ := hm hk
    subst hk
    have := hf _ rfl _ _ _ hpc
    rw [h2 trivial] at this
    exact h1 (List.length_eq_zero_iff.1 this.symm)
  · rename_i i k seen hpc r e
    simp only [hpc] at hm
    intro hk
    obtain ⟨h1, h2⟩ := hm hk
    subst hk
    have := hf _ rfl _ _ _ hpc
    rw [h2 trivial] at this
    exact h1 (List.length_eq_zero_iff.1 this.symm)
  all_goals (simp only; split <;> simp_all)

theorem mute_pub [DecidableEq κ] {c : Cfg κ} {v v' : St κ ο χ} {l : Label κ ο χ} {j : κ} (hm : Mute j v) (hl : l = .pubOk ∨ l = .pubErr) (h : step c v l = some v') :
    ∃ k, k ≠ j ∧ ((∃ i o a p, v.pc = .settleOk i k o a p) ∨ ∃ i e n p q, v.pc = .settleErr i k e n p q) := by
  unfold Mute at hm
  rcases hl with rfl | rfl <;> simp only [step] at h <;> split at h <;> simp only [Option.some.injEq, reduceCtorEq] at h <;> rename_i hpc <;> simp only [hpc] at hm
  · exact ⟨_, hm, .inl ⟨_, _, _, _, hpc⟩⟩
  · exact ⟨_, hm, .inr ⟨_, _, _, _, _, hpc⟩⟩

/-- A worker that has received no command. -/
structure Unheard (v : St κ ο χ) : Prop where
  watch : v.watch = []
  handler : v.handler = .idle ∨ v.handler = .finished
  pc : ∀ i k, v.pc ≠ .interrupted i k
  reading : ∀ i k n r, v.pc = .running i k n r → r = false

theorem unheard_init : Unheard (init : St κ ο χ) := by constructor <;> simp [init]

theorem unheard_step [DecidableEq κ] {c : Cfg κ} {v v' : St κ ο χ} {l : Label κ ο χ} (hq : Unheard v) (hl : ∀ k, l ≠ .cmd k) (h : step c v l = some v') : Unheard v' ∧ l ≠ .hSend := by
  obtain ⟨h1, h2, h3, h4⟩ := hq
  cases l <;> simp only [step] at h <;> (repeat' split at h) <;> simp only [Option.some.injEq, reduceCtorEq] at h <;> try subst h
  all_goals first
    | exact absurd rfl (hl _)
    | (exfalso; have e := ‹v.handler = _›; rw [e] at h2; simp at h2; done)
    | (exfalso; have := h4 _ _ _ _ (by assumption); simp at this; done)
    | (exfalso; exact h3 _ _ (by assumption))
    | (exfalso; simp [h1] at *; done)
    | exact ⟨⟨h1, h2, h3, h4⟩, by simp⟩
    | exact ⟨⟨h1, .inr rfl, h3, h4⟩, by simp⟩
    | exact ⟨⟨h1, h2, fun i k => by simp, fun i k n r e => (by cases e; rfl)⟩, by simp⟩
    | exact ⟨⟨h1, h2, fun i k => by simp, fun i k n r e => by simp at e⟩, by simp⟩
    | exact ⟨⟨h1, h2, fun i k => by split <;> simp, fun i k n r e => by split at e <;> simp at e⟩, by simp⟩

/-- A worker that has heard, waited for a task then, and has started `n` tasks since. -/
def Spent (n : Nat) (u : St κ ο χ) : Prop :=
  match u.pc with
  | .waiting | .got _ _ | .checked _ _ | .skipping _ _ | .starting _ _ => n = 0
  | .running _ _ seen rd => n ≤ 1 ∧ (rd = false → seen = 0)
  | .failing _ _ _ | .settleOk _ _ _ _ _ | .settleErr _ _ _ _ _ _ => False
  | _ => n ≤ 1

theorem Spent.le {n : Nat} {u : St κ ο χ} (h : Spent n u) : n ≤ 1 := by
  unfold Spent at h
  split at h <;> first | omega | exact h.elim

theorem starts_append (xs ys : List (Label κ ο χ)) : starts (xs ++ ys) = starts xs + starts ys := by
  induction xs with
  | nil => simp [starts]
  | cons l xs ih => cases l <;> simp [starts, ih] <;> omega

theorem spent_step [DecidableEq κ] {c : Cfg κ} {u u' : St κ ο χ} {l : Label κ ο χ} {n : Nat} (hlast : u.watch.getLast? = some c.abortAll) (hs : Spent n u) (hf : ∀ r, l ≠ .finish r) (h : step c u l = some u') :
    Spent (n + starts [l]) u' := by
  unfold Spent at hs ⊢
  cases l <;> simp only [step] at h <;> (repeat' split at h) <;> simp only [Option.some.injEq, reduceCtorEq] at h <;> try subst h
  all_goals simp only [starts, Nat.add_zero]
  all_goals first
    | exact hs
    | (have e := ‹u.pc = _›
       simp only [e] at hs <;> first | exact hs | exact hs.elim | exact hs.1 | omega | exact (hf _ rfl).elim | exact ⟨by omega, by simp⟩)
    | exact Spent.le (u := u) hs

end Worker

namespace System
open Retry

section
variable {κ : Type} {σ ℓ : κ → Type} {T O ε χ ω : Type} [DecidableEq κ] {cl : (j : κ) → Client (σ j) (ℓ j) T (Except ε O)} {cfg : Worker.Cfg κ} {exec : ω → T → Except (OpError χ) O}
  {text : OpError χ → ε}

/-- The step of a worker in a step of the system. -/
theorem worker_label {s s' : St κ σ T O ε χ} {l : Label κ ℓ O χ ω} (h : step cl cfg exec text s l = some s') (w : Nat) :
    s'.worker w = s.worker w ∨ ∃ wl, Worker.step cfg (s.worker w) wl = some (s'.worker w) ∧
      (l = .work w wl ∧ plain wl = true ∨ l = .work w wl ∧ (wl = .pubOk ∨ wl = .pubErr) ∨ (∃ k m, l = .deliver w k ∧ s.queue[k]? = some m ∧ wl = .deliver m.key) ∨ ∃ x r, l = .finish w x ∧ wl = .finish r) := by
  cases l with
  | lead j l =>
    simp only [step] at h
    split at h <;> simp only [Option.some.injEq, reduceCtorEq] at h
    subst h; exact .inl rfl
  | deliver w' k =>
    simp only [step] at h
    split at h <;> try simp only [reduceCtorEq] at h
    rename_i m rest hk
    split at h <;> simp only [Option.some.injEq, reduceCtorEq] at h
    rename_i v hv
    subst h
    by_cases hw : w = w'
    · subst hw
      refine .inr ⟨_, by rw [hv]; simp, .inr (.inr (.inl ⟨k, m, rfl, ?_, rfl⟩))⟩
      unfold Fold.takeAt at hk
      split at hk <;> simp at hk
      rw [← hk.1]; assumption
    · exact .inl (by simp [Function.update_of_ne hw])
  | finish w' x =>
    simp only [step] at h
    split at h <;> try simp only [reduceCtorEq] at h
    split at h <;> simp only [Option.some.injEq, reduceCtorEq] at h
    rename_i v hv
    subst h
    by_cases hw : w = w'
    · subst hw
      exact .inr ⟨_, by rw [hv]; simp, .inr (.inr (.inr ⟨x, _, rfl, rfl⟩))⟩
    · exact .inl (by simp [Function.update_of_ne hw])
  | work w' wl =>
    simp only [step] at h
    split at h <;> try simp only [reduceCtorEq] at h
    rename_i h1 h2
    split at h <;> simp only [Option.some.injEq, reduceCtorEq] at h
    rename_i v hv
    subst h
    by_cases hw : w = w'
    · subst hw
      refine .inr ⟨wl, by rw [hv]; simp, ?_⟩
      cases wl <;> first | exact .inl ⟨rfl, rfl⟩ | exact .inr (.inl ⟨rfl, .inl rfl⟩) | exact .inr (.inl ⟨rfl, .inr rfl⟩) | exact (h1 _ rfl).elim | exact (h2 _ rfl).elim
    · exact .inl (by simp [Function.update_of_ne hw])
  | requeue n =>
    simp only [step] at h
    split at h <;> try simp only [reduceCtorEq] at h
    split at h <;> simp only [Option.some.injEq, reduceCtorEq] at h
    subst h; exact .inl rfl

omit [DecidableEq κ] in
theorem OnlyAbortAll.init {ls : List (Label κ ℓ O χ ω)} {l} (h : OnlyAbortAll cfg (ls ++ [l])) : OnlyAbortAll cfg ls := fun w k hm => h w k (by simp [hm])

theorem clean_run (ls : List (Label κ ℓ O χ ω)) (s : St κ σ T O ε χ) (h : run cl cfg exec text (init cl) ls = some s) (ha : OnlyAbortAll cfg ls) (w : Nat) : Worker.Clean cfg (s.worker w) := by
  revert ha
  refine Lts.run_induction (P := fun ls (s : St κ σ T O ε χ) => OnlyAbortAll cfg ls → Worker.Clean cfg (s.worker w)) ?_ ?_ ls s h
  · exact fun _ => Worker.clean_init
  · intro ls l s s' hr ih hst ha
    rcases worker_label hst w with e | ⟨wl, e, hwl⟩
    · rw [e]; exact ih ha.init
    · refine Worker.clean_step (ih ha.init) ?_ e
      rintro k rfl
      rcases hwl with ⟨rfl, _⟩ | ⟨rfl, _⟩ | ⟨_, _, _, _, h⟩ | ⟨_, _, _, h⟩
      · exact ha w k (by simp)
      · exact ha w k (by simp)
      · cases h
      · cases h

theorem heard_run (ls : List (Label κ ℓ O χ ω)) (s : St κ σ T O ε χ) (h : run cl cfg exec text (init cl) ls = some s) (w : Nat) (hh : Heard w ls) : (s.worker w).watch ≠ [] := by
  revert hh
  refine Lts.run_induction (P := fun ls (s : St κ σ T O ε χ) => Heard w ls → (s.worker w).watch ≠ []) ?_ ?_ ls s h
  · intro h; simp [Heard] at h
  · intro ls l s s' hr ih hst hh
    have hmem : Heard w ls ∨ l = .work w .hSend := by simpa [Heard, eq_comm] using hh
    rcases hmem with hm | rfl
    · rcases worker_label hst w with e | ⟨wl, e, _⟩
      · rw [e]; exact ih hm
      · exact (Worker.watch_step e).1 (ih hm)
    · simp only [step] at hst
      split at hst <;> simp only [Option.some.injEq, reduceCtorEq] at hst
      rename_i v hv
      subst hst
      simpa using (Worker.watch_step hv).2 rfl

theorem AfterAbort.init {j : κ} {ls : List (Label κ ℓ O χ ω)} {l} (h : AfterAbort cl cfg exec text j (ls ++ [l])) : AfterAbort cl cfg exec text j ls := by
  rintro pre w k post s m rfl
  exact h pre w k (post ++ [l]) s m (by simp)

theorem Prompt.init {j : κ} {ls : List (Label κ ℓ O χ ω)} {l} (h : Prompt cl cfg exec text j (ls ++ [l])) : Prompt cl cfg exec text j ls := by
  rintro pre w x post s i n r rfl
  exact h pre w x (post ++ [l]) s i n r (by simp)

theorem mute_run {j : κ} (ls : List (Label κ ℓ O χ ω)) (s : St κ σ T O ε χ) (h : run cl cfg exec text (init cl) ls = some s) (ha : OnlyAbortAll cfg ls) (hd : AfterAbort cl cfg exec text j ls)
    (hp : Prompt cl cfg exec text j ls) (w : Nat) : Worker.Mute j (s.worker w) := by
  revert ha hd hp
  refine Lts.run_induction (P := fun ls (s : St κ σ T O ε χ) => OnlyAbortAll cfg ls → AfterAbort cl cfg exec text j ls → Prompt cl cfg exec text j ls → Worker.Mute j (s.worker w)) ?_ ?_ ls s h
  · intro _ _ _; simp [init, Worker.init, Worker.Mute]
  · intro ls l s s' hr ih hst ha hd hp
    have ih := ih ha.init hd.init hp.init
    rcases worker_label hst w with e | ⟨wl, e, hwl⟩
    · rw [e]; exact ih
    · refine Worker.mute_step (clean_run ls s hr ha.init w) ih ?_ ?_ e
      · rintro rfl
        rcases hwl with ⟨rfl, h⟩ | ⟨rfl, h⟩ | ⟨k, m, rfl, hm, h⟩ | ⟨_, _, _, h⟩
        · cases h
        · rcases h with h | h <;> cases h
        · simp only [Worker.Label.deliver.injEq] at h
          exact heard_run ls s hr w (hd ls w k [] s m rfl hr hm h.symm)
        · cases h
      · rintro r rfl i seen b hpc
        rcases hwl with ⟨rfl, h⟩ | ⟨rfl, h⟩ | ⟨k, m, _, _, h⟩ | ⟨x, r', rfl, h⟩
        · cases h
        · rcases h with h | h <;> cases h
        · cases h
        · exact hp ls w x [] s i seen b rfl hr hpc

theorem leads_other {j : κ} {ls : List (Label κ ℓ O χ ω)} {l : Label κ ℓ O χ ω} (h : ∀ x, l ≠ .lead j x) : Label.leads j (ls ++ [l]) = Label.leads j ls := by
  rw [Label.leads_append]
  have : Label.leads j [l] = [] := by
    cases l with
    | lead j' x =>
      have hj : j' ≠ j := by rintro rfl; exact h x rfl
      simp [Label.leads, hj]
    | _ => rfl
  rw [this, List.append_nil]

/-- Checks `AfterAbort` position by position (for the examples). -/
def afterAbortB (cl : (j : κ) → Client (σ j) (ℓ j) T (Except ε O)) (cfg : Worker.Cfg κ) (exec : ω → T → Except (OpError χ) O) (text : OpError χ → ε) (j : κ) (ls : List (Label κ ℓ O χ ω)) : Bool :=
  (List.range ls.length).all fun n => match ls[n]?, run cl cfg exec text (init cl) (ls.take n) with
    | some (.deliver w k), some s => match s.queue[k]? with
      | some m => decide (m.key ≠ j) || (ls.take n).any fun l => match l with | .work w' .hSend => decide (w' = w) | _ => false
      | none => true
    | _, _ => true

theorem afterAbort_of {j : κ} {ls : List (Label κ ℓ O χ ω)} (h : afterAbortB cl cfg exec text j ls = true) : AfterAbort cl cfg exec text j ls := by
  intro pre w k post s m hls hs hk hm
  have := List.all_eq_true.1 h pre.length (by simp [hls])
  rw [show ls[pre.length]? = some (.deliver w k) by simp [hls], show ls.take pre.length = pre by simp [hls], hs] at this
  simp only [hk, hm, ne_eq, not_true_eq_false, decide_false, Bool.false_or, List.any_eq_true] at this
  obtain ⟨l, hl, e⟩ := this
  split at e
  · rename_i w'
    exact (of_decide_eq_true e : w' = w) ▸ hl
  · cases e

/-- Checks `Prompt` position by position (for the examples). -/
def promptB (cl : (j : κ) → Client (σ j) (ℓ j) T (Except ε O)) (cfg : Worker.Cfg κ) (exec : ω → T → Except (OpError χ) O) (text : OpError χ → ε) (j : κ) (ls : List (Label κ ℓ O χ ω)) : Bool :=
  (List.range ls.length).all fun n => match ls[n]?, run cl cfg exec text (init cl) (ls.take n) with
    | some (.finish w _), some s => match (s.worker w).pc with
      | .running _ j' seen _ => decide (j' ≠ j) || decide (seen = (s.worker w).watch.length)
      | _ => true
    | _, _ => true

theorem prompt_of {j : κ} {ls : List (Label κ ℓ O χ ω)} (h : promptB cl cfg exec text j ls = true) : Prompt cl cfg exec text j ls := by
  intro pre w x post s i seen r hls hs hp
  have := List.all_eq_true.1 h pre.length (by simp [hls])
  rw [show ls[pre.length]? = some (.finish w x) by simp [hls], show ls.take pre.length = pre by simp [hls], hs] at this
  simpa [hp] using this

/-- No step of job `j`'s leader leaves results it did not find. -/
def Modest (c : Client σ' ℓ' T R) : Prop := ∀ x l rs x' ts rs', c.step x l rs = some (x', ts, rs') → ∀ r ∈ rs', r ∈ rs

theorem silent_run {j : κ} (hcl : Modest (cl j)) (ls : List (Label κ ℓ O χ ω)) (s : St κ σ T O ε χ) (h : run cl cfg exec text (init cl) ls = some s) (ha : OnlyAbortAll cfg ls)
    (hd : AfterAbort cl cfg exec text j ls) (hp : Prompt cl cfg exec text j ls) : s.results j = [] ∧ ∀ d ∈ s.dels, d.msg.key = j → d.answered = false := by
  revert ha hd hp
  refine Lts.run_induction (P := fun ls (s : St κ σ T O ε χ) => OnlyAbortAll cfg ls → AfterAbort cl cfg exec text j ls → Prompt cl cfg exec text j ls →
    s.results j = [] ∧ ∀ d ∈ s.dels, d.msg.key = j → d.answered = false) ?_ ?_ ls s h
  · intro _ _ _; simp [init]
  · intro ls l s s' hr ih hst ha hd hp
    obtain ⟨ih1, ih2⟩ := ih ha.init hd.init hp.init
    have hm := mute_run ls s hr ha.init hd.init hp.init
    have hi := inv_run hr
    cases eff_of_step hi hst with
    | lead j' l x ts rs h =>
      refine ⟨?_, ih2⟩
      by_cases hj : j = j'
      · subst hj
        simp only [Function.update_self]
        exact List.eq_nil_iff_forall_not_mem.2 fun r hr => by simpa [ih1] using hcl _ _ _ _ _ _ h r hr
      · simpa [Function.update_of_ne hj] using ih1
    | deliver w k m a b i v hq hpc hv =>
      refine ⟨ih1, fun d hd hk => ?_⟩
      rcases List.mem_append.1 hd with hd | hd
      · exact ih2 d hd hk
      · rw [List.mem_singleton.1 hd]
    | finish w x d i k n v hd hpc hv => exact ⟨ih1, ih2⟩
    | quiet w l v b hl hv hsl =>
      refine ⟨ih1, fun d hd hk => ?_⟩
      split at hd
      · obtain ⟨n, hn⟩ := List.getElem?_of_mem hd
        rw [settle_get] at hn
        obtain ⟨d0, h1, h2⟩ := Option.map_eq_some_iff.1 hn
        have hd0 := List.mem_of_getElem? h1
        split at h2 <;> subst h2 <;> exact ih2 d0 hd0 hk
      · exact ih2 d hd hk
    | answer w l v d r hpl hpv hdc hdw hans hmay hmay' hl hx =>
      obtain ⟨k, hk, hpc⟩ := Worker.mute_pub (hm w) hpl hpv
      have hkey : d.msg.key = k := by
        obtain ⟨d', h1, h2, h3⟩ := hi w (busy_of_mayAnswer hmay)
        rw [hdc] at h1; cases h1
        rcases hpc with ⟨_, _, _, _, e⟩ | ⟨_, _, _, _, _, e⟩ <;> rw [e] at h3 <;> exact h3.1
      have hne : d.msg.key ≠ j := hkey ▸ hk
      refine ⟨by simpa [Function.update_of_ne (Ne.symm hne)] using ih1, fun d' hd' hk' => ?_⟩
      obtain ⟨n, hn⟩ := List.getElem?_of_mem hd'
      rw [answer_get] at hn
      obtain ⟨d0, h1, h2⟩ := Option.map_eq_some_iff.1 hn
      have hd0 := List.mem_of_getElem? h1
      split at h2 <;> subst h2
      · rename_i e
        rw [← e, hdc] at h1; cases h1
        exact absurd hk' hne
      · exact ih2 d0 hd0 hk'
    | requeue n d hd hf =>
      refine ⟨ih1, fun d' hd' hk => ?_⟩
      obtain ⟨m, hn⟩ := List.getElem?_of_mem hd'
      rw [giveBack_get] at hn
      obtain ⟨d0, h1, h2⟩ := Option.map_eq_some_iff.1 hn
      have hd0 := List.mem_of_getElem? h1
      split at h2 <;> subst h2 <;> exact ih2 d0 hd0 hk

end

section
variable {T O ε ω : Type}

theorem map_modest {α β : Type} {op : ω → α → Except ε β} {enc : Nat × α → Option T} {dec : O → Except ε (Nat × β)} : Modest (mapClient op enc dec) := by
  intro x l rs x' ts rs' h r hr
  obtain ⟨_, _, _, _, _, rfl⟩ := map_step h
  exact mem_left (a := ()) (α := fun _ => α) hr

theorem fold_modest {α : Type} {comb : ω → α → α → Except ε α} {empty : α} {dupErr : ε} {enc : Fold.CTask α → Option T} {dec : O → Except ε (Seg α)} :
    Modest (foldClient comb empty dupErr enc dec) := by
  intro x l rs x' ts rs' h r hr
  obtain ⟨_, _, _, _, _, rfl⟩ := fold_step h
  exact mem_leftF hr

/-- A map that has never received a result. -/
structure MapWaits {α β : Type} (ls : List (MapS.Label α ε ω)) (x : MapS.St α β ε) : Prop where
  outs : ∀ r ∈ x.outs, ∃ e, r = .error e ∧ ∃ l ∈ ls, l.failure = some e
  pending : x.pending = (MapS.inputs ls).length
  closed : x.closed = true → x.sendDone = true
  recvEnded : x.recvEnded = true → (∀ l ∈ ls, l.connected = true) → x.sendDone = true ∧ x.pending = 0
  inner : x.innerEnded = true → ∃ l ∈ ls, l.connected = false
  ended : x.ended = true → x.recvEnded = true

theorem mapWaits_init {α β : Type} : MapWaits ([] : List (MapS.Label α ε ω)) (MapS.init : MapS.St α β ε) := by
  constructor <;> simp [MapS.init, MapS.inputs]

theorem mapWaits_step {α β : Type} {op : ω → α → Except ε β} {enc : Nat × α → Option T} {dec : O → Except ε (Nat × β)} {ls : List (MapS.Label α ε ω)} {x : MapS.St α β ε} {l x' ts rs'}
    (hw : MapWaits ls x) (h : (mapClient op enc dec).step x l [] = some (x', ts, rs')) : MapWaits (ls ++ [l]) x' := by
  obtain ⟨hl, s', hs', rfl, _, _⟩ := map_step h
  obtain ⟨h1, h2, h3, h4, h5, h6⟩ := hw
  have mono : ∀ r ∈ x.outs, ∃ e, r = .error e ∧ ∃ l' ∈ ls ++ [l], l'.failure = some e := fun r hr => by
    obtain ⟨e, he, l', hl', hf⟩ := h1 r hr
    exact ⟨e, he, l', by simp [hl'], hf⟩
  have fail : ∀ e, l.failure = some e → ∀ r ∈ x.outs ++ [.error e], ∃ e, r = .error e ∧ ∃ l' ∈ ls ++ [l], l'.failure = some e := fun e he r hr => by
    rcases List.mem_append.1 hr with hr | hr
    · exact mono r hr
    · exact ⟨e, List.mem_singleton.1 hr, l, by simp, he⟩
  have inner : x.innerEnded = true → ∃ l' ∈ ls ++ [l], l'.connected = false := fun h => by
    obtain ⟨l', hl', hc⟩ := h5 h
    exact ⟨l', by simp [hl'], hc⟩
  have hrec : x.recvEnded = true → (∀ l' ∈ ls ++ [l], l'.connected = true) → x.sendDone = true ∧ x.pending = 0 := fun h hc => h4 h fun l' hl' => hc l' (by simp [hl'])
  have hs' := MapS.stepR_of_step hs'
  cases hs' with
  | item i a hsd hlim =>
    refine ⟨mono, ?_, h3, fun h hc => ?_, inner, h6⟩
    · simp [MapS.inputs_append, MapS.inputs, h2]
    · have := (hrec h hc).1
      simp only at hsd
      rw [this] at hsd; cases hsd
  | recv k r a b _ _ hk => simp at hk
  | recvAckErr k e r a b _ _ hk => simp at hk
  | recvEnd hre hcl hp =>
    refine ⟨mono, by simpa [MapS.inputs_append, MapS.inputs] using h2, h3, fun _ hc => ⟨?_, hp⟩, inner, fun _ => rfl⟩
    rcases hcl with hcl | hcl
    · exact h3 hcl
    · obtain ⟨l', hl', hf⟩ := inner hcl
      rw [hc l' hl'] at hf; cases hf
  | finish hsd hre => exact ⟨mono, by simpa [MapS.inputs_append, MapS.inputs] using h2, h3, hrec, inner, fun _ => hre⟩
  | disconnect => exact ⟨mono, by simpa [MapS.inputs_append, MapS.inputs] using h2, h3, hrec, fun _ => ⟨.disconnect, by simp, rfl⟩, h6⟩
  | inputErr e _ => exact ⟨fail e rfl, by simpa [MapS.inputs_append, MapS.inputs, MapS.sendFail] using h2, fun _ => rfl, fun h hc => ⟨rfl, (hrec h hc).2⟩, inner, h6⟩
  | publishErr k e _ => exact ⟨fail e rfl, by simpa [MapS.inputs_append, MapS.inputs, MapS.sendFail] using h2, fun _ => rfl, fun h hc => ⟨rfl, (hrec h hc).2⟩, inner, h6⟩
  | confirmErr e _ => exact ⟨fail e rfl, by simpa [MapS.inputs_append, MapS.inputs, MapS.sendFail] using h2, fun _ => rfl, fun h hc => ⟨rfl, (hrec h hc).2⟩, inner, h6⟩
  | closeErr e _ _ _ => exact ⟨fail e rfl, by simpa [MapS.inputs_append, MapS.inputs, MapS.sendFail] using h2, fun _ => rfl, fun h hc => ⟨rfl, (hrec h hc).2⟩, inner, h6⟩
  | inputEnd _ _ _ => exact ⟨mono, by simpa [MapS.inputs_append, MapS.inputs] using h2, fun _ => rfl, fun h hc => ⟨rfl, (hrec h hc).2⟩, inner, h6⟩
  | send k t a b _ => exact ⟨mono, by simpa [MapS.inputs_append, MapS.inputs] using h2, h3, hrec, inner, h6⟩
  | confirm _ => exact ⟨mono, by simpa [MapS.inputs_append, MapS.inputs] using h2, h3, hrec, inner, h6⟩
  | exec k w t a' b hk => simp [mapLead] at hl
  | loseTask k t a' b hk => simp [mapLead] at hl
  | loseResult k t a' b hk => simp [mapLead] at hl
  | dupTask k t hk => simp [mapLead] at hl
  | dupResult k t hk => simp [mapLead] at hl

/-- A fold that has never received a result. -/
structure FoldWaits {α : Type} (ls : List (Fold.Label α ε ω)) (x : Fold.St α ε) : Prop where
  count : x.count = (Fold.inputs ls).length
  final : x.final = none
  ok : ∀ v, x.outcome = some (.ok v) → (Fold.inputs ls).length ≤ 1
  err : ∀ e, x.outcome = some (.err e) → ∃ l ∈ ls, l.failure = some e

theorem foldWaits_init {α : Type} : FoldWaits ([] : List (Fold.Label α ε ω)) (Fold.init : Fold.St α ε) := by
  constructor <;> simp [Fold.init, Fold.inputs]

theorem foldWaits_step {α : Type} {comb : ω → α → α → Except ε α} {empty : α} {dupErr : ε} {enc : Fold.CTask α → Option T} {dec : O → Except ε (Seg α)} {ls : List (Fold.Label α ε ω)} {x : Fold.St α ε}
    {l x' ts rs'} (hw : FoldWaits ls x) (h : (foldClient comb empty dupErr enc dec).step x l [] = some (x', ts, rs')) : FoldWaits (ls ++ [l]) x' := by
  obtain ⟨hl, s', hs', rfl, _, _⟩ := fold_step h
  obtain ⟨h1, h2, h3, h4⟩ := hw
  have ho : x.outcome = none := by have := Fold.step_outcome hs'; exact this
  have hs' := Fold.stepR_of_step hs'
  cases hs' with
  | item i a hs =>
    obtain ⟨f1, f2, f3, f4, f5, f6, f7⟩ := Fold.tryDispatch_fields ({ x with tasks := [], results := [], count := x.count + 1, notified := true } : Fold.St α ε) (⟨i, i, a⟩ : Seg α)
    unfold Fold.onItem
    simp only [List.map_nil]
    split
    · constructor <;> simp [h1, h2, ho, Fold.inputs_append, Fold.inputs]
    · exact ⟨f1.trans (by simp [h1, Fold.inputs_append, Fold.inputs]), f6.trans h2, fun v hv => by rw [f7.trans ho] at hv; simp at hv, fun e he => by rw [f7.trans ho] at he; simp at he⟩
  | inputEnd hs =>
    unfold Fold.onInputEnd
    simp only
    split
    · rename_i h0
      have : (Fold.inputs ls).length ≤ 1 := by omega
      constructor <;> simp_all [Fold.inputs_append, Fold.inputs]
    · rename_i h0
      have : (Fold.inputs ls).length ≤ 1 := by omega
      split <;> constructor <;> simp_all [Fold.inputs_append, Fold.inputs]
    · constructor <;> simp_all [Fold.inputs_append, Fold.inputs]
  | inputErr e _ => constructor <;> simp_all [Fold.inputs_append, Fold.inputs, Fold.Label.failure]
  | ioErr e => constructor <;> simp_all [Fold.inputs_append, Fold.inputs, Fold.Label.failure]
  | recv k r rest hn hp => simpa using hp.length_eq
  | finish v hf => simp [h2] at hf
  | disconnect => constructor <;> simp_all [Fold.inputs_append, Fold.inputs]
  | publish k t rest hp => constructor <;> simp_all [Fold.inputs_append, Fold.inputs]
  | exec k w t rest hp => simp [foldLead] at hl
  | loseTask k t rest hp => simp [foldLead] at hl
  | loseResult k t rest hp => simp [foldLead] at hl
  | dupTask k t hp => simp [foldLead] at hl
  | dupResult k t hp => simp [foldLead] at hl

end
end System
end Paladin
