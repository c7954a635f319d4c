import Verif.Proofs.Abandon
import Verif.Props.SystemLive
/-! # C91: a job that is given up -/
namespace Paladin
namespace System
open Retry

section
variable {κ : Type} {σ ℓ : κ → Type} {T O ε χ ω : Type} [DecidableEq κ] {cl : (j : κ) → Client (σ j) (ℓ j) T (Except ε O)} {cfg : Worker.Cfg κ} {exec : ω → T → Except (OpError χ) O}
  {text : OpError χ → ε}

/-- The tasks of a job, counted: they change only by what its leader publishes. -/
theorem C91_accounts {ls : List (Label κ ℓ O χ ω)} {l : Label κ ℓ O χ ω} {s s' : St κ σ T O ε χ} (h : run cl cfg exec text (init cl) ls = some s) (hs : step cl cfg exec text s l = some s') (j : κ) :
    (∃ x y ts rs, l = .lead j x ∧ (cl j).step (s.lead j) x (s.results j) = some (y, ts, rs) ∧ (owned j s').Perm (owned j s ++ ts)) ∨ ((∀ x, l ≠ .lead j x) ∧ (owned j s').Perm (owned j s)) :=
  owned_step (inv_run h) hs j

/-- **C91**, as far as it holds: a job that is given up gets no new tasks. -/
theorem C91_no_more_partial {ls ls' : List (Label κ ℓ O χ ω)} {s s' : St κ σ T O ε χ} {j : κ} (h : run cl cfg exec text (init cl) ls = some s) (h' : run cl cfg exec text s ls' = some s')
    (hg : GivenUp j ls') : (owned j s').Perm (owned j s) := owned_run (inv_run h) h' hg

/-- **C91** is false: the tasks it had published are not taken back. When healthy workers have come to rest, every one of them has been executed, and its result published, although nobody was there to receive it. -/
theorem C91_still_executed [Inhabited ω] {W : Nat → Bool} {ls ls' : List (Label κ ℓ O χ ω)} {s s' : St κ σ T O ε χ} {j : κ} (h : run cl cfg exec text (init cl) ls = some s)
    (h' : run cl cfg exec text s ls' = some s') (hg : GivenUp j ls') (hl : ∀ l ∈ ls ++ ls', l.steady W = true) (hW : ∃ w, W w = true) (hf : ∀ t ∈ owned j s, ∀ x e, exec x t ≠ .error e)
    (hrest : ∀ l : Label κ ℓ O χ ω, l.serves W = true → step cl cfg exec text s' l = none) : (executed j s').Perm (owned j s) := by
  have hr := Lts.run_append.2 ⟨s, h, h'⟩
  have hp := owned_run (inv_run h) h' hg
  have hk := (steady_run hr hl).kept
  have hnf : NeverFails exec j s' := by
    intro d hd hj x e
    refine hf _ ((hp.mem_iff).1 ?_) x e
    simp only [owned, List.mem_append, List.mem_map, List.mem_filter]
    exact .inr ⟨d, ⟨hd, by simp [hj, hk d hd]⟩, rfl⟩
  obtain ⟨hq, -, hd⟩ := steady_idle hr hl hW hnf hrest
  refine List.Perm.trans ?_ hp
  have : executed j s' = owned j s' := by
    simp only [executed, owned, hq, List.filter_nil, List.map_nil, List.nil_append]
    congr 1
    refine List.filter_congr fun d hm => ?_
    by_cases hj : d.msg.key = j
    · obtain ⟨a, b⟩ := hd d hm hj
      simp [hj, a, b]
    · simp [hj]
  rw [this]

/-- **C91.** And they do come to rest: from any moment on, the workers alone, without any step of a leader, get to that point. -/
theorem C91_comes_to_rest [Inhabited ω] (W : Finset Nat) {ls : List (Label κ ℓ O χ ω)} {s : St κ σ T O ε χ} {j : κ} (h : run cl cfg exec text (init cl) ls = some s)
    (hl : ∀ l ∈ ls, l.steady (fun w => decide (w ∈ W)) = true) (hW : W.Nonempty) (hf : ∀ t ∈ owned j s, ∀ x e, exec x t ≠ .error e) :
    ∃ ls' s', run cl cfg exec text s ls' = some s' ∧ (∀ l ∈ ls', l.serves (fun w => decide (w ∈ W)) = true) ∧ (executed j s').Perm (owned j s) := by
  obtain ⟨ls', s', h1, h2, h3⟩ := settles_down (cl := cl) (cfg := cfg) (exec := exec) (text := text) W s
  refine ⟨ls', s', h1, h2, C91_still_executed h h1 (fun x hx => by simpa [Label.serves] using h2 _ hx) ?_ (by obtain ⟨w, hw⟩ := hW; exact ⟨w, by simpa using hw⟩) hf h3⟩
  intro l hm
  rcases List.mem_append.1 hm with hm | hm
  · exact hl l hm
  · have := h2 l hm
    unfold Label.steady
    split <;> simp_all [Label.serves, routine]

end

namespace Demo

/-- A map of three elements is given up when nothing has been executed. -/
def begun : List Lab := [mapL (.item 0 "a"), mapL (.item 1 "b"), mapL (.item 2 "c"), mapL (.send 0), mapL (.send 0), mapL (.send 0), mapL .confirm]

/-- The workers 0 and 1 go on. -/
def goOn : List Lab := [.deliver 0 0, .deliver 1 0] ++ serve 0 0 ++ serve 1 0 ++ [.deliver 1 0] ++ serve 1 0

/-- The state when it is given up, and the state after that. -/
def mid := (go' begun).get (by decide)
def last := (go' (begun ++ goOn)).get (by decide)

abbrev step' (s : St (Unit ⊕ Bool) (DirSt (fun _ : Unit => String) (fun _ : Unit => String) (fun _ : Bool => Nat) String) Task Out String String) (l : Lab) :=
  step (dirs op comb' (fun _ => 0) "twice" (fun _ t => some (.inl t)) decM (fun _ t => some (.inr t)) decF) cfg exec' text s l

theorem last_work (l : Lab) (hl : l.serves (fun w => w < 2) = true) : step' last l = none := by
  have hq : last.queue = [] := rfl
  have hpc : ∀ w, decide (w < 2) = true → (last.worker w).pc = .waiting := by
    intro w hw
    have : w = 0 ∨ w = 1 := by simp at hw; omega
    rcases this with rfl | rfl <;> rfl
  cases l with
  | lead j l => simp [Label.serves] at hl
  | deliver w k => simp [step', step, hq, Fold.takeAt]
  | finish w x =>
    have := hpc w hl
    simp only [step', step]
    split
    · simp [Worker.step, this]
    · rfl
  | work w l =>
    have hl' : decide (w < 2) = true ∧ routine l = true := by simpa [Label.serves] using hl
    have := hpc w hl'.1
    cases l <;> first | (simp [routine] at hl'; done) | simp [step', step, Worker.step, this]
  | requeue n => simp [Label.serves] at hl

/-- **C91, negation.** The hypotheses of `C91_still_executed` are met, and all three tasks are executed after the map was given up. -/
theorem C91_witness : go' begun = some mid ∧ go' (begun ++ goOn) = some last ∧ GivenUp (.inl ()) goOn ∧ (∀ l ∈ begun ++ goOn, l.steady (fun w => w < 2) = true) ∧
    (∀ t ∈ owned (.inl ()) mid, ∀ x e, exec' x t ≠ .error e) ∧ (∀ l : Lab, l.serves (fun w => w < 2) = true → step' last l = none) ∧ executed (.inl ()) mid = [] ∧
    owned (.inl ()) mid = [.inl (0, "a"), .inl (1, "b"), .inl (2, "c")] ∧ executed (.inl ()) last = [.inl (0, "a"), .inl (1, "b"), .inl (2, "c")] := by
  have ho : owned (.inl ()) mid = [.inl (0, "a"), .inl (1, "b"), .inl (2, "c")] := rfl
  refine ⟨rfl, rfl, ?_, by decide, ?_, last_work, rfl, ho, rfl⟩
  · intro l hl
    simp [goOn, serve] at hl
  · rw [ho]
    intro t ht x e
    simp at ht
    rcases ht with rfl | rfl | rfl <;> simp [exec', exec]

end Demo
end System
end Paladin
