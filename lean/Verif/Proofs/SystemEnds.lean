import Verif.Proofs.SystemLive
/-! # Work without new input ends -/
namespace Paladin
namespace System
open Retry

/-- Work left for a worker. -/
def rank : Worker.Pc κ O χ → Nat
  | .got _ _ => 57
  | .checked _ _ => 56
  | .skipping _ _ | .starting _ _ => 55
  | .running _ _ _ _ => 54
  | .failing _ _ _ => 53
  | .settleOk _ _ _ a p => 1 + (if a then 0 else 1) + (if p then 0 else 40)
  | .settleErr _ _ _ n p q => 1 + (if n then 0 else 1) + (if p then 0 else 40) + (if q then 0 else 1)
  | _ => 0

section
variable {κ : Type} {σ ℓ : κ → Type} {T O ε χ ω : Type} [DecidableEq κ] {cl : (j : κ) → Client (σ j) (ℓ j) T (Except ε O)} {cfg : Worker.Cfg κ} {exec : ω → T → Except (OpError χ) O}
  {text : OpError χ → ε}

/-- `f` bounds the work of a leader that results cause: every step of `int` uses some up. -/
def Measured {σ ℓ T R : Type} (cl : Client σ ℓ T R) (int : ℓ → Bool) (f : σ → Nat) : Prop :=
  ∀ s l rs s' ts rs', int l = true → cl.step s l rs = some (s', ts, rs') → f s' + 58 * ts.length + 31 * rs'.length < f s + 31 * rs.length

def jobWork (f : (j : κ) → σ j → Nat) (s : St κ σ T O ε χ) (j : κ) : Nat := f j (s.lead j) + 31 * (s.results j).length

def total (W : Finset Nat) (K : Finset κ) (f : (j : κ) → σ j → Nat) (s : St κ σ T O ε χ) : Nat :=
  ∑ j ∈ K, jobWork f s j + 58 * s.queue.length + ∑ w ∈ W, rank (s.worker w).pc

theorem sum_update_lt {ι : Type} [DecidableEq ι] {S : Finset ι} {f g : ι → Nat} {i : ι} (hi : i ∈ S) (h : ∀ k, k ≠ i → g k = f k) :
    S.sum g + f i = S.sum f + g i := by
  have e1 : g i + (S.erase i).sum g = S.sum g := Finset.add_sum_erase S g hi
  have e2 : f i + (S.erase i).sum f = S.sum f := Finset.add_sum_erase S f hi
  have e3 : (S.erase i).sum g = (S.erase i).sum f := Finset.sum_congr rfl fun k hk => h k (Finset.ne_of_mem_erase hk)
  omega

theorem sum_update_le {ι : Type} [DecidableEq ι] {S : Finset ι} {f g : ι → Nat} {i : ι} {c : Nat} (h : ∀ k, k ≠ i → g k = f k) (hc : g i ≤ f i + c) :
    S.sum g ≤ S.sum f + c := by
  by_cases hi : i ∈ S
  · have := sum_update_lt hi h; omega
  · have : S.sum g = S.sum f := Finset.sum_congr rfl fun k hk => h k (by rintro rfl; exact hi hk)
    omega

theorem rank_step {v v' : Worker.St κ O χ} {l : Worker.Label κ O χ} (h : Worker.step cfg v l = some v') (hl : routine l = true) :
    rank v'.pc + 1 ≤ rank v.pc ∧ (l = .pubOk ∨ l = .pubErr → rank v'.pc + 40 ≤ rank v.pc) := by
  cases l <;> simp only [routine, Bool.false_eq_true] at hl <;> simp only [Worker.step] at h <;> (repeat' split at h) <;>
    simp only [Option.some.injEq, reduceCtorEq] at h <;> subst h <;> simp_all [rank] <;> (try split) <;> simp_all [rank] <;> (repeat' split) <;> simp_all <;> omega


/-- Only worker `w` changes. -/
theorem rank_sum {W : Finset Nat} {s : St κ σ T O ε χ} {w : Nat} {v : Worker.St κ O χ} (hw : w ∈ W) :
    W.sum (fun w' => rank (Function.update s.worker w v w').pc) + rank (s.worker w).pc = W.sum (fun w' => rank (s.worker w').pc) + rank v.pc := by
  have := sum_update_lt (f := fun w' => rank (s.worker w').pc) (g := fun w' => rank (Function.update s.worker w v w').pc) hw
    (fun k hk => by simp only [Function.update_of_ne hk])
  simpa using this

theorem total_step {W : Finset Nat} {K : Finset κ} {f : (j : κ) → σ j → Nat} {int : (j : κ) → ℓ j → Bool} (hm : ∀ j, Measured (cl j) (int j) (f j))
    (hK : ∀ j l, int j l = true → j ∈ K) {s s' : St κ σ T O ε χ} {l : Label κ ℓ O χ ω} (h : step cl cfg exec text s l = some s')
    (hl : l.moves (fun w => decide (w ∈ W)) int = true) : total W K f s' < total W K f s := by
  cases l with
  | lead j l =>
    simp only [step] at h
    split at h <;> simp only [Option.some.injEq, reduceCtorEq] at h
    rename_i x ts rs hc
    subst h
    have hd := hm j _ _ _ _ _ _ hl hc
    have := sum_update_lt (S := K) (f := fun k => f k (s.lead k) + 31 * (s.results k).length)
      (g := fun k => f k (Function.update s.lead j x k) + 31 * (Function.update s.results j rs k).length) (hK j l hl)
      (fun k hk => by simp only [Function.update_of_ne hk])
    unfold total jobWork
    simp only [List.length_append, List.length_map]
    simp only [Function.update_self] at this
    omega
  | deliver w k =>
    have hw : w ∈ W := by simpa [Label.moves, Label.serves] using hl
    simp only [step] at h
    split at h <;> try simp only [reduceCtorEq] at h
    rename_i m rest hk
    split at h <;> simp only [Option.some.injEq, reduceCtorEq] at h
    rename_i v hv
    subst h
    have hr := rank_sum (s := s) (v := v) hw
    have hq : rest.length + 1 = s.queue.length := by
      have h1 := takeAt_rest hk
      have h2 : k < s.queue.length := by
        unfold Fold.takeAt at hk
        split at hk
        · exact (List.getElem?_eq_some_iff.1 (by assumption)).1
        · simp at hk
      rw [h1, List.length_eraseIdx_of_lt h2]; omega
    have hv' : rank v.pc = 57 ∧ rank (s.worker w).pc = 0 := by
      simp only [Worker.step] at hv
      split at hv <;> simp only [Option.some.injEq, reduceCtorEq] at hv
      subst hv; simp_all [rank]
    unfold total jobWork
    simp only
    omega
  | finish w x =>
    have hw : w ∈ W := by simpa [Label.moves, Label.serves] using hl
    simp only [step] at h
    split at h <;> try simp only [reduceCtorEq] at h
    split at h <;> simp only [Option.some.injEq, reduceCtorEq] at h
    rename_i v hv
    subst h
    have hr := rank_sum (s := s) (v := v) hw
    have hv' : rank v.pc < rank (s.worker w).pc := by
      simp only [Worker.step] at hv
      split at hv <;> simp only [Option.some.injEq, reduceCtorEq] at hv
      subst hv; simp only; split <;> simp_all [rank]
    unfold total jobWork
    simp only
    omega
  | work w l =>
    obtain ⟨hw, hrt⟩ : w ∈ W ∧ routine l = true := by simpa [Label.moves, Label.serves] using hl
    obtain ⟨v, hv, rfl⟩ : ∃ v, Worker.step cfg (s.worker w) l = some v ∧ s' = { effect text s w l with worker := Function.update s.worker w v } := by
      cases l <;> simp only [routine, Bool.false_eq_true] at hrt <;> simp only [step] at h <;> split at h <;> simp only [Option.some.injEq, reduceCtorEq] at h <;>
        exact ⟨_, by assumption, h.symm⟩
    have hr := rank_sum (s := s) (v := v) hw
    obtain ⟨r1, r2⟩ := rank_step hv hrt
    have hsum : ∀ (k : κ) (r : Except ε O), K.sum (fun j => f j (s.lead j) + 31 * (Function.update s.results k (s.results k ++ [r]) j).length) ≤
        K.sum (fun j => f j (s.lead j) + 31 * (s.results j).length) + 31 := by
      intro k r
      refine sum_update_le (i := k) (fun j hj => by simp only [Function.update_of_ne hj]) ?_
      simp only [Function.update_self, List.length_append, List.length_singleton]; omega
    unfold total jobWork effect
    split
    all_goals try (simp only; omega)
    · have r2 := r2 (.inl rfl)
      simp only
      have := hsum (by assumption) (.ok (by assumption))
      omega
    · have r2 := r2 (.inr rfl)
      simp only
      have := hsum (by assumption) (.error (text (by assumption)))
      omega
  | requeue n => simp [Label.moves, Label.serves] at hl

theorem pc_update {g : Nat → Worker.St κ O χ} {w : Nat} {v : Worker.St κ O χ} (h : v.pc = (g w).pc) (w' : Nat) : (Function.update g w v w').pc = (g w').pc := by
  by_cases hw : w' = w
  · subst hw; simpa using h
  · rw [Function.update_of_ne hw]

theorem total_idle {W : Finset Nat} {K : Finset κ} {f : (j : κ) → σ j → Nat} {s s' : St κ σ T O ε χ} {l : Label κ ℓ O χ ω} (h : step cl cfg exec text s l = some s')
    (hl : l.idles = true) : total W K f s' = total W K f s := by
  unfold Label.idles at hl
  split at hl <;> simp only [Bool.false_eq_true] at hl
  all_goals
    simp only [step] at h
    split at h <;> simp only [Option.some.injEq, reduceCtorEq] at h
    rename_i hv
    subst h
    simp only [Worker.step] at hv
    split at hv <;> simp only [Option.some.injEq, reduceCtorEq] at hv
    subst hv
    unfold total jobWork
    congr 1
    refine Finset.sum_congr rfl fun w' _ => ?_
    refine congrArg rank ?_
    exact pc_update (g := s.worker) (by rfl) w'

theorem total_run {W : Finset Nat} {K : Finset κ} {f : (j : κ) → σ j → Nat} {int : (j : κ) → ℓ j → Bool} (hm : ∀ j, Measured (cl j) (int j) (f j))
    (hK : ∀ j l, int j l = true → j ∈ K) {s s' : St κ σ T O ε χ} {ls : List (Label κ ℓ O χ ω)} (h : run cl cfg exec text s ls = some s')
    (hl : ∀ l ∈ ls, l.moves (fun w => decide (w ∈ W)) int = true ∨ l.idles = true) :
    (ls.filter fun l => l.moves (fun w => decide (w ∈ W)) int).length + total W K f s' ≤ total W K f s := by
  induction ls generalizing s with
  | nil => cases h; simp
  | cons l ls ih =>
    obtain ⟨s1, h1, h2⟩ := Lts.run_cons.1 h
    have := ih h2 fun l hl' => hl l (by simp [hl'])
    rw [List.filter_cons]
    split
    · rename_i hmv
      have := total_step hm hK h1 hmv
      simp only [List.length_cons]; omega
    · rename_i hmv
      have := total_idle (W := W) (K := K) (f := f) h1 ((hl l (by simp)).resolve_left hmv)
      omega

/-! ## The directives -/

def mapWork {α β : Type} (s : MapS.St α β ε) : Nat := 60 * s.inflight.length + s.unconf + (if s.recvEnded then 0 else 1) + (if s.ended then 0 else 1)

def foldWork {α : Type} (s : Fold.St α ε) : Nat := 30 * s.q.length + 59 * s.outbox.length + (if s.outcome.isSome then 0 else 1)

theorem takeAt_length {β : Type} {l rest : List β} {k : Nat} {x : β} (h : Fold.takeAt l k = some (x, rest)) : rest.length + 1 = l.length := by
  have h1 := takeAt_rest h
  have h2 : k < l.length := by
    unfold Fold.takeAt at h
    split at h
    · exact (List.getElem?_eq_some_iff.1 (by assumption)).1
    · simp at h
  rw [h1, List.length_eraseIdx_of_lt h2]; omega

theorem measured_map {α β : Type} {op : ω → α → Except ε β} {enc : Nat × α → Option T} {dec : O → Except ε (Nat × β)} :
    Measured (mapClient op enc dec) MapS.Label.internal mapWork := by
  intro s l rs s' ts rs' hl h
  obtain ⟨hml, m, hm, rfl, hts, rfl⟩ := map_step h
  have hts := congrArg List.length hts
  simp only [List.length_map] at hts
  cases l with
  | send k =>
    simp only [MapS.step] at hm
    (repeat' split at hm) <;> simp only [Option.some.injEq, reduceCtorEq] at hm
    rename_i hk
    have := takeAt_length hk
    subst hm
    simp_all [mapWork, mapLeft]; omega
  | confirm =>
    simp only [MapS.step] at hm
    (repeat' split at hm) <;> simp only [Option.some.injEq, reduceCtorEq] at hm
    subst hm
    simp_all [mapWork, mapLeft]; omega
  | recv k =>
    simp only [MapS.step] at hm
    (repeat' split at hm) <;> simp only [Option.some.injEq, reduceCtorEq] at hm
    rename_i hk
    have h1 := takeAt_length hk
    have h2 := takeAt_rest hk
    subst hm
    rw [h2, List.eraseIdx_map, List.length_map, List.length_map] at h1
    simp_all [mapWork, mapLeft]; omega
  | recvEnd =>
    simp only [MapS.step] at hm
    (repeat' split at hm) <;> simp only [Option.some.injEq, reduceCtorEq] at hm
    subst hm
    simp_all [mapWork, mapLeft]
  | finish =>
    simp only [MapS.step] at hm
    (repeat' split at hm) <;> simp only [Option.some.injEq, reduceCtorEq] at hm
    subst hm
    simp_all [mapWork, mapLeft]
  | exec k x => simp [mapLead] at hml
  | _ => simp [MapS.Label.internal] at hl

theorem acquire_length {α : Type} (q : CQueue α) (x : Seg α) :
    match q.acquire x with
    | (some _, q') => q'.length + 1 ≤ q.length
    | (none, q') => q'.length ≤ q.length + 1 := by
  have hrem : ∀ e ∈ q, (CQueue.remove q e.lo).length + 1 ≤ q.length := by
    intro e he
    have : (CQueue.remove q e.lo).length < q.length := by
      unfold CQueue.remove
      rw [List.length_filter_lt_length_iff_exists]
      exact ⟨e, he, by simp⟩
    omega
  have hq : ∀ (q : CQueue α), (q.queue x).length ≤ q.length + 1 := by
    intro q
    induction q with
    | nil => simp [CQueue.queue]
    | cons z zs ih => simp only [CQueue.queue]; split <;> (try split) <;> simp <;> omega
  have htake : ∀ ent e q', (∀ e, ent = some e → e ∈ q) → CQueue.takeIfContiguous q x ent = some (e, q') → q'.length + 1 ≤ q.length := by
    intro ent e q' hm h
    unfold CQueue.takeIfContiguous at h
    split at h <;> try simp only [reduceCtorEq] at h
    split at h <;> simp only [Option.some.injEq, reduceCtorEq, Prod.mk.injEq] at h
    obtain ⟨rfl, rfl⟩ := h
    exact hrem _ (hm _ rfl)
  unfold CQueue.acquire CQueue.findContiguous
  cases h1 : CQueue.takeIfContiguous q x (CQueue.rangeFromNext q x.lo) with
  | some p => exact htake _ _ _ (fun e he => List.mem_of_find?_eq_some he) h1
  | none =>
    cases h2 : CQueue.takeIfContiguous q x (CQueue.rangeToNextBack q x.lo) with
    | some p => exact htake _ _ _ (fun e he => List.mem_of_mem_filter (List.mem_of_getLast? he)) h2
    | none => exact hq q

theorem dispatch_work {α : Type} (s : Fold.St α ε) (x : Seg α) : 30 * (Fold.tryDispatch s x).q.length + 59 * (Fold.tryDispatch s x).outbox.length ≤
    30 * s.q.length + 59 * s.outbox.length + 30 := by
  have := acquire_length s.q x
  unfold Fold.tryDispatch
  split at this <;> simp_all <;> omega

theorem result_work {α : Type} (dupErr : ε) (s : Fold.St α ε) (r : Fold.Res α ε) : foldWork (Fold.onResult dupErr s r) ≤ foldWork s + 30 ∧ (Fold.onResult dupErr s r).tasks = s.tasks := by
  unfold Fold.onResult
  have hd : ∀ x, foldWork (Fold.tryDispatch s x) ≤ foldWork s + 30 ∧ (Fold.tryDispatch s x).tasks = s.tasks := by
    intro x
    have := dispatch_work s x
    obtain ⟨f1, f2, f3, f4, f5, f6, f7⟩ := Fold.tryDispatch_fields s x
    refine ⟨?_, f4⟩
    unfold foldWork
    rw [f7]
    omega
  split
  · refine ⟨?_, rfl⟩
    simp [foldWork]; omega
  · split
    · split
      · split
        · exact ⟨by simp [foldWork], rfl⟩
        · refine ⟨?_, rfl⟩
          simp [foldWork]; omega
      · exact hd _
    · exact hd _

theorem measured_fold {α : Type} {comb : ω → α → α → Except ε α} {empty : α} {dupErr : ε} {enc : Fold.CTask α → Option T} {dec : O → Except ε (Seg α)} :
    Measured (foldClient comb empty dupErr enc dec) Fold.Label.internal foldWork := by
  intro s l rs s' ts rs' hl h
  obtain ⟨hml, m, hm, rfl, hts, rfl⟩ := fold_step h
  have hts := congrArg List.length hts
  simp only [List.length_map] at hts
  cases l with
  | publish k =>
    simp only [Fold.step] at hm
    (repeat' split at hm) <;> simp only [Option.some.injEq, reduceCtorEq] at hm
    rename_i hk
    have := takeAt_length hk
    subst hm
    simp_all [foldWork, foldLeft]; omega
  | recv k =>
    simp only [Fold.step] at hm
    (repeat' split at hm) <;> simp only [Option.some.injEq, reduceCtorEq] at hm
    rename_i r rest hk
    have h1 := takeAt_length hk
    have h2 := takeAt_rest hk
    subst hm
    rw [h2, List.eraseIdx_map, List.length_map, List.length_map] at h1
    obtain ⟨w1, w2⟩ := result_work dupErr { s with tasks := [], results := rest } r
    rw [w2] at hts
    simp only [foldWork, foldLeft, List.length_nil] at *
    omega
  | finish =>
    simp only [Fold.step] at hm
    (repeat' split at hm) <;> simp only [Option.some.injEq, reduceCtorEq] at hm
    subst hm
    simp_all [foldWork, foldLeft]
  | exec k x => simp [foldLead] at hml
  | _ => simp [Fold.Label.internal] at hl
end
end System
end Paladin
