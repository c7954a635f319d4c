import Verif.Proofs.SystemLoss
import Verif.Proofs.SystemClients
import Verif.Proofs.MapS
import Verif.Proofs.FoldLive
import Verif.Proofs.Fails
/-! # Steady workers finish what they get -/
namespace Paladin
namespace System
open Retry

variable {κ : Type} {σ ℓ : κ → Type} {T O ε χ ω : Type} [DecidableEq κ] {cl : (j : κ) → Client (σ j) (ℓ j) T (Except ε O)} {cfg : Worker.Cfg κ} {exec : ω → T → Except (OpError χ) O}
  {text : OpError χ → ε}

/-- What leaders publish is what workers get. -/
theorem published_run {P : κ → T → Prop} (hP : ∀ j x l rs x' ts rs', (cl j).step x l rs = some (x', ts, rs') → ∀ t ∈ ts, P j t) {s : St κ σ T O ε χ} {ls : List (Label κ ℓ O χ ω)}
    (h : run cl cfg exec text (init cl) ls = some s) : (∀ m ∈ s.queue, P m.key m.task) ∧ ∀ d ∈ s.dels, P d.msg.key d.msg.task := by
  have := Lts.run_inv (P := fun s : St κ σ T O ε χ => Inv exec s ∧ (∀ m ∈ s.queue, P m.key m.task) ∧ ∀ d ∈ s.dels, P d.msg.key d.msg.task) ?_ ?_ h
  · exact this.2
  · exact ⟨inv_init, by simp [init], by simp [init]⟩
  · rintro s l s' ⟨hi, hq, hd⟩ hs
    have he := eff_of_step hi hs
    refine ⟨inv_eff hi he, ?_, ?_⟩
    · intro m hm
      cases he with
      | lead j l x ts rs h =>
        rcases List.mem_append.1 hm with hm | hm
        · exact hq m hm
        · obtain ⟨t, ht, rfl⟩ := List.mem_map.1 hm
          exact hP _ _ _ _ _ _ _ h t ht
      | deliver w k m' a b i v hqq hpc hv =>
        refine hq m ?_
        rw [hqq]
        rcases List.mem_append.1 hm with hm | hm <;> simp [hm]
      | requeue n d hd' hf =>
        rcases List.mem_cons.1 hm with rfl | hm
        · exact hd d (List.mem_of_getElem? hd')
        · exact hq m hm
      | _ => exact hq m hm
    · intro d' hd'
      obtain ⟨n, hn⟩ := List.getElem?_of_mem hd'
      rcases Nat.lt_or_ge n s.dels.length with hlt | hge
      · have h0 := List.getElem?_eq_getElem hlt
        obtain ⟨d1, hd1, hm, _⟩ := del_mono hi he h0
        rw [hn] at hd1; cases hd1
        rw [hm]; exact hd _ (List.getElem_mem hlt)
      · cases he with
        | deliver w k m' a b i v hqq hpc hv =>
          rcases List.mem_append.1 hd' with h | h
          · exact hd _ h
          · simp at h; subst h; exact hq m' (by rw [hqq]; simp)
        | quiet w l v b hl hv hsl =>
          have := (List.getElem?_eq_some_iff.1 hn).1
          cases b <;> simp at this <;> omega
        | _ => have := (List.getElem?_eq_some_iff.1 hn).1; simp at this; omega

/-- A worker to which nothing bad happened. -/
structure Healthy (v : Worker.St κ O χ) : Prop where
  watch : v.watch = []
  flag : v.flag = false
  pc : match v.pc with
    | .waiting | .got _ _ | .checked _ _ | .skipping _ _ | .starting _ _ | .running _ _ _ false | .failing _ _ _ | .settleOk _ _ _ _ _ | .settleErr _ _ _ _ _ _ => True
    | _ => False

theorem healthy_init : Healthy (Worker.init : Worker.St κ O χ) := ⟨rfl, rfl, trivial⟩

theorem healthy_step {v v' : Worker.St κ O χ} {l : Worker.Label κ O χ} (h : Worker.step cfg v l = some v') (hv : Healthy v)
    (hl : routine l = true ∨ (∃ d, l = .tick d) ∨ l = .reap ∨ (∃ k, l = .deliver k) ∨ ∃ r, l = .finish r) : Healthy v' := by
  obtain ⟨h1, h2, h3⟩ := hv
  rcases hl with hl | ⟨d, rfl⟩ | rfl | ⟨k, rfl⟩ | ⟨r, rfl⟩
  · cases l <;> simp only [routine, Bool.false_eq_true] at hl <;> simp only [Worker.step] at h <;> (repeat' split at h) <;>
      simp only [Option.some.injEq, reduceCtorEq] at h <;> subst h <;> exact ⟨h1, h2, by simp_all⟩
  all_goals
    simp only [Worker.step] at h
    (repeat' split at h) <;> simp only [Option.some.injEq, reduceCtorEq] at h <;> subst h <;> exact ⟨h1, h2, by simp_all⟩

/-- The worker has not yet acknowledged or rejected its task. -/
def unsettled : Worker.Pc κ O χ → Bool
  | .got _ _ | .checked _ _ | .skipping _ _ | .starting _ _ | .running _ _ _ _ | .failing _ _ _ | .interrupted _ _ => true
  | .settleOk _ _ _ a _ => !a
  | .settleErr _ _ _ n _ _ => !n
  | _ => false

theorem unsettled_step {v v' : Worker.St κ O χ} {l : Worker.Label κ O χ} (h : Worker.step cfg v l = some v') (hv : Healthy v)
    (hl : routine l = true ∨ (∃ d, l = .tick d) ∨ l = .reap) (hs : settles l = false) (hu : unsettled v.pc = true) : unsettled v'.pc = true := by
  obtain ⟨h1, h2, h3⟩ := hv
  rcases hl with hl | ⟨d, rfl⟩ | rfl
  · cases l <;> simp only [routine, Bool.false_eq_true] at hl <;> simp only [settles, reduceCtorEq] at hs <;> simp only [Worker.step] at h <;> (repeat' split at h) <;>
      simp only [Option.some.injEq, reduceCtorEq] at h <;> subst h <;> simp_all [unsettled]
  all_goals
    simp only [Worker.step] at h
    (repeat' split at h) <;> simp only [Option.some.injEq, reduceCtorEq] at h <;> subst h <;> simp_all [unsettled]

/-- The label a worker goes through. -/
theorem steady_work {W : Nat → Bool} {w : Nat} {l : Worker.Label κ O χ} (h : (Label.work w l : Label κ ℓ O χ ω).steady W = true) :
    W w = true ∧ (routine l = true ∨ (∃ d, l = .tick d) ∨ l = .reap) := by
  unfold Label.steady at h
  split at h <;> simp_all [Label.serves]

structure Steady (W : Nat → Bool) (s : St κ σ T O ε χ) : Prop where
  healthy : ∀ w, Healthy (s.worker w)
  away : ∀ w, W w = false → (s.worker w).pc = .waiting
  kept : ∀ d ∈ s.dels, d.fate ≠ .returned
  held : ∀ n d, s.dels[n]? = some d → d.fate = .held → s.cur d.worker = n ∧ unsettled (s.worker d.worker).pc = true

theorem steady_step {W : Nat → Bool} {s s' : St κ σ T O ε χ} {l : Label κ ℓ O χ ω} (hi : Inv exec s) (hw : Steady W s) (h : step cl cfg exec text s l = some s')
    (hl : l.steady W = true) : Steady W s' := by
  obtain ⟨h1, h2, h3, h4⟩ := hw
  have hworker := worker_of_step h
  have he := eff_of_step hi h
  constructor
  · intro w
    rcases hworker w with e | ⟨wl, hst, e⟩
    · rw [e]; exact h1 w
    · refine healthy_step hst (h1 w) ?_
      rcases e with rfl | e | e
      · rcases (steady_work hl).2 with h | h | h <;> simp [h]
      · exact .inr (.inr (.inr (.inl e)))
      · exact .inr (.inr (.inr (.inr e)))
  · intro w hW
    cases he with
    | lead j l x ts rs h => exact h2 w hW
    | deliver w' k m a b i v hq hpc hv =>
      have : W w' = true := hl
      have hne : w ≠ w' := by rintro rfl; simp [hW] at this
      simp only [Function.update_of_ne hne]; exact h2 w hW
    | finish w' x d i k n v hd hpc hv =>
      have : W w' = true := hl
      have hne : w ≠ w' := by rintro rfl; simp [hW] at this
      simp only [Function.update_of_ne hne]; exact h2 w hW
    | quiet w' l v b hp hst hb =>
      have := (steady_work hl).1
      have hne : w ≠ w' := by rintro rfl; simp [hW] at this
      simp only [Function.update_of_ne hne]; exact h2 w hW
    | answer w' l v d r hp hst =>
      have := (steady_work hl).1
      have hne : w ≠ w' := by rintro rfl; simp [hW] at this
      simp only [Function.update_of_ne hne]; exact h2 w hW
    | requeue n d hd hf => exact h2 w hW
  · intro d' hd'
    cases he with
    | lead j l x ts rs h => exact h3 d' hd'
    | deliver w' k m a b i v hq hpc hv =>
      rcases List.mem_append.1 hd' with h | h
      · exact h3 d' h
      · simp at h; subst h; simp
    | finish w' x d i k n v hd hpc hv => exact h3 d' hd'
    | quiet w' l v b hp hst hb =>
      cases b with
      | false => exact h3 d' hd'
      | true =>
        obtain ⟨n, hn⟩ := List.getElem?_of_mem hd'
        simp only [if_true, settle_get, Option.map_eq_some_iff] at hn
        obtain ⟨d0, hd0, rfl⟩ := hn
        have := h3 d0 (List.mem_of_getElem? hd0)
        split
        · cases hf : d0.fate <;> simp_all [Fate.settle]
        · exact this
    | answer w' l v d r hp hst =>
      obtain ⟨n, hn⟩ := List.getElem?_of_mem hd'
      simp only [answer_get, Option.map_eq_some_iff] at hn
      obtain ⟨d0, hd0, rfl⟩ := hn
      have := h3 d0 (List.mem_of_getElem? hd0)
      split <;> exact this
    | requeue n d hd hf => simp [Label.steady] at hl
  · intro n d' hd' hf
    cases he with
    | lead j l x ts rs h => exact h4 n d' hd' hf
    | deliver w' k m a b i v hq hpc hv =>
      simp only [List.getElem?_append] at hd'
      split at hd'
      · obtain ⟨e1, e2⟩ := h4 n d' hd' hf
        have hne : d'.worker ≠ w' := by rintro rfl; simp [hpc, unsettled] at e2
        simp only [Function.update_of_ne hne]; exact ⟨e1, e2⟩
      · rename_i hge
        have hlt := (List.getElem?_eq_some_iff.1 hd').1
        simp at hlt
        have : n = s.dels.length := by omega
        subst this
        simp at hd'
        subst hd'
        simp only [Function.update_self, hv, unsettled]
        simp
    | finish w' x d i k n' v hd hpc hv =>
      obtain ⟨e1, e2⟩ := h4 n d' hd' hf
      refine ⟨e1, ?_⟩
      by_cases hne : d'.worker = w'
      · simp only [hne, Function.update_self, hv]; split <;> simp [unsettled]
      · simp only [Function.update_of_ne hne]; exact e2
    | quiet w' l v b hp hst hb =>
      cases b with
      | false =>
        obtain ⟨e1, e2⟩ := h4 n d' hd' hf
        refine ⟨e1, ?_⟩
        by_cases hne : d'.worker = w'
        · rw [hne] at e2
          simp only [hne, Function.update_self]
          exact unsettled_step hst (h1 w') (steady_work hl).2 hb.symm e2
        · simp only [Function.update_of_ne hne]; exact e2
      | true =>
        simp only [if_true, settle_get, Option.map_eq_some_iff] at hd'
        obtain ⟨d0, hd0, rfl⟩ := hd'
        by_cases hcn : s.cur w' = n
        · rw [if_pos hcn] at hf
          cases hf0 : d0.fate <;> simp_all [Fate.settle]
        · rw [if_neg hcn] at hf ⊢
          obtain ⟨e1, e2⟩ := h4 n d0 hd0 hf
          have hne : d0.worker ≠ w' := by rintro rfl; exact hcn e1
          simp only [Function.update_of_ne hne]; exact ⟨e1, e2⟩
    | answer w' l v d r hp hst =>
      simp only [answer_get, Option.map_eq_some_iff] at hd'
      obtain ⟨d0, hd0, rfl⟩ := hd'
      have hf0 : d0.fate = .held := by split at hf <;> exact hf
      have hw0 : (if s.cur w' = n then { d0 with answered := true } else d0).worker = d0.worker := by split <;> rfl
      rw [hw0]
      obtain ⟨e1, e2⟩ := h4 n d0 hd0 hf0
      refine ⟨e1, ?_⟩
      by_cases hne : d0.worker = w'
      · rw [hne] at e2
        simp only [hne, Function.update_self]
        exact unsettled_step hst (h1 w') (steady_work hl).2 (by rcases hp with rfl | rfl <;> rfl) e2
      · simp only [Function.update_of_ne hne]; exact e2
    | requeue n d hd hf => simp [Label.steady] at hl

theorem steady_run {W : Nat → Bool} {s : St κ σ T O ε χ} {ls : List (Label κ ℓ O χ ω)} (h : run cl cfg exec text (init cl) ls = some s) :
    (∀ l ∈ ls, l.steady W = true) → Steady W s := by
  refine Lts.run_induction (P := fun ls s => (∀ l ∈ ls, l.steady W = true) → Steady W s) ?_ ?_ ls s h
  · exact fun _ => ⟨fun _ => healthy_init, fun _ _ => rfl, by simp [init], by simp [init]⟩
  · intro ls l s s' hr ih hst hl
    exact steady_step (inv_run hr) (ih fun l hl' => hl l (by simp [hl'])) hst (hl l (by simp))

/-- A healthy worker with a task can go on. -/
theorem healthy_progress [Inhabited ω] {W : Nat → Bool} {s : St κ σ T O ε χ} {w : Nat} (hi : Inv exec s) (hh : Healthy (s.worker w)) (hW : W w = true)
    (hstuck : ∀ l : Label κ ℓ O χ ω, l.serves W = true → (∀ w k, l ≠ .deliver w k) → step cl cfg exec text s l = none) : (s.worker w).pc = .waiting := by
  have hwork : ∀ l, routine l = true → Worker.step cfg (s.worker w) l = none := by
    intro l hl
    have := hstuck (.work w l) (by simp [Label.serves, hW, hl]) nofun
    cases l <;> simp only [routine, Bool.false_eq_true] at hl <;> simp only [step] at this <;> split at this <;> simp_all
  have h3 := hh.pc
  have h2 := hh.flag
  cases hpc : (s.worker w).pc with
  | waiting => rfl
  | got i k => have := hwork .checkFlag rfl; simp [Worker.step, hpc] at this
  | checked i k => have := hwork .checkTerm rfl; simp [Worker.step, hpc] at this
  | skipping i k => have := hwork .skipNack rfl; simp [Worker.step, hpc] at this
  | starting i k => have := hwork .start rfl; simp [Worker.step, hpc] at this
  | running i k n b =>
    rw [hpc] at h3
    cases b with
    | true => simp at h3
    | false =>
      obtain ⟨d, hd, _⟩ := hi w (by rw [hpc]; rfl)
      have := hstuck (.finish w default) hW nofun
      simp [step, hd, Worker.step, hpc] at this
  | failing i k e =>
    have := hwork .mark rfl
    simp only [Worker.step, hpc] at this
    split at this <;> simp at this
  | settleOk i k o a p =>
    cases a with
    | false => have := hwork .ack rfl; simp [Worker.step, hpc] at this
    | true =>
      cases p with
      | false => have := hwork .pubOk rfl; simp [Worker.step, hpc] at this
      | true => have := hwork .settled rfl; simp [Worker.step, hpc] at this
  | settleErr i k e n p q =>
    cases n with
    | false => have := hwork .nack rfl; simp [Worker.step, hpc] at this
    | true =>
      cases p with
      | false => have := hwork .pubErr rfl; simp [Worker.step, hpc] at this
      | true =>
        cases q with
        | false => have := hwork .pubAbort rfl; simp [Worker.step, hpc] at this
        | true => have := hwork .settled rfl; simp [Worker.step, hpc] at this
  | _ => simp [hpc] at h3

/-- When steady workers can do nothing more, every task has been taken and every delivery of a job whose executions do not fail has been answered. -/
theorem steady_idle [Inhabited ω] {W : Nat → Bool} {s : St κ σ T O ε χ} {ls : List (Label κ ℓ O χ ω)} {j : κ} (h : run cl cfg exec text (init cl) ls = some s)
    (hl : ∀ l ∈ ls, l.steady W = true) (hW : ∃ w, W w = true) (hf : NeverFails exec j s)
    (hstuck : ∀ l : Label κ ℓ O χ ω, l.serves W = true → step cl cfg exec text s l = none) :
    s.queue = [] ∧ (∀ w, (s.worker w).pc = .waiting) ∧ ∀ d ∈ s.dels, d.msg.key = j → d.fate = .settled ∧ d.answered = true := by
  have hi := inv_run h
  obtain ⟨h1, h2, h3, h4⟩ := steady_run h hl
  have hpc : ∀ w, (s.worker w).pc = .waiting := by
    intro w
    cases hw : W w with
    | false => exact h2 w hw
    | true => exact healthy_progress hi (h1 w) hw fun l hl _ => hstuck l hl
  have hq : s.queue = [] := by
    obtain ⟨w, hw⟩ := hW
    cases hq : s.queue with
    | nil => rfl
    | cons m q =>
      have := hstuck (.deliver w 0) hw
      simp [step, hq, Fold.takeAt, Worker.step, hpc w] at this
  refine ⟨hq, hpc, fun d hd hk => ?_⟩
  obtain ⟨n, hn⟩ := List.getElem?_of_mem hd
  have hnl := (calm_run h (fun l hm => ?_) hf).2 n d hn hk
  · have hret := h3 d hd
    have hheld : d.fate ≠ .held := fun hf => by
      have := (h4 n d hn hf).2
      simp [hpc, unsettled] at this
    have hs : d.fate = .settled := by cases hf : d.fate <;> simp_all
    refine ⟨hs, ?_⟩
    cases ha : d.answered with
    | true => rfl
    | false => exact absurd ⟨hs, ha, by simp [active, hpc, mayAnswer]⟩ hnl
  · have := hl l hm
    unfold Label.calm
    split <;> simp_all [Label.steady, Label.serves, routine]

theorem bag_idle {s : St κ σ T O ε χ} {j : κ} (hq : s.queue = []) (hd : ∀ d ∈ s.dels, d.msg.key = j → d.fate = .settled ∧ d.answered = true) (c : Nat → Bool) : bag j c s = 0 := by
  unfold bag
  rw [hq]
  have : ∀ n ∈ Finset.range s.dels.length, tokM j c s n = 0 := by
    intro n _
    unfold tokM
    cases h : s.dels[n]? with
    | none => rfl
    | some d =>
      simp only
      split
      · rename_i hk
        obtain ⟨e1, e2⟩ := hd d (List.mem_of_getElem? h) hk.1
        simp [tok, e1, e2] at hk
      · rfl
  rw [Finset.sum_eq_zero this]
  simp [ofJob]

/-- Then the job alone has no task left either. -/
theorem job_idle [Inhabited ω] {W : Nat → Bool} {s : St κ σ T O ε χ} {ls : List (Label κ ℓ O χ ω)} {j : κ} (h : run cl cfg exec text (init cl) ls = some s)
    (hl : ∀ l ∈ ls, l.steady W = true) (hW : ∃ w, W w = true) (hf : NeverFails exec j s)
    (hstuck : ∀ l : Label κ ℓ O χ ω, l.serves W = true → step cl cfg exec text s l = none) :
    ∃ jls J, Job.run (cl j) (outcome exec text) (Job.init (cl j)) jls = some J ∧ J.lead = s.lead j ∧ J.results = s.results j ∧ J.tasks = [] ∧
      JobLabel.leads jls = Label.leads j ls ∧ (∀ l ∈ jls, l.dups = false) ∧ (∀ l ∈ jls, l.loses = false) := by
  obtain ⟨hq, hpc, hd⟩ := steady_idle h hl hW hf hstuck
  obtain ⟨jls, ⟨J, h1, h2, h3, h4⟩, h5, h6, h7⟩ := sim_run h j (fun _ => false)
  rw [bag_idle hq hd] at h3
  refine ⟨jls, J, h1, h2, h4, by simpa using h3, h5, h6 (fun _ => rfl) ?_, h7 ?_⟩
  · exact fun d hm _ => (steady_run h hl).kept d hm
  · intro n d hn hk hlost
    have := (hd d (List.mem_of_getElem? hn) hk).2
    rw [hlost.2.1] at this
    simp at this

/-! ## Directives alone -/

theorem errs_nil {outs : List (MapS.Item β ε)} (h : ∀ e, .error e ∉ outs) : MapS.errs outs = [] := by
  induction outs with
  | nil => rfl
  | cons r o ih =>
    cases r with
    | ok x => exact ih fun e he => h e (by simp [he])
    | error e => exact absurd (by simp) (h e)

theorem no_errs {op : ω → α → Except ε β} {ls : List (MapS.Label α ε ω)} (hop : ∀ p ∈ MapS.inputs ls, ∀ x, ∃ u, op x p.2 = .ok u) {m : MapS.St α β ε}
    (h : MapS.run op MapS.init ls = some m) (hl : ∀ l ∈ ls, l.reliable = true) : MapS.errs m.outs = [] := by
  refine errs_nil fun e he => ?_
  rcases (MapS.from_run ls m h).out e he with ⟨l, h1, h2⟩ | ⟨w, p, h1, h2⟩
  · have := hl l h1
    cases l <;> simp_all [MapS.Label.failure, MapS.Label.reliable]
  · obtain ⟨u, hu⟩ := hop p h1 w
    rw [hu] at h2; simp at h2

theorem leads_split {ℓ : Type} {jls : List (JobLabel ℓ ω)} {p q : List ℓ} {l : ℓ} (h : JobLabel.leads jls = p ++ l :: q) :
    ∃ a b, jls = a ++ .lead l :: b ∧ JobLabel.leads a = p ∧ JobLabel.leads b = q := by
  induction jls generalizing p with
  | nil => simp [JobLabel.leads] at h
  | cons x jls ih =>
    cases x with
    | lead l' =>
      rw [JobLabel.leads] at h
      cases p with
      | nil => simp at h; exact ⟨[], jls, by simp [h.1], rfl, h.2⟩
      | cons l'' p =>
        simp at h
        obtain ⟨a, b, e1, e2, e3⟩ := ih h.2
        exact ⟨.lead l' :: a, b, by simp [e1], by simp [JobLabel.leads, e2, h.1], e3⟩
    | exec k y => obtain ⟨a, b, e1, e2, e3⟩ := ih h; exact ⟨.exec k y :: a, b, by rw [e1]; rfl, e2, e3⟩
    | lose k => obtain ⟨a, b, e1, e2, e3⟩ := ih h; exact ⟨.lose k :: a, b, by rw [e1]; rfl, e2, e3⟩
    | dup k => obtain ⟨a, b, e1, e2, e3⟩ := ih h; exact ⟨.dup k :: a, b, by rw [e1]; rfl, e2, e3⟩

theorem recvs_toFold (jls : List (JobLabel (Fold.Label α ε ω) ω)) : Fold.recvs (jls.map toFold) = Fold.recvs (JobLabel.leads jls) := by
  induction jls with
  | nil => rfl
  | cons x jls ih =>
    cases x with
    | lead l => cases l <;> simp [JobLabel.leads, toFold, Fold.recvs, ih]
    | _ => simp [JobLabel.leads, toFold, Fold.recvs, ih]

theorem inputs_after_end {comb : ω → α → α → Except ε α} {empty : α} {dupErr : ε} {pre post : List (Fold.Label α ε ω)} {s : Fold.St α ε}
    (h : Fold.run comb empty dupErr Fold.init (pre ++ .inputEnd :: post) = some s) : Fold.inputs post = [] := by
  have hno : ∀ i a, .item i a ∉ post := by
    intro i a hm
    obtain ⟨p, q, rfl⟩ := List.append_of_mem hm
    have h' : Fold.run comb empty dupErr Fold.init ((pre ++ .inputEnd :: p) ++ .item i a :: q) = some s := by simpa using h
    obtain ⟨s1, s2, e1, e2, _⟩ := Fold.run_split h'
    have := (Fold.size_run _ s1 e1).1 (by simp)
    simp [Fold.step, this] at e2
  clear h
  induction post with
  | nil => rfl
  | cons l post ih =>
    have := ih fun i a hm => hno i a (by simp [hm])
    cases l with
    | item i a => exact absurd (by simp) (hno i a)
    | _ => exact this

theorem sent_map {op : ω → α → Except ε β} {enc : Nat × α → Option T} {dec : O → Except ε (Nat × β)} {s l rs x' ts rs'} (h : (mapClient op enc dec).step s l rs = some (x', ts, rs')) :
    ∀ t ∈ ts, ∃ u, enc u = some t := by
  obtain ⟨_, s', _, _, h, _⟩ := map_step h
  intro t ht
  have : some t ∈ s'.tasks.map enc := by rw [h]; exact List.mem_map_of_mem ht
  obtain ⟨u, _, hu⟩ := List.mem_map.1 this
  exact ⟨u, hu⟩

theorem sent_fold {comb : ω → α → α → Except ε α} {empty : α} {dupErr : ε} {enc : Fold.CTask α → Option T} {dec : O → Except ε (Seg α)} {s l rs x' ts rs'}
    (h : (foldClient comb empty dupErr enc dec).step s l rs = some (x', ts, rs')) : ∀ t ∈ ts, ∃ u, enc u = some t := by
  obtain ⟨_, s', _, _, h, _⟩ := fold_step h
  intro t ht
  have : some t ∈ s'.tasks.map enc := by rw [h]; exact List.mem_map_of_mem ht
  obtain ⟨u, _, hu⟩ := List.mem_map.1 this
  exact ⟨u, hu⟩

/-- A task sent by the leader of a map was waiting. -/
theorem tasks_of_map {op : ω → α → Except ε β} {s s' : MapS.St α β ε} {l : MapS.Label α ε ω} {rs : List (MapS.Item β ε)} {t : Nat × α} (hl : mapLead l = true)
    (h : MapS.step op { s with tasks := [], results := rs } l = some s') (ht : t ∈ s'.tasks) : t ∈ s.inflight := by
  have h := MapS.stepR_of_step h
  cases h <;> simp_all [mapLead, MapS.sendFail]

/-- A task sent by the leader of a fold was waiting. -/
theorem tasks_of_fold {comb : ω → α → α → Except ε α} {empty : α} {dupErr : ε} {s s' : Fold.St α ε} {l : Fold.Label α ε ω} {rs : List (Fold.Res α ε)} {t : Fold.CTask α}
    (hl : foldLead l = true) (h : Fold.step comb empty dupErr { s with tasks := [], results := rs } l = some s') (ht : t ∈ s'.tasks) : t ∈ s.outbox := by
  cases l <;> simp only [foldLead, Bool.false_eq_true] at hl <;> simp only [Fold.step] at h <;>
    (repeat' split at h) <;> simp only [Option.some.injEq, reduceCtorEq] at h <;> subst h <;>
    simp_all [Fold.onItem, Fold.tryDispatch, Fold.onInputEnd, Fold.onResult]
  all_goals (repeat' split at ht) <;> first | (simp at ht; done) | skip
  all_goals (have := (takeAt_split (by assumption)); obtain ⟨a, b, h1, _⟩ := this; rw [h1]; simp)

theorem bounds_of_asked {R : α → α → α → Prop} {t : Fold.CTask α} {start : Nat} {xs : List α} (h : Fold.Asked R (indexed start xs) t) :
    start ≤ t.lo ∧ t.lo ≤ t.hi ∧ t.hi < start + xs.length := by
  obtain ⟨ys, zs, h1, h2, h3, h4⟩ := h
  have p1 := List.length_pos_of_ne_nil h1.ne_nil
  have hm : ∀ i, t.lo ≤ i → i < t.lo + (ys ++ zs).length → start ≤ i ∧ i < start + xs.length := by
    intro i h5 h6
    have : i ∈ (indexed t.lo (ys ++ zs)).map (·.1) := by rw [Fold.map_fst_indexed]; simp at h6 ⊢; omega
    obtain ⟨p, hp, rfl⟩ := List.mem_map.1 this
    exact Fold.mem_indexed (h4 p hp)
  simp only [List.length_append] at h3 hm
  have := hm t.lo (by omega) (by omega)
  have := hm t.hi (by omega) (by omega)
  omega

theorem bounds_of_task {R : α → α → α → Prop} {recd : List (Nat × α)} {t : Fold.CTask α} (h : Fold.TaskOk R recd t) {start : Nat} {xs : List α} (hr : recd.Perm (indexed start xs)) :
    start ≤ t.lo ∧ t.lo ≤ t.hi ∧ t.hi < start + xs.length := by
  obtain ⟨l, r, hl, hr', hb, rfl⟩ := h
  have v1 := hl.valid
  have v2 := hr'.valid
  have first : ∀ x : Seg α, Fold.SegOk R recd x → start ≤ x.lo ∧ x.hi < start + xs.length := by
    rintro x ⟨ys, _, h2, h3, h4⟩
    have hm : ∀ i, x.lo ≤ i → i < x.lo + ys.length → start ≤ i ∧ i < start + xs.length := by
      intro i h5 h6
      have : i ∈ (indexed x.lo ys).map (·.1) := by rw [Fold.map_fst_indexed]; simp; omega
      obtain ⟨p, hp, rfl⟩ := List.mem_map.1 this
      exact Fold.mem_indexed (hr.subset (h4 p hp))
    exact ⟨(hm x.lo (by omega) (by omega)).1, (hm x.hi (by omega) (by omega)).2⟩
  have := first l hl
  have := first r hr'
  simp only [Before, Seg.Valid] at *
  omega

theorem exists_mapM {β γ : Type} {enc : β → Option γ} {l : List β} (h : ∀ t ∈ l, (enc t).isSome = true) : ∃ ts, l.mapM enc = some ts := by
  induction l with
  | nil => exact ⟨[], rfl⟩
  | cons x l ih =>
    obtain ⟨ts, hts⟩ := ih fun t ht => h t (by simp [ht])
    obtain ⟨y, hy⟩ := Option.isSome_iff_exists.1 (h x (by simp))
    exact ⟨y :: ts, by simp [List.mapM_cons, hts, hy]⟩

theorem none_map {op : ω → α → Except ε β} {enc : Nat × α → Option T} {dec : O → Except ε (Nat × β)} {s l rs} (hl : mapLead l = true) (h : (mapClient op enc dec).step s l rs = none)
    (he : ∀ s' t, MapS.step op { s with tasks := [], results := rs.map fun r => r.bind dec } l = some s' → t ∈ s'.tasks → (enc t).isSome = true) :
    MapS.step op { s with tasks := [], results := rs.map fun r => r.bind dec } l = none := by
  simp only [mapClient, hl, if_true] at h
  split at h
  · rename_i s' hs'
    obtain ⟨ts, hts⟩ := exists_mapM fun t ht => he s' t hs' ht
    simp [hts] at h
  · assumption

theorem none_fold {comb : ω → α → α → Except ε α} {empty : α} {dupErr : ε} {enc : Fold.CTask α → Option T} {dec : O → Except ε (Seg α)} {s l rs} (hl : foldLead l = true)
    (h : (foldClient comb empty dupErr enc dec).step s l rs = none)
    (he : ∀ s' t, Fold.step comb empty dupErr { s with tasks := [], results := rs.map fun r => toRes (r.bind dec) } l = some s' → t ∈ s'.tasks → (enc t).isSome = true) :
    Fold.step comb empty dupErr { s with tasks := [], results := rs.map fun r => toRes (r.bind dec) } l = none := by
  simp only [foldClient, hl, if_true] at h
  split at h
  · rename_i s' hs'
    obtain ⟨ts, hts⟩ := exists_mapM fun t ht => he s' t hs' ht
    simp [hts] at h
  · assumption

theorem none_lead {s : St κ σ T O ε χ} {j : κ} {l : ℓ j} (h : step cl cfg exec text s (.lead j l : Label κ ℓ O χ ω) = none) : (cl j).step (s.lead j) l (s.results j) = none := by
  simp only [step] at h
  split at h <;> simp_all

theorem lead_none {s : St κ σ T O ε χ} {j : κ} {l : ℓ j} (h : (cl j).step (s.lead j) l (s.results j) = none) : step cl cfg exec text s (.lead j l : Label κ ℓ O χ ω) = none := by
  simp only [step, h]

end System
end Paladin
