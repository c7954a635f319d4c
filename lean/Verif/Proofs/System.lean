import Verif.Spec.System
import Verif.Proofs.Lts
import Verif.Proofs.MapS
import Mathlib.Algebra.BigOperators.Group.Finset.Basic
import Mathlib.Algebra.Order.Group.Multiset
import Mathlib.Data.Finset.Range
/-! # The whole system refines a job alone -/
namespace Paladin
namespace System
open Retry

variable {κ : Type} {σ ℓ : κ → Type} {T O ε χ ω : Type} [DecidableEq κ] {cl : (j : κ) → Client (σ j) (ℓ j) T (Except ε O)} {cfg : Worker.Cfg κ} {exec : ω → T → Except (OpError χ) O}
  {text : OpError χ → ε}

/-- The loop is between taking a task and asking for the next. -/
def busy : Worker.Pc κ O χ → Bool
  | .waiting | .stopped | .errored | .crashed => false
  | _ => true

/-- What a worker knows about its delivery. -/
def Link (exec : ω → T → Except (OpError χ) O) (d : Del κ T) : Worker.Pc κ O χ → Prop
  | .got _ k | .checked _ k | .skipping _ k | .starting _ k | .running _ k _ _ | .interrupted _ k | .draining _ k => d.msg.key = k ∧ d.answered = false
  | .failing _ k e => d.msg.key = k ∧ d.answered = false ∧ ∃ x, exec x d.msg.task = .error e
  | .settleOk _ k o _ p => d.msg.key = k ∧ d.answered = p ∧ ∃ x, exec x d.msg.task = .ok o
  | .settleErr _ k e _ p _ => d.msg.key = k ∧ (p = false → d.answered = false) ∧ ∃ x, exec x d.msg.task = .error e
  | _ => True

def Inv (exec : ω → T → Except (OpError χ) O) (s : St κ σ T O ε χ) : Prop :=
  ∀ w, busy (s.worker w).pc = true → ∃ d, s.dels[s.cur w]? = some d ∧ d.worker = w ∧ Link exec d (s.worker w).pc

theorem busy_of_mayAnswer {pc : Worker.Pc κ O χ} (h : mayAnswer pc = true) : busy pc = true := by
  cases pc <;> simp_all [mayAnswer, busy]

/-- Worker steps that neither receive a task nor end an execution nor publish a result. -/
def plain : Worker.Label κ O χ → Bool
  | .deliver _ | .finish _ | .pubOk | .pubErr => false
  | _ => true

/-- Worker steps that acknowledge or reject. -/
def settles : Worker.Label κ O χ → Bool
  | .ack | .nack | .skipNack | .intNack => true
  | _ => false

theorem plain_step {v v' : Worker.St κ O χ} {l : Worker.Label κ O χ} (hl : plain l = true) (h : Worker.step cfg v l = some v') :
    (busy v'.pc = true → busy v.pc = true) ∧ (mayAnswer v'.pc = true → mayAnswer v.pc = true) ∧
    (∀ d : Del κ T, busy v'.pc = true → Link exec d v.pc → Link exec d v'.pc) := by
  cases l <;> simp only [plain, Bool.false_eq_true] at hl <;> simp only [Worker.step] at h <;> (repeat' split at h) <;>
    simp only [Option.some.injEq, reduceCtorEq] at h <;> try subst h
  all_goals (try simp_all [busy, mayAnswer, Link])

omit [DecidableEq κ] in
theorem settle_get (dels : List (Del κ T)) (n m : Nat) : (settle dels n)[m]? = (dels[m]?).map fun d =>
    if n = m then { d with fate := d.fate.settle } else d := by
  rw [settle, List.getElem?_modify]; cases dels[m]? <;> simp <;> split <;> simp_all

omit [DecidableEq κ] in
theorem giveBack_get (dels : List (Del κ T)) (n m : Nat) : (giveBack dels n)[m]? = (dels[m]?).map fun d =>
    if n = m then { d with fate := .returned } else d := by
  rw [giveBack, List.getElem?_modify]; cases dels[m]? <;> simp <;> split <;> simp_all

omit [DecidableEq κ] in
theorem answer_get (dels : List (Del κ T)) (n m : Nat) : (answer dels n)[m]? = (dels[m]?).map fun d =>
    if n = m then { d with answered := true } else d := by
  rw [answer, List.getElem?_modify]; cases dels[m]? <;> simp <;> split <;> simp_all

@[simp] theorem settle_length (dels : List (Del κ T)) (n : Nat) : (settle dels n).length = dels.length := by simp [settle]
@[simp] theorem giveBack_length (dels : List (Del κ T)) (n : Nat) : (giveBack dels n).length = dels.length := by simp [giveBack]
@[simp] theorem answer_length (dels : List (Del κ T)) (n : Nat) : (answer dels n).length = dels.length := by simp [answer]

/-- What a step does, without the details of the worker loop. -/
inductive Eff (cl : (j : κ) → Client (σ j) (ℓ j) T (Except ε O)) (exec : ω → T → Except (OpError χ) O) (text : OpError χ → ε) (s : St κ σ T O ε χ) :
    Label κ ℓ O χ ω → St κ σ T O ε χ → Prop
  | lead (j l x ts rs) : (cl j).step (s.lead j) l (s.results j) = some (x, ts, rs) → Eff cl exec text s (.lead j l)
      { s with lead := Function.update s.lead j x, results := Function.update s.results j rs, queue := s.queue ++ ts.map fun t => ⟨j, t⟩ }
  | deliver (w k m a b i v) : s.queue = a ++ m :: b → (s.worker w).pc = .waiting → v.pc = .got i m.key → Eff cl exec text s (.deliver w k)
      { s with queue := a ++ b, dels := s.dels ++ [⟨w, m, .held, false⟩], worker := Function.update s.worker w v,
               cur := Function.update s.cur w s.dels.length }
  | finish (w x d i k n v) : s.dels[s.cur w]? = some d → (s.worker w).pc = .running i k n false →
      v.pc = (match exec x d.msg.task with | .ok o => .settleOk i k o false false | .error e => .failing i k e) → Eff cl exec text s (.finish w x)
      { s with worker := Function.update s.worker w v }
  | quiet (w l v) (b : Bool) : plain l = true → Worker.step cfg (s.worker w) l = some v → b = settles l → Eff cl exec text s (.work w l)
      { s with worker := Function.update s.worker w v, dels := if b then settle s.dels (s.cur w) else s.dels }
  | answer (w l v d r) : (l = .pubOk ∨ l = .pubErr) → Worker.step cfg (s.worker w) l = some v → s.dels[s.cur w]? = some d → d.worker = w → d.answered = false → mayAnswer (s.worker w).pc = true → mayAnswer v.pc = false →
      Link exec { d with answered := true } v.pc → (∃ x, r = outcome exec text x d.msg.task) → Eff cl exec text s (.work w l)
      { s with worker := Function.update s.worker w v, dels := answer s.dels (s.cur w),
               results := Function.update s.results d.msg.key (s.results d.msg.key ++ [r]) }
  | requeue (n d) : s.dels[n]? = some d → d.fate = .held → Eff cl exec text s (.requeue n)
      { s with dels := giveBack s.dels n, queue := d.msg :: s.queue }

theorem eff_of_step {s s' : St κ σ T O ε χ} {l : Label κ ℓ O χ ω} (hi : Inv exec s) (h : step cl cfg exec text s l = some s') :
    Eff (cfg := cfg) cl exec text s l s' := by
  cases l with
  | lead j l =>
    simp only [step] at h
    split at h <;> simp only [Option.some.injEq, reduceCtorEq] at h
    subst h; exact .lead _ _ _ _ _ (by assumption)
  | deliver w k =>
    simp only [step] at h
    split at h <;> try simp only [reduceCtorEq] at h
    rename_i m rest hk
    split at h <;> simp only [Option.some.injEq, reduceCtorEq] at h
    rename_i v hv
    subst h
    obtain ⟨a, b, hq, rfl⟩ := takeAt_split hk
    simp only [Worker.step] at hv
    split at hv <;> simp only [Option.some.injEq, reduceCtorEq] at hv
    exact .deliver w k m a b (s.worker w).next v hq (by assumption) (by subst hv; rfl)
  | finish w x =>
    simp only [step] at h
    split at h <;> try simp only [reduceCtorEq] at h
    rename_i d hd
    split at h <;> simp only [Option.some.injEq, reduceCtorEq] at h
    rename_i v hv
    subst h
    simp only [Worker.step] at hv
    split at hv <;> simp only [Option.some.injEq, reduceCtorEq] at hv
    exact .finish w x d _ _ _ v hd (by assumption) (by subst hv; rfl)
  | work w l =>
    have key : plain l = true → ∀ v, Worker.step cfg (s.worker w) l = some v → some { effect text s w l with worker := Function.update s.worker w v } = some s' →
        Eff (cfg := cfg) cl exec text s (.work w l) s' := by
      intro hl v hv h
      have hq := fun b => Eff.quiet (cl := cl) (exec := exec) (text := text) (s := s) w l v b hl hv
      cases l <;> simp only [plain, Bool.false_eq_true] at hl <;> simp only [effect, Option.some.injEq] at h <;> subst h <;>
        first
        | exact hq true rfl
        | exact hq false rfl
    cases hp : plain l with
    | true =>
      simp only [step] at h
      split at h <;> try simp only [reduceCtorEq] at h
      split at h <;> try simp only [reduceCtorEq] at h
      exact key hp _ (by assumption) h
    | false =>
      cases l <;> simp only [plain, Bool.true_eq_false] at hp <;> simp only [step, reduceCtorEq] at h
      · split at h <;> simp only [Option.some.injEq, reduceCtorEq] at h
        rename_i v hv
        have hv0 := hv
        simp only [Worker.step] at hv
        split at hv <;> simp only [Option.some.injEq, reduceCtorEq] at hv
        rename_i i k o a hpc
        obtain ⟨d, hd, hw, h1, h2, x, h3⟩ := by simpa [hpc, Link] using hi w (by rw [hpc]; rfl)
        subst h
        simp only [effect, hpc]
        rw [← h1]
        refine .answer w _ v d (.ok o) (by simp) hv0 hd hw h2 (by rw [hpc]; rfl) (by subst hv; rfl) (by subst hv; exact ⟨h1, rfl, x, h3⟩) ⟨x, ?_⟩
        simp [outcome, h3, Except.mapError]
      · split at h <;> simp only [Option.some.injEq, reduceCtorEq] at h
        rename_i v hv
        have hv0 := hv
        simp only [Worker.step] at hv
        split at hv <;> simp only [Option.some.injEq, reduceCtorEq] at hv
        rename_i i k o a b hpc
        obtain ⟨d, hd, hw, h1, h2, x, h3⟩ := by simpa [hpc, Link] using hi w (by rw [hpc]; rfl)
        subst h
        simp only [effect, hpc]
        rw [← h1]
        refine .answer w _ v d (.error (text o)) (by simp) hv0 hd hw h2 (by rw [hpc]; rfl) (by subst hv; rfl) (by subst hv; exact ⟨h1, by simp, x, h3⟩) ⟨x, ?_⟩
        simp [outcome, h3, Except.mapError]
  | requeue n =>
    simp only [step] at h
    split at h <;> try simp only [reduceCtorEq] at h
    split at h <;> simp only [Option.some.injEq, reduceCtorEq] at h
    subst h; exact .requeue _ _ (by assumption) (by assumption)

theorem Link.fate {d : Del κ T} {f : Fate} {pc : Worker.Pc κ O χ} (h : Link exec d pc) : Link exec { d with fate := f } pc := by
  cases pc <;> simpa [Link] using h

theorem inv_init : Inv exec (init cl : St κ σ T O ε χ) := fun w h => by simp [init, Worker.init, busy] at h

theorem inv_eff {s s' : St κ σ T O ε χ} {l : Label κ ℓ O χ ω} (hi : Inv exec s) (h : Eff (cfg := cfg) cl exec text s l s') : Inv exec s' := by
  intro w hb
  cases h with
  | lead j l x ts rs h => exact hi w hb
  | deliver w' k m a b i v hq hpc hv =>
    by_cases hw : w = w'
    · subst hw
      simp only [Function.update_self] at hb ⊢
      exact ⟨⟨w, m, .held, false⟩, by simp, rfl, by rw [hv]; exact ⟨rfl, rfl⟩⟩
    · simp only [Function.update_of_ne hw] at hb ⊢
      obtain ⟨d, hd, h1, h2⟩ := hi w hb
      exact ⟨d, by rw [List.getElem?_append_left]; exact hd; exact (List.getElem?_eq_some_iff.1 hd).1, h1, h2⟩
  | finish w' x d i k n v hd hpc hv =>
    by_cases hw : w = w'
    · subst hw
      simp only [Function.update_self] at hb ⊢
      obtain ⟨d', hd', h1, h2⟩ := hi w (by rw [hpc]; rfl)
      rw [hpc] at h2
      rw [hd] at hd'; cases hd'
      refine ⟨d, hd, h1, ?_⟩
      rw [hv]
      cases hx : exec x d.msg.task with
      | ok o => exact ⟨h2.1, h2.2, x, hx⟩
      | error e => exact ⟨h2.1, h2.2, x, hx⟩
    · simp only [Function.update_of_ne hw] at hb ⊢
      exact hi w hb
  | quiet w' l v b hl hv hsl =>
    have hset : ∀ d pc, s.dels[s.cur w]? = some d → d.worker = w → Link exec d pc →
        ∃ d, (if b then settle s.dels (s.cur w') else s.dels)[s.cur w]? = some d ∧ d.worker = w ∧ Link exec d pc := by
      intro d pc hd h1 h2
      cases b with
      | false => exact ⟨d, hd, h1, h2⟩
      | true =>
        simp only [if_true, settle_get, hd, Option.map_some]
        split
        · exact ⟨_, rfl, h1, h2.fate⟩
        · exact ⟨_, rfl, h1, h2⟩
    by_cases hw : w = w'
    · subst hw
      simp only [Function.update_self] at hb ⊢
      obtain ⟨p1, p2, p3⟩ := plain_step (exec := exec) (T := T) hl hv
      obtain ⟨d, hd, h1, h2⟩ := hi w (p1 hb)
      exact hset d _ hd h1 (p3 d hb h2)
    · simp only [Function.update_of_ne hw] at hb ⊢
      obtain ⟨d, hd, h1, h2⟩ := hi w hb
      exact hset d _ hd h1 h2
  | answer w' l v d r hpl hpv hd hdw ha hm hm' hl hx =>
    by_cases hw : w = w'
    · subst hw
      simp only [Function.update_self] at hb ⊢
      refine ⟨{ d with answered := true }, ?_, hdw, hl⟩
      rw [answer_get, hd]; simp
    · simp only [Function.update_of_ne hw] at hb ⊢
      obtain ⟨d', hd', h1, h2⟩ := hi w hb
      refine ⟨d', ?_, h1, h2⟩
      rw [answer_get, hd', Option.map_some, if_neg]
      intro hc
      rw [hc] at hd; rw [hd] at hd'; cases hd'
      exact hw (h1 ▸ hdw ▸ rfl)
  | requeue n d hd hf =>
    obtain ⟨d', hd', h1, h2⟩ := hi w hb
    simp only [giveBack_get, hd', Option.map_some]
    split
    · exact ⟨_, rfl, h1, h2.fate⟩
    · exact ⟨_, rfl, h1, h2⟩

theorem inv_run {s : St κ σ T O ε χ} {ls : List (Label κ ℓ O χ ω)} (h : run cl cfg exec text (init cl) ls = some s) : Inv exec s :=
  Lts.run_inv (P := Inv exec) inv_init (fun _ _ _ hi hs => inv_eff hi (eff_of_step hi hs)) h

/-! ## Tokens -/

/-- The tasks of job `j` that delivery `n` stands for in the job alone. `c n` says whether a delivery that may or may not be executed again is counted. -/
def tok (c : Nat → Bool) (s : St κ σ T O ε χ) (n : Nat) (d : Del κ T) : Bool :=
  match d.fate, d.answered with
  | .held, false => true
  | .held, true => c n
  | .settled, false => active s n d
  | .settled, true => false
  | .returned, false => active s n d && c n
  | .returned, true => false

def tokM (j : κ) (c : Nat → Bool) (s : St κ σ T O ε χ) (n : Nat) : Multiset T :=
  match s.dels[n]? with
  | some d => if d.msg.key = j ∧ tok c s n d = true then {d.msg.task} else 0
  | none => 0

def ofJob (j : κ) (q : List (Msg κ T)) : List T := (q.filter fun m => m.key = j).map (·.task)

def bag (j : κ) (c : Nat → Bool) (s : St κ σ T O ε χ) : Multiset T := ↑(ofJob j s.queue) + ∑ n ∈ Finset.range s.dels.length, tokM j c s n

/-- The other deliveries. -/
def others (j : κ) (c : Nat → Bool) (s : St κ σ T O ε χ) (n : Nat) : Multiset T := ∑ m ∈ (Finset.range s.dels.length).erase n, tokM j c s m

theorem bag_split {j : κ} {c : Nat → Bool} {s : St κ σ T O ε χ} (n : Nat) : bag j c s = ↑(ofJob j s.queue) + (tokM j c s n + others j c s n) := by
  unfold bag others
  by_cases hn : n < s.dels.length
  · rw [Finset.add_sum_erase _ _ (Finset.mem_range.2 hn)]
  · rw [Finset.erase_eq_of_notMem (by simpa using hn)]
    have : tokM j c s n = 0 := by simp [tokM, List.getElem?_eq_none (Nat.le_of_not_lt hn)]
    rw [this, zero_add]

theorem others_congr {j : κ} {c c' : Nat → Bool} {s s' : St κ σ T O ε χ} {n : Nat} (hl : s'.dels.length = s.dels.length)
    (h : ∀ m, m ≠ n → tokM j c' s' m = tokM j c s m) : others j c' s' n = others j c s n := by
  unfold others
  rw [hl]
  exact Finset.sum_congr rfl fun m hm => h m (Finset.ne_of_mem_erase hm)

theorem active_other {s s' : St κ σ T O ε χ} {w m : Nat} {v : Worker.St κ O χ} {d : Del κ T} (hc : s'.cur = s.cur) (hw : s'.worker = Function.update s.worker w v)
    (hm : m ≠ s.cur w) : active s' m d = active s m d := by
  unfold active
  rw [hc, hw]
  by_cases h : d.worker = w
  · subst h; simp [Ne.symm hm]
  · rw [Function.update_of_ne h]

theorem tok_congr {c c' : Nat → Bool} {s s' : St κ σ T O ε χ} {n : Nat} {d : Del κ T} (hc : c' n = c n) (ha : active s' n d = active s n d) :
    tok c' s' n d = tok c s n d := by unfold tok; rw [hc, ha]

theorem tokM_other {j : κ} {c c' : Nat → Bool} {s s' : St κ σ T O ε χ} {w m : Nat} {v : Worker.St κ O χ} (hc : s'.cur = s.cur)
    (hw : s'.worker = Function.update s.worker w v) (hd : s'.dels[m]? = s.dels[m]?) (hm : m ≠ s.cur w) (hcm : c' m = c m) :
    tokM j c' s' m = tokM j c s m := by
  unfold tokM
  rw [hd]
  cases s.dels[m]? with
  | none => rfl
  | some d => simp only [tok_congr hcm (active_other hc hw hm)]

/-! ## The job alone, up to the order of its tasks -/

def Reach {σ ℓ T R ω : Type} (cl : Client σ ℓ T R) (ex : ω → T → R) (jls : List (JobLabel ℓ ω)) (x : σ) (M : Multiset T) (rs : List R) : Prop :=
  ∃ J, Job.run cl ex (Job.init cl) jls = some J ∧ J.lead = x ∧ (J.tasks : Multiset T) = M ∧ J.results = rs

section
variable {R σ ℓ : Type} {cj : Client σ ℓ T R} {ex : ω → T → R} {jls : List (JobLabel ℓ ω)} {x : σ} {M : Multiset T} {rs : List R}

theorem mem_split {l : List T} {t : T} (h : (l : Multiset T) = t ::ₘ M) : ∃ a b, l = a ++ t :: b ∧ ((a ++ b : List T) : Multiset T) = M := by
  have : t ∈ l := by
    have : t ∈ (l : Multiset T) := by rw [h]; simp
    simpa using this
  obtain ⟨a, b, rfl⟩ := List.append_of_mem this
  refine ⟨a, b, rfl, ?_⟩
  have h2 : ((a ++ t :: b : List T) : Multiset T) = t ::ₘ ((a ++ b : List T) : Multiset T) := by
    rw [Multiset.cons_coe]; exact Multiset.coe_eq_coe.2 List.perm_middle
  exact (Multiset.cons_inj_right t).1 (h2.symm.trans h)

theorem takeAt_mid (a b : List T) (t : T) : Fold.takeAt (a ++ t :: b) a.length = some (t, a ++ b) := by
  simp [Fold.takeAt, List.eraseIdx_append_of_length_le]

theorem Reach.execStep {t : T} (h : Reach cj ex jls x (t ::ₘ M) rs) (y : ω) : ∃ k, Reach cj ex (jls ++ [.exec k y]) x M (rs ++ [ex y t]) := by
  obtain ⟨J, h1, h2, h3, h4⟩ := h
  obtain ⟨a, b, e1, e2⟩ := mem_split h3
  refine ⟨a.length, { J with tasks := a ++ b, results := J.results ++ [ex y t] }, Lts.run_snoc.2 ⟨J, h1, ?_⟩, h2, e2, by rw [← h4]⟩
  simp [Job.step, e1, takeAt_mid]

theorem Reach.loseStep {t : T} (h : Reach cj ex jls x (t ::ₘ M) rs) : ∃ k, Reach cj ex (jls ++ [.lose k]) x M rs := by
  obtain ⟨J, h1, h2, h3, h4⟩ := h
  obtain ⟨a, b, e1, e2⟩ := mem_split h3
  refine ⟨a.length, { J with tasks := a ++ b }, Lts.run_snoc.2 ⟨J, h1, ?_⟩, h2, e2, h4⟩
  simp [Job.step, e1, takeAt_mid]

theorem Reach.dupStep {t : T} (h : Reach cj ex jls x (t ::ₘ M) rs) : ∃ k, Reach cj ex (jls ++ [.dup k]) x (t ::ₘ t ::ₘ M) rs := by
  obtain ⟨J, h1, h2, h3, h4⟩ := h
  obtain ⟨a, b, e1, e2⟩ := mem_split h3
  refine ⟨a.length, { J with tasks := J.tasks ++ [t] }, Lts.run_snoc.2 ⟨J, h1, ?_⟩, h2, ?_, h4⟩
  · simp [Job.step, e1]
  · rw [← Multiset.coe_add, h3, add_comm]; rfl

theorem Reach.leadStep {l : ℓ} {x' : σ} {ts : List T} {rs' : List R} (h : Reach cj ex jls x M rs) (hs : cj.step x l rs = some (x', ts, rs')) :
    Reach cj ex (jls ++ [.lead l]) x' (M + ts) rs' := by
  obtain ⟨J, h1, h2, h3, h4⟩ := h
  refine ⟨⟨x', J.tasks ++ ts, rs'⟩, Lts.run_snoc.2 ⟨J, h1, ?_⟩, rfl, ?_, rfl⟩
  · simp [Job.step, h2, h4, hs]
  · rw [← Multiset.coe_add, h3]

end

omit [DecidableEq κ] in
theorem JobLabel.leads_append {ℓ : Type} (a b : List (JobLabel ℓ ω)) : JobLabel.leads (a ++ b) = JobLabel.leads a ++ JobLabel.leads b := by
  induction a with
  | nil => rfl
  | cons x a ih => cases x <;> simp [JobLabel.leads, ih]

theorem Label.leads_append (j : κ) (a b : List (Label κ ℓ O χ ω)) : Label.leads j (a ++ b) = Label.leads j a ++ Label.leads j b := by
  induction a with
  | nil => rfl
  | cons x a ih =>
    cases x <;> simp only [List.cons_append, Label.leads, ih]
    split <;> simp

structure Sim (cl : (j : κ) → Client (σ j) (ℓ j) T (Except ε O)) (exec : ω → T → Except (OpError χ) O) (text : OpError χ → ε) (j : κ) (ls : List (Label κ ℓ O χ ω))
    (s : St κ σ T O ε χ) (c : Nat → Bool) (jls : List (JobLabel (ℓ j) ω)) : Prop where
  reach : Reach (cl j) (outcome exec text) jls (s.lead j) (bag j c s) (s.results j)
  leads : JobLabel.leads jls = Label.leads j ls
  dups : (∀ n, c n = false) → NoReturn j s → ∀ l ∈ jls, l.dups = false
  loses : NoLoss j s → ∀ l ∈ jls, l.loses = false

/-- How a delivery develops in a step. -/
theorem del_mono {s s' : St κ σ T O ε χ} {l : Label κ ℓ O χ ω} (hi : Inv exec s) (h : Eff (cfg := cfg) cl exec text s l s') {n : Nat} {d : Del κ T}
    (hd : s.dels[n]? = some d) : ∃ d', s'.dels[n]? = some d' ∧ d'.msg = d.msg ∧ (d.fate = .returned → d'.fate = .returned) ∧
      (Lost s n d → Lost s' n d') := by
  cases h with
  | lead j l x ts rs h => exact ⟨d, hd, rfl, id, id⟩
  | deliver w k m a b i v hq hpc hv =>
    have hlt := (List.getElem?_eq_some_iff.1 hd).1
    refine ⟨d, by rw [List.getElem?_append_left hlt]; exact hd, rfl, id, ?_⟩
    rintro ⟨h1, h2, h3⟩
    refine ⟨h1, h2, ?_⟩
    simp only [active, Bool.and_eq_false_iff, decide_eq_false_iff_not] at h3 ⊢
    by_cases hw : d.worker = w
    · left; rw [hw, Function.update_self]; omega
    · rw [Function.update_of_ne hw, Function.update_of_ne hw]; exact h3
  | finish w x d' i k n' v hd' hpc hv =>
    refine ⟨d, hd, rfl, id, ?_⟩
    rintro ⟨h1, h2, h3⟩
    refine ⟨h1, h2, ?_⟩
    simp only [active, Bool.and_eq_false_iff, decide_eq_false_iff_not] at h3 ⊢
    by_cases hw : d.worker = w
    · rw [hw] at h3 ⊢; rw [hpc] at h3; left; rcases h3 with h3 | h3
      · exact h3
      · simp [mayAnswer] at h3
    · rw [Function.update_of_ne hw]; exact h3
  | quiet w l v b hl hv hsl =>
    have hact : ∀ (f : Fate) (dels), active s n d = false →
        active { s with worker := Function.update s.worker w v, dels := dels } n { d with fate := f } = false := by
      intro f dels h3
      simp only [active, Bool.and_eq_false_iff, decide_eq_false_iff_not] at h3 ⊢
      by_cases hw : d.worker = w
      · rw [hw, Function.update_self]; rw [hw] at h3
        rcases h3 with h3 | h3
        · exact .inl h3
        · right
          cases hm : mayAnswer v.pc with
          | false => rfl
          | true => rw [(plain_step (exec := exec) (T := T) hl hv).2.1 hm] at h3; simp at h3
      · rw [Function.update_of_ne hw]; exact h3
    cases b with
    | false => exact ⟨d, hd, rfl, id, fun ⟨h1, h2, h3⟩ => ⟨h1, h2, hact d.fate _ h3⟩⟩
    | true =>
      simp only [if_true, settle_get, hd, Option.map_some]
      split
      · exact ⟨_, rfl, rfl, fun h => by simp [h, Fate.settle], fun ⟨h1, h2, h3⟩ => ⟨by simp [h1, Fate.settle], h2, hact _ _ h3⟩⟩
      · exact ⟨_, rfl, rfl, id, fun ⟨h1, h2, h3⟩ => ⟨h1, h2, hact d.fate _ h3⟩⟩
  | answer w l v d' r hpl hpv hd' hdw ha hm hm' hl hx =>
    simp only [answer_get, hd, Option.map_some]
    split
    · rename_i he
      rw [he, hd] at hd'; cases hd'
      refine ⟨_, rfl, rfl, id, ?_⟩
      rintro ⟨h1, h2, h3⟩
      simp [active, hdw, he, hm] at h3
    · rename_i he
      refine ⟨_, rfl, rfl, id, ?_⟩
      rintro ⟨h1, h2, h3⟩
      refine ⟨h1, h2, ?_⟩
      rw [← h3]
      exact active_other rfl rfl (Ne.symm he)
  | requeue n' d' hd' hf =>
    simp only [giveBack_get, hd, Option.map_some]
    split
    · rename_i he; subst he; rw [hd] at hd'; cases hd'
      exact ⟨_, rfl, rfl, fun _ => rfl, fun h => by rw [h.1] at hf; simp at hf⟩
    · exact ⟨_, rfl, rfl, id, fun h => ⟨h.1, h.2.1, h.2.2⟩⟩

theorem noReturn_back {s s' : St κ σ T O ε χ} {l : Label κ ℓ O χ ω} (hi : Inv exec s) (h : Eff (cfg := cfg) cl exec text s l s') {j : κ} (hn : NoReturn j s') :
    NoReturn j s := by
  intro d hd hk hf
  obtain ⟨n, hd⟩ := List.getElem?_of_mem hd
  obtain ⟨d', h1, h2, h3, _⟩ := del_mono hi h hd
  exact hn d' (List.mem_of_getElem? h1) (h2 ▸ hk) (h3 hf)

theorem noLoss_back {s s' : St κ σ T O ε χ} {l : Label κ ℓ O χ ω} (hi : Inv exec s) (h : Eff (cfg := cfg) cl exec text s l s') {j : κ} (hn : NoLoss j s') :
    NoLoss j s := by
  intro n d hd hk hf
  obtain ⟨d', h1, h2, _, h3⟩ := del_mono hi h hd
  exact hn n d' h1 (h2 ▸ hk) (h3 hf)

theorem tokM_self {j : κ} {c : Nat → Bool} {s : St κ σ T O ε χ} {n : Nat} {d : Del κ T} (hd : s.dels[n]? = some d) (hk : d.msg.key = j) :
    tokM j c s n = if tok c s n d = true then {d.msg.task} else 0 := by simp [tokM, hd, hk]

theorem tokM_key {j : κ} {c : Nat → Bool} {s : St κ σ T O ε χ} {n : Nat} {d : Del κ T} (hd : s.dels[n]? = some d) (hk : d.msg.key ≠ j) : tokM j c s n = 0 := by
  simp [tokM, hd, hk]

theorem tokM_none {j : κ} {c : Nat → Bool} {s : St κ σ T O ε χ} {n : Nat} (hd : s.dels[n]? = none) : tokM j c s n = 0 := by simp [tokM, hd]

/-- The choice at `n`. -/
abbrev pick (c : Nat → Bool) (n : Nat) (b : Bool) : Nat → Bool := Function.update c n b

/-- Tokens of a delivery at which the worker goes on without publishing. -/
theorem tok_quiet {s s' : St κ σ T O ε χ} {n : Nat} {d d' : Del κ T} {b : Bool} (hd' : d' = { d with fate := if b then d.fate.settle else d.fate })
    (ha : active s' n d' = true → active s n d = true) (c : Nat → Bool) :
    ∃ b0, (b0 = true → c n = true) ∧ (tok (pick c n b0) s n d = tok c s' n d' ∨
      (tok (pick c n b0) s n d = true ∧ tok c s' n d' = false ∧ Lost s' n d')) := by
  subst hd'
  obtain ⟨w, m, f, a⟩ := d
  cases f <;> cases a <;> cases b <;> simp only [tok, Fate.settle, Lost, Function.update_self, if_true, if_false, Bool.false_eq_true] at ha ⊢
  all_goals
    generalize hx : active s n _ = x at ha ⊢
    generalize hy : active s' n _ = y at ha ⊢
    cases x <;> cases y <;> simp_all
  all_goals first
    | exact ⟨c n, by simp⟩
    | exact ⟨false, by simp⟩

theorem sim_quiet {s s' : St κ σ T O ε χ} {ls : List (Label κ ℓ O χ ω)} {w : Nat} {v : Worker.St κ O χ} {b : Bool} {j : κ}
    (hi : Inv exec s) (hs : ∀ c, ∃ jls, Sim cl exec text j ls s c jls) (ll : Label κ ℓ O χ ω) (hll : Label.leads j [ll] = [])
    (he : Eff (cfg := cfg) cl exec text s ll s') (hm : mayAnswer v.pc = true → mayAnswer (s.worker w).pc = true)
    (hs' : s' = { s with worker := Function.update s.worker w v, dels := if b then settle s.dels (s.cur w) else s.dels }) (c : Nat → Bool) :
    ∃ jls, Sim cl exec text j (ls ++ [ll]) s' c jls := by
  have hlen : s'.dels.length = s.dels.length := by subst hs'; cases b <;> simp
  have hcur : s'.cur = s.cur := by subst hs'; rfl
  have hwk : s'.worker = Function.update s.worker w v := by subst hs'; rfl
  have hq : s'.queue = s.queue := by subst hs'; rfl
  have hlead : s'.lead = s.lead := by subst hs'; rfl
  have hres : s'.results = s.results := by subst hs'; rfl
  have hget : ∀ m, s'.dels[m]? = (s.dels[m]?).map fun d => if s.cur w = m then { d with fate := if b then d.fate.settle else d.fate } else d := by
    intro m; clear he; subst hs'; cases b
    · show s.dels[m]? = _
      generalize s.dels[m]? = o
      cases o <;> simp
    · simp [settle_get]
  have hoth : ∀ m, m ≠ s.cur w → s'.dels[m]? = s.dels[m]? := by
    intro m hm'; rw [hget]; simp only [if_neg (Ne.symm hm')]; generalize s.dels[m]? = o; cases o <;> rfl
  have hothers : ∀ b0, others j c s' (s.cur w) = others j (pick c (s.cur w) b0) s (s.cur w) := by
    intro b0
    refine others_congr hlen fun m hm' => tokM_other hcur hwk (hoth m hm') hm' ?_
    simp [pick, Function.update_of_ne hm']
  have triv : (∀ c, tokM j c s (s.cur w) = 0) → (∀ c, tokM j c s' (s.cur w) = 0) → ∃ jls, Sim cl exec text j (ls ++ [ll]) s' c jls := by
    intro h0 h1
    obtain ⟨jls, hj⟩ := hs c
    refine ⟨jls, ?_, ?_, fun hc hn => hj.dups hc (noReturn_back hi he hn), fun hn => hj.loses (noLoss_back hi he hn)⟩
    · rw [hlead, hres]
      have : bag j c s' = bag j c s := by
        rw [bag_split (s.cur w), bag_split (s := s) (s.cur w), h0, h1, hq]
        have := hothers (c (s.cur w))
        simp only [pick, Function.update_eq_self] at this
        rw [this]
      rw [this]; exact hj.reach
    · rw [hj.leads, Label.leads_append, hll, List.append_nil]
  cases hd : s.dels[s.cur w]? with
  | none => exact triv (fun c => tokM_none hd) (fun c => tokM_none (by rw [hget, hd]; rfl))
  | some d =>
    have hd' : s'.dels[s.cur w]? = some { d with fate := if b then d.fate.settle else d.fate } := by rw [hget, hd]; simp
    by_cases hk : d.msg.key = j
    · have hact : active s' (s.cur w) { d with fate := if b then d.fate.settle else d.fate } = true → active s (s.cur w) d = true := by
        intro h
        simp only [active, hcur, hwk, Bool.and_eq_true, decide_eq_true_eq] at h ⊢
        by_cases hdw : d.worker = w
        · rw [hdw, Function.update_self] at h
          rw [hdw]
          exact ⟨rfl, hm h.2⟩
        · rw [Function.update_of_ne hdw] at h; exact h
      obtain ⟨b0, hb0, hb⟩ := tok_quiet rfl hact c
      obtain ⟨jls, hj⟩ := hs (pick c (s.cur w) b0)
      have hcf : (∀ n, c n = false) → ∀ n, pick c (s.cur w) b0 n = false := by
        intro hc n
        simp only [pick, Function.update]
        split
        · subst_vars; cases b0 <;> simp_all
        · exact hc n
      have hreach := hj.reach
      rw [bag_split (s := s) (s.cur w), tokM_self hd hk, ← hothers, ← hq, ← hlead, ← hres] at hreach
      have hbag : bag j c s' = _ := bag_split (s.cur w)
      rw [tokM_self hd' hk] at hbag
      rcases hb with hb | ⟨hb1, hb2, hlost⟩
      · refine ⟨jls, ?_, ?_, fun hc hn => hj.dups (hcf hc) (noReturn_back hi he hn), fun hn => hj.loses (noLoss_back hi he hn)⟩
        · rw [hb] at hreach; rw [hbag]; exact hreach
        · rw [hj.leads, Label.leads_append, hll, List.append_nil]
      · rw [hb1] at hreach
        rw [hb2] at hbag
        have e : (↑(ofJob j s'.queue) + ((if true = true then {d.msg.task} else 0) + others j c s' (s.cur w)) : Multiset T) = d.msg.task ::ₘ bag j c s' := by
          rw [hbag]; simp only [if_true, Bool.false_eq_true, if_false, zero_add, ← Multiset.singleton_add]; exact add_left_comm _ _ _
        rw [e] at hreach
        obtain ⟨k, hr⟩ := hreach.loseStep
        refine ⟨jls ++ [.lose k], hr, ?_, ?_, ?_⟩
        · rw [JobLabel.leads_append, hj.leads, Label.leads_append, hll]; rfl
        · intro hc hn l hl
          simp only [List.mem_append, List.mem_singleton] at hl
          rcases hl with hl | rfl
          · exact hj.dups (hcf hc) (noReturn_back hi he hn) l hl
          · rfl
        · intro hn
          exact absurd hlost (hn _ _ hd' hk)
    · exact triv (fun c => tokM_key hd hk) (fun c => tokM_key hd' hk)

theorem ofJob_append (j : κ) (a b : List (Msg κ T)) : ofJob j (a ++ b) = ofJob j a ++ ofJob j b := by simp [ofJob]

theorem ofJob_own (j : κ) (ts : List T) : ofJob j (ts.map fun t => (⟨j, t⟩ : Msg κ T)) = ts := by
  simp [ofJob, List.filter_map, Function.comp_def]

theorem ofJob_other {j j' : κ} (h : j' ≠ j) (ts : List T) : ofJob j (ts.map fun t => (⟨j', t⟩ : Msg κ T)) = [] := by
  simp [ofJob, List.filter_map, Function.comp_def, h]

theorem ofJob_mid (j : κ) (a b : List (Msg κ T)) (m : Msg κ T) :
    (↑(ofJob j (a ++ m :: b)) : Multiset T) = ↑(ofJob j (a ++ b)) + (if m.key = j then {m.task} else 0) := by
  have : (a ++ m :: b).Perm (m :: (a ++ b)) := List.perm_middle
  rw [show (↑(ofJob j (a ++ m :: b)) : Multiset T) = ↑(ofJob j (m :: (a ++ b))) from Multiset.coe_eq_coe.2 ((this.filter _).map _)]
  by_cases h : m.key = j
  · rw [if_pos h, add_comm, Multiset.singleton_add, Multiset.cons_coe]; simp [ofJob, h]
  · simp [ofJob, h]

theorem sim_answer {s s' : St κ σ T O ε χ} {ls : List (Label κ ℓ O χ ω)} {w : Nat} {l : Worker.Label κ O χ} {v : Worker.St κ O χ} {d : Del κ T} {r : Except ε O} {j : κ}
    (hi : Inv exec s) (hs : ∀ c, ∃ jls, Sim cl exec text j ls s c jls) (he' : Eff (cfg := cfg) cl exec text s (.work w l) s')
    (hd : s.dels[s.cur w]? = some d) (hdw : d.worker = w) (ha : d.answered = false) (hm : mayAnswer (s.worker w).pc = true)
    (hx : ∃ x, r = outcome exec text x d.msg.task) (hwk : s'.worker = Function.update s.worker w v) (hdels : s'.dels = answer s.dels (s.cur w))
    (hres : s'.results = Function.update s.results d.msg.key (s.results d.msg.key ++ [r])) (hq : s'.queue = s.queue) (hlead : s'.lead = s.lead)
    (hcur : s'.cur = s.cur) (c : Nat → Bool) : ∃ jls, Sim cl exec text j (ls ++ [.work w l]) s' c jls := by
  have hoth : ∀ b0, others j c s' (s.cur w) = others j (pick c (s.cur w) b0) s (s.cur w) := by
    intro b0
    refine others_congr (by simp [hdels]) fun m hm' => tokM_other (w := w) (v := v) hcur hwk ?_ hm' ?_
    · simp only [hdels, answer_get, if_neg (Ne.symm hm')]; generalize s.dels[m]? = o; cases o <;> rfl
    · simp [pick, Function.update_of_ne hm']
  have hd' : s'.dels[s.cur w]? = some { d with answered := true } := by rw [hdels, answer_get, hd]; simp
  by_cases hk : d.msg.key = j
  · obtain ⟨y, rfl⟩ := hx
    have hact : active s (s.cur w) d = true := by simp [active, hdw, hm]
    -- one execution uses up the token
    have main : ∀ b0 jls, Sim cl exec text j ls s (pick c (s.cur w) b0) jls → tok (pick c (s.cur w) b0) s (s.cur w) d = true →
        (NoReturn j s → b0 = true → c (s.cur w) = true) → ∃ jls, Sim cl exec text j (ls ++ [.work w l]) s' c jls := by
      intro b0 jls hj ht hb0
      have hcf : NoReturn j s → (∀ n, c n = false) → ∀ n, pick c (s.cur w) b0 n = false := by
        intro hn hc n
        simp only [pick, Function.update]
        split
        · subst_vars; cases b0 <;> simp_all
        · exact hc n
      have hreach := hj.reach
      rw [bag_split (s := s) (s.cur w), tokM_self hd hk, ht, ← hoth, if_pos rfl] at hreach
      rw [show (↑(ofJob j s.queue) + ({d.msg.task} + others j c s' (s.cur w)) : Multiset T) =
          d.msg.task ::ₘ (↑(ofJob j s.queue) + others j c s' (s.cur w)) by
        rw [← Multiset.singleton_add]; exact add_left_comm _ _ _] at hreach
      have hbag : bag j c s' = _ := bag_split (s.cur w)
      rw [tokM_self (d := { d with answered := true }) hd' hk, hq] at hbag
      cases hf : (tok c s' (s.cur w)
          { d with answered := true }) with
      | false =>
        rw [hf] at hbag
        simp only [Bool.false_eq_true, if_false, zero_add] at hbag
        rw [← hbag] at hreach
        obtain ⟨k, hr⟩ := hreach.execStep y
        refine ⟨jls ++ [.exec k y], ?_, ?_, ?_, ?_⟩
        · rw [hlead, hres, hk, Function.update_self]; exact hr
        · rw [JobLabel.leads_append, hj.leads, Label.leads_append]; rfl
        · intro hc hn l hl
          simp only [List.mem_append, List.mem_singleton] at hl
          rcases hl with hl | rfl
          · exact hj.dups (hcf (noReturn_back hi he' hn) hc) (noReturn_back hi he' hn) l hl
          · rfl
        · intro hn l hl
          simp only [List.mem_append, List.mem_singleton] at hl
          rcases hl with hl | rfl
          · exact hj.loses (noLoss_back hi he' hn) l hl
          · rfl
      | true =>
        have hcn : c (s.cur w) = true := by
          revert hf; unfold tok; cases d.fate <;> simp
        rw [hf] at hbag
        simp only [if_true] at hbag
        obtain ⟨k1, hr⟩ := hreach.dupStep
        rw [show (d.msg.task ::ₘ d.msg.task ::ₘ (↑(ofJob j s.queue) + others j c s' (s.cur w)) : Multiset T) =
          d.msg.task ::ₘ (↑(ofJob j s.queue) + ({d.msg.task} + others j c s' (s.cur w))) by
          congr 1; rw [← Multiset.singleton_add]; exact add_left_comm _ _ _] at hr
        rw [← hbag] at hr
        obtain ⟨k, hr⟩ := hr.execStep y
        refine ⟨jls ++ [.dup k1] ++ [.exec k y], ?_, ?_, ?_, ?_⟩
        · rw [hlead, hres, hk, Function.update_self]; exact hr
        · rw [JobLabel.leads_append, JobLabel.leads_append, hj.leads, Label.leads_append]; simp [JobLabel.leads, Label.leads]
        · intro hc; rw [hc] at hcn; simp at hcn
        · intro hn l hl
          simp only [List.mem_append, List.mem_singleton] at hl
          rcases hl with (hl | rfl) | rfl
          · exact hj.loses (noLoss_back hi he' hn) l hl
          · rfl
          · rfl
    cases hf : d.fate with
    | held =>
      obtain ⟨jls, hj⟩ := hs (pick c (s.cur w) (c (s.cur w)))
      exact main _ jls hj (by simp [tok, hf, ha]) (fun _ => id)
    | settled =>
      obtain ⟨jls, hj⟩ := hs (pick c (s.cur w) (c (s.cur w)))
      exact main _ jls hj (by simp [tok, hf, ha, hact]) (fun _ => id)
    | returned =>
      obtain ⟨jls, hj⟩ := hs (pick c (s.cur w) true)
      exact main _ jls hj (by simp [tok, hf, ha, hact, pick]) (fun hn => absurd hf (hn d (List.mem_of_getElem? hd) hk))
  · obtain ⟨jls, hj⟩ := hs c
    refine ⟨jls, ?_, ?_, fun hc hn => hj.dups hc (noReturn_back hi he' hn), fun hn => hj.loses (noLoss_back hi he' hn)⟩
    · rw [hlead, hres, Function.update_of_ne (Ne.symm hk)]
      refine (congrArg (fun M => Reach (cl j) (outcome exec text) jls (s.lead j) M (s.results j)) ?_).mp hj.reach
      rw [bag_split (s := s) (s.cur w), bag_split (s.cur w), tokM_key hd hk, tokM_key (d := { d with answered := true }) hd' hk, hq]
      have := hoth (c (s.cur w))
      simp only [pick, Function.update_eq_self] at this
      rw [this]
    · rw [hj.leads, Label.leads_append]; simp [Label.leads]

theorem sim_step {s s' : St κ σ T O ε χ} {ls : List (Label κ ℓ O χ ω)} {ll : Label κ ℓ O χ ω} {j : κ} (hi : Inv exec s)
    (hs : ∀ c, ∃ jls, Sim cl exec text j ls s c jls) (he : Eff (cfg := cfg) cl exec text s ll s') (c : Nat → Bool) :
    ∃ jls, Sim cl exec text j (ls ++ [ll]) s' c jls := by
  have he' := he
  cases he with
  | lead j' l x ts rs h =>
    obtain ⟨jls, hj⟩ := hs c
    by_cases hjj : j' = j
    · subst hjj
      refine ⟨jls ++ [.lead l], ?_, ?_, ?_, ?_⟩
      · have := hj.reach.leadStep h
        simp only [Function.update_self]
        refine (congrArg (fun M => Reach (cl j') (outcome exec text) (jls ++ [.lead l]) x M rs) ?_).mp this
        show _ = ↑(ofJob j' (s.queue ++ _)) + ∑ n ∈ Finset.range s.dels.length, tokM j' c s n
        rw [ofJob_append, ofJob_own, bag, ← Multiset.coe_add]
        exact add_right_comm _ _ _
      · rw [JobLabel.leads_append, hj.leads, Label.leads_append]; simp [Label.leads, JobLabel.leads]
      · intro hc hn l hl
        simp only [List.mem_append, List.mem_singleton] at hl
        rcases hl with hl | rfl
        · exact hj.dups hc (noReturn_back hi he' hn) l hl
        · rfl
      · intro hn l hl
        simp only [List.mem_append, List.mem_singleton] at hl
        rcases hl with hl | rfl
        · exact hj.loses (noLoss_back hi he' hn) l hl
        · rfl
    · refine ⟨jls, ?_, ?_, fun hc hn => hj.dups hc (noReturn_back hi he' hn), fun hn => hj.loses (noLoss_back hi he' hn)⟩
      · simp only [Function.update_of_ne (Ne.symm hjj)]
        refine (congrArg (fun M => Reach (cl j) (outcome exec text) jls (s.lead j) M (s.results j)) ?_).mp hj.reach
        show _ = ↑(ofJob j (s.queue ++ _)) + ∑ n ∈ Finset.range s.dels.length, tokM j c s n
        rw [ofJob_append, ofJob_other hjj, bag, List.append_nil]
      · rw [hj.leads, Label.leads_append]; simp [Label.leads, hjj]
  | deliver w k m a b i v hq hpc hv =>
    obtain ⟨jls, hj⟩ := hs c
    refine ⟨jls, ?_, ?_, fun hc hn => hj.dups hc (noReturn_back hi he' hn), fun hn => hj.loses (noLoss_back hi he' hn)⟩
    · refine (congrArg (fun M => Reach (cl j) (outcome exec text) jls (s.lead j) M (s.results j)) ?_).mp hj.reach
      simp only [bag, List.length_append, List.length_singleton, Finset.sum_range_succ, hq, ofJob_mid]
      have h1 : ∀ n ∈ Finset.range s.dels.length, tokM j c { s with
          queue := a ++ b, dels := s.dels ++ [⟨w, m, .held, false⟩], worker := Function.update s.worker w v,
          cur := Function.update s.cur w s.dels.length } n = tokM j c s n := by
        intro n hn
        have hn := Finset.mem_range.1 hn
        unfold tokM
        simp only [List.getElem?_append_left hn]
        cases s.dels[n]? with
        | none => rfl
        | some d =>
          simp only
          rw [tok_congr rfl]
          simp only [active]
          by_cases hw : d.worker = w
          · simp [hw, hpc, mayAnswer, show s.dels.length ≠ n by omega]
          · simp only [Function.update_of_ne hw]
      rw [Finset.sum_congr rfl h1]
      have h2 : tokM j c { s with
          queue := a ++ b, dels := s.dels ++ [⟨w, m, .held, false⟩], worker := Function.update s.worker w v,
          cur := Function.update s.cur w s.dels.length } s.dels.length = if m.key = j then {m.task} else 0 := by
        simp [tokM, tok]
      rw [h2]
      exact (add_right_comm _ _ _).trans (add_assoc _ _ _) 
    · rw [hj.leads, Label.leads_append]; simp [Label.leads]
  | finish w x d i k n v hd hpc hv =>
    exact sim_quiet (b := false) hi hs _ rfl he' (fun _ => by rw [hpc]; rfl) rfl c
  | quiet w l v b hl hv hsl =>
    exact sim_quiet (b := b) hi hs _ rfl he' (plain_step (exec := exec) (T := T) hl hv).2.1 rfl c
  | answer w l v d r hpl hpv hd hdw ha hm hm' hl hx =>
    exact sim_answer hi hs he' hd hdw ha hm hx rfl rfl rfl rfl rfl rfl c
  | requeue n d hd hf =>
    have hoth : ∀ b0, others j c { s with dels := giveBack s.dels n, queue := d.msg :: s.queue } n = others j (pick c n b0) s n := by
      intro b0
      refine others_congr (by simp) fun m hm' => ?_
      unfold tokM
      simp only [giveBack_get, if_neg (Ne.symm hm')]
      generalize s.dels[m]? = o
      cases o with
      | none => rfl
      | some d => simp only [Option.map_some]; rw [tok_congr (s := s)]; simp [pick, Function.update_of_ne hm']; rfl
    have hd' : (giveBack s.dels n)[n]? = some { d with fate := .returned } := by rw [giveBack_get, hd]; simp
    have hofj : ∀ j, (↑(ofJob j (d.msg :: s.queue)) : Multiset T) = ↑(ofJob j s.queue) + (if d.msg.key = j then {d.msg.task} else 0) :=
      fun j => ofJob_mid j [] s.queue d.msg
    by_cases hk : d.msg.key = j
    · have hbag : bag j c { s with dels := giveBack s.dels n, queue := d.msg :: s.queue } = _ := bag_split n
      rw [tokM_self (d := { d with fate := .returned }) hd' hk] at hbag
      simp only [hofj, if_pos hk] at hbag
      cases ha : d.answered with
      | true =>
        obtain ⟨jls, hj⟩ := hs (pick c n true)
        have hreach := hj.reach
        rw [bag_split (s := s) n, tokM_self hd hk, ← hoth] at hreach
        simp only [tok, hf, ha, pick, Function.update_self, if_true] at hreach
        simp only [tok, ha, Bool.false_eq_true, if_false, zero_add] at hbag
        refine ⟨jls, ?_, ?_, ?_, fun hn => hj.loses (noLoss_back hi he' hn)⟩
        · rw [hbag, add_assoc]; exact hreach
        · rw [hj.leads, Label.leads_append]; simp [Label.leads]
        · intro _ hn
          exact absurd rfl (hn _ (List.mem_of_getElem? hd') hk)
      | false =>
        obtain ⟨jls, hj⟩ := hs (pick c n (c n))
        have hreach := hj.reach
        rw [bag_split (s := s) n, tokM_self hd hk, ← hoth] at hreach
        simp only [tok, hf, ha, if_true] at hreach
        have hdup : ∀ {P : Prop}, (NoReturn j { s with dels := giveBack s.dels n, queue := d.msg :: s.queue }) → P :=
          fun hn => absurd rfl (hn _ (List.mem_of_getElem? hd') hk)
        cases ht : tok c { s with dels := giveBack s.dels n, queue := d.msg :: s.queue } n { d with fate := .returned } with
        | false =>
          rw [ht] at hbag
          simp only [Bool.false_eq_true, if_false, zero_add] at hbag
          refine ⟨jls, ?_, ?_, fun _ hn => hdup hn, fun hn => hj.loses (noLoss_back hi he' hn)⟩
          · rw [hbag, add_assoc]; exact hreach
          · rw [hj.leads, Label.leads_append]; simp [Label.leads]
        | true =>
          rw [ht] at hbag
          simp only [if_true] at hbag
          rw [show ∀ A B : Multiset T, A + ({d.msg.task} + B) = d.msg.task ::ₘ (A + B) by
            intro A B; rw [← Multiset.singleton_add]; exact add_left_comm _ _ _] at hreach
          obtain ⟨k, hr⟩ := hreach.dupStep
          refine ⟨jls ++ [.dup k], ?_, ?_, fun _ hn => hdup hn, ?_⟩
          · rw [hbag]
            refine (congrArg (fun M => Reach (cl j) (outcome exec text) (jls ++ [.dup k]) (s.lead j) M (s.results j)) ?_).mp hr
            simp only [← Multiset.singleton_add]
            ac_rfl
          · rw [JobLabel.leads_append, hj.leads, Label.leads_append]; simp [Label.leads, JobLabel.leads]
          · intro hn l hl
            simp only [List.mem_append, List.mem_singleton] at hl
            rcases hl with hl | rfl
            · exact hj.loses (noLoss_back hi he' hn) l hl
            · rfl
    · obtain ⟨jls, hj⟩ := hs c
      refine ⟨jls, ?_, ?_, fun hc hn => hj.dups hc (noReturn_back hi he' hn), fun hn => hj.loses (noLoss_back hi he' hn)⟩
      · refine (congrArg (fun M => Reach (cl j) (outcome exec text) jls (s.lead j) M (s.results j)) ?_).mp hj.reach
        rw [bag_split (s := s) n, bag_split n, tokM_key hd hk, tokM_key (d := { d with fate := .returned }) hd' hk]
        simp only [hofj, if_neg hk, add_zero]
        have := hoth (c n)
        simp only [pick, Function.update_eq_self] at this
        rw [this]
      · rw [hj.leads, Label.leads_append]; simp [Label.leads]

theorem sim_run {s : St κ σ T O ε χ} {ls : List (Label κ ℓ O χ ω)} (h : run cl cfg exec text (init cl) ls = some s) (j : κ) (c : Nat → Bool) :
    ∃ jls, Sim cl exec text j ls s c jls := by
  refine Lts.run_induction (P := fun ls s => ∀ c, ∃ jls, Sim cl exec text j ls s c jls) ?_ ?_ ls s h c
  · intro c
    refine ⟨[], ⟨Job.init (cl j), rfl, rfl, ?_, rfl⟩, rfl, by simp, by simp⟩
    simp [Job.init, bag, init, ofJob]
  · intro ls l s s' hr ih hst
    have hi := inv_run hr
    exact sim_step hi ih (eff_of_step hi hst)

end System
end Paladin
