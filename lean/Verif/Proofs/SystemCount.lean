import Verif.Proofs.System
/-! # Counting the messages of a job -/
namespace Paladin
namespace System
open Retry

variable {κ : Type} {σ ℓ : κ → Type} {T O ε χ ω : Type} [DecidableEq κ] {cl : (j : κ) → Client (σ j) (ℓ j) T (Except ε O)} {cfg : Worker.Cfg κ} {exec : ω → T → Except (OpError χ) O}
  {text : OpError χ → ε}

/-- Deliveries of job `j`. -/
def delsOf (j : κ) (dels : List (Del κ T)) : Nat := dels.countP fun d => d.msg.key = j

/-- Deliveries of job `j` for which a result was published. -/
def answeredOf (j : κ) (dels : List (Del κ T)) : Nat := dels.countP fun d => decide (d.msg.key = j) && d.answered

theorem countP_modify {β : Type} (p : β → Bool) (f : β → β) (hf : ∀ x, p (f x) = p x) (l : List β) (n : Nat) : (l.modify n f).countP p = l.countP p := by
  induction l generalizing n with
  | nil => simp
  | cons x l ih => cases n <;> simp [List.countP_cons, hf, ih]

theorem countP_modify_up {β : Type} (p : β → Bool) (f : β → β) {l : List β} {n : Nat} {x : β} (hx : l[n]? = some x) (h0 : p x = false) :
    (l.modify n f).countP p = l.countP p + if p (f x) then 1 else 0 := by
  induction l generalizing n with
  | nil => simp at hx
  | cons y l ih =>
    cases n with
    | zero => simp at hx; subst hx; simp [List.countP_cons, h0]
    | succ n => simp at hx; simp [List.countP_cons, ih hx]; omega

@[simp] theorem delsOf_settle (j : κ) (dels : List (Del κ T)) (n : Nat) : delsOf j (settle dels n) = delsOf j dels := by
  apply countP_modify; intro _; rfl
@[simp] theorem delsOf_answer (j : κ) (dels : List (Del κ T)) (n : Nat) : delsOf j (answer dels n) = delsOf j dels := by
  apply countP_modify; intro _; rfl
@[simp] theorem delsOf_giveBack (j : κ) (dels : List (Del κ T)) (n : Nat) : delsOf j (giveBack dels n) = delsOf j dels := by
  apply countP_modify; intro _; rfl
@[simp] theorem answeredOf_settle (j : κ) (dels : List (Del κ T)) (n : Nat) : answeredOf j (settle dels n) = answeredOf j dels := by
  apply countP_modify; intro _; rfl
@[simp] theorem answeredOf_giveBack (j : κ) (dels : List (Del κ T)) (n : Nat) : answeredOf j (giveBack dels n) = answeredOf j dels := by
  apply countP_modify; intro _; rfl

/-- `snd l` tasks are published and `rcv l` results taken at a leader's step `l`. -/
def Counts (c : Client (σ j) (ℓ j) T (Except ε O)) (snd rcv : ℓ j → Nat) : Prop :=
  ∀ x l rs x' ts rs', c.step x l rs = some (x', ts, rs') → ts.length = snd l ∧ rs.length = rs'.length + rcv l

theorem count_eff {j : κ} {snd rcv : ℓ j → Nat} (hc : Counts (cl j) snd rcv) {ls : List (Label κ ℓ O χ ω)} {s s' : St κ σ T O ε χ} {l : Label κ ℓ O χ ω} (hi : Inv exec s)
    (h : Eff (cfg := cfg) cl exec text s l s')
    (h1 : ((Label.leads j ls).map rcv).sum + (s.results j).length = answeredOf j s.dels)
    (h2 : NoReturn j s → ((Label.leads j ls).map snd).sum = (ofJob j s.queue).length + delsOf j s.dels) :
    ((Label.leads j (ls ++ [l])).map rcv).sum + (s'.results j).length = answeredOf j s'.dels ∧
    (NoReturn j s' → ((Label.leads j (ls ++ [l])).map snd).sum = (ofJob j s'.queue).length + delsOf j s'.dels) := by
  have hback := fun hn => noReturn_back (j := j) hi h hn
  have hl : ∀ l' : Label κ ℓ O χ ω, Label.leads j [l'] = [] → l' = l → Label.leads j (ls ++ [l]) = Label.leads j ls := by
    rintro l' h' rfl; rw [Label.leads_append, h', List.append_nil]
  cases h with
  | lead j' l x ts rs hst =>
    rw [Label.leads_append]
    by_cases hj : j' = j
    · subst hj
      obtain ⟨c1, c2⟩ := hc _ _ _ _ _ _ hst
      simp only [Label.leads, dite_true, Function.update_self, ofJob_append, ofJob_own, List.map_append, List.sum_append, List.length_append]
      refine ⟨by simp; omega, fun hn => ?_⟩
      have := h2 (hback hn)
      simp; omega
    · simp only [Label.leads, hj, dite_false, List.append_nil, ofJob_append, ofJob_other hj]
      rw [Function.update_of_ne (Ne.symm hj)]
      exact ⟨h1, fun hn => by rw [h2 (hback hn)]⟩
  | deliver w k m a b i v hq hpc hv =>
    rw [hl _ rfl rfl]
    refine ⟨by simpa [answeredOf, List.countP_append] using h1, fun hn => ?_⟩
    have := h2 (hback hn)
    rw [hq] at this
    simp only [ofJob, delsOf, List.filter_append, List.filter_cons, List.countP_append, List.countP_cons, List.countP_nil, List.length_append, List.map_append] at this ⊢
    split at this <;> rename_i hk <;> simp only [hk] <;> simp at this ⊢ <;> omega
  | finish w x d i k n v hd hpc hv =>
    rw [hl _ rfl rfl]; exact ⟨h1, h2⟩
  | quiet w l v b hpl hst hb =>
    rw [hl _ rfl rfl]
    cases b with
    | false => exact ⟨h1, h2⟩
    | true =>
      exact ⟨by simpa using h1, fun hn => by simpa using h2 (hback hn)⟩
  | answer w l v d r hpl hst hd hdw ha hm hm' hlk hx =>
    rw [hl _ rfl rfl]
    refine ⟨?_, fun hn => ?_⟩
    · have : answeredOf j (answer s.dels (s.cur w)) = answeredOf j s.dels + if d.msg.key = j then 1 else 0 := by
        simp only [answeredOf, answer]
        rw [countP_modify_up _ _ hd (by simp [ha])]
        simp
      rw [this, ← h1]
      by_cases hj : d.msg.key = j
      · subst hj; simp; omega
      · simp only [Function.update_of_ne (Ne.symm hj), hj, if_false]; omega
    · simpa using h2 (hback hn)
  | requeue n d hd hf =>
    rw [hl _ rfl rfl]
    refine ⟨by simpa using h1, fun hn => ?_⟩
    have hk : d.msg.key ≠ j := by
      intro hk
      refine hn { d with fate := .returned } (List.mem_of_getElem? (i := n) ?_) hk rfl
      rw [giveBack_get, hd]; simp
    have : ofJob j (d.msg :: s.queue) = ofJob j s.queue := by simp [ofJob, hk]
    simpa [this] using h2 (hback hn)

theorem count_run {j : κ} {snd rcv : ℓ j → Nat} (hc : Counts (cl j) snd rcv) {ls : List (Label κ ℓ O χ ω)} {s : St κ σ T O ε χ} (h : run cl cfg exec text (init cl) ls = some s) :
    ((Label.leads j ls).map rcv).sum + (s.results j).length = answeredOf j s.dels ∧
    (NoReturn j s → ((Label.leads j ls).map snd).sum = (ofJob j s.queue).length + delsOf j s.dels) := by
  refine Lts.run_induction (P := fun ls s => ((Label.leads j ls).map rcv).sum + (s.results j).length = answeredOf j s.dels ∧
    (NoReturn j s → ((Label.leads j ls).map snd).sum = (ofJob j s.queue).length + delsOf j s.dels)) ?_ ?_ ls s h
  · simp [init, Label.leads, answeredOf, delsOf, ofJob]
  · intro ls l s s' hr ih hst
    have hi := inv_run hr
    exact count_eff hc hi (eff_of_step hi hst) ih.1 ih.2

/-- If the leader has taken as many results as it has published tasks, nothing of its job is left anywhere. -/
theorem settled_of_counts {j : κ} {snd rcv : ℓ j → Nat} (hc : Counts (cl j) snd rcv) {ls : List (Label κ ℓ O χ ω)} {s : St κ σ T O ε χ} (h : run cl cfg exec text (init cl) ls = some s)
    (hn : NoReturn j s) (he : ((Label.leads j ls).map snd).sum ≤ ((Label.leads j ls).map rcv).sum) :
    s.results j = [] ∧ (∀ m ∈ s.queue, m.key ≠ j) ∧ (∀ d ∈ s.dels, d.msg.key = j → d.answered = true) ∧ delsOf j s.dels = ((Label.leads j ls).map snd).sum := by
  obtain ⟨h1, h2⟩ := count_run hc h
  have h2 := h2 hn
  have hle : answeredOf j s.dels ≤ delsOf j s.dels := List.countP_mono_left fun d _ h => by simp at h ⊢; exact h.1
  have e1 : (s.results j).length = 0 := by omega
  have e2 : (ofJob j s.queue).length = 0 := by omega
  have e3 : answeredOf j s.dels = delsOf j s.dels := by omega
  refine ⟨List.eq_nil_of_length_eq_zero e1, fun m hm hk => ?_, fun d hd hk => ?_, by omega⟩
  · have : ofJob j s.queue = [] := List.eq_nil_of_length_eq_zero e2
    simp only [ofJob, List.map_eq_nil_iff, List.filter_eq_nil_iff] at this
    exact this m hm (by simpa using hk)
  · cases ha : d.answered with
    | true => rfl
    | false =>
      exfalso
      obtain ⟨a, b, hab⟩ := List.append_of_mem hd
      rw [hab] at e3
      have : (a ++ b).countP (fun d => decide (d.msg.key = j) && d.answered) ≤ (a ++ b).countP fun d => decide (d.msg.key = j) :=
        List.countP_mono_left fun d _ h => by simp at h ⊢; exact h.1
      simp only [answeredOf, delsOf, List.countP_append, List.countP_cons, hk, ha, decide_true, Bool.and_false] at e3 this
      simp at e3
      omega

end System
end Paladin
