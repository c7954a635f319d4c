import Verif.Proofs.SystemCount
import Verif.Proofs.SystemClients
import Verif.Proofs.Fails
/-! # Where the results of a job come from -/
namespace Paladin
namespace System
open Retry

section
variable {κ : Type} {σ ℓ : κ → Type} {T O ε χ ω : Type} [DecidableEq κ] {cl : (j : κ) → Client (σ j) (ℓ j) T (Except ε O)} {cfg : Worker.Cfg κ} {exec : ω → T → Except (OpError χ) O}
  {text : OpError χ → ε}

/-- An execution of `t` with outcome `r` has ended. -/
def Ran (exec : ω → T → Except (OpError χ) O) (ls : List (Label κ ℓ O χ ω)) (t : T) (r : Except (OpError χ) O) : Prop := ∃ w x, Label.finish w x ∈ ls ∧ exec x t = r

theorem Ran.mono {ls : List (Label κ ℓ O χ ω)} {t : T} {r : Except (OpError χ) O} (h : Ran exec ls t r) (ls' : List (Label κ ℓ O χ ω)) : Ran exec (ls ++ ls') t r := by
  obtain ⟨w, x, h1, h2⟩ := h
  exact ⟨w, x, by simp [h1], h2⟩

/-- The outcome a worker holds is the outcome of an execution. -/
def LinkE (E : T → Except (OpError χ) O → Prop) (t : T) : Worker.Pc κ O χ → Prop
  | .failing _ _ e => E t (.error e)
  | .settleOk _ _ o _ _ => E t (.ok o)
  | .settleErr _ _ e _ _ _ => E t (.error e)
  | _ => True

theorem LinkE.mono {E E' : T → Except (OpError χ) O → Prop} (hE : ∀ t r, E t r → E' t r) {t : T} {pc : Worker.Pc κ O χ} (h : LinkE E t pc) : LinkE E' t pc := by
  cases pc <;> first | trivial | exact hE _ _ h

theorem linkE_plain {E : T → Except (OpError χ) O → Prop} {v v' : Worker.St κ O χ} {l : Worker.Label κ O χ} (hl : plain l = true ∨ l = .pubOk ∨ l = .pubErr) (h : Worker.step cfg v l = some v') {t : T} (ht : LinkE E t v.pc) :
    LinkE E t v'.pc := by
  cases l <;> simp only [plain, Bool.false_eq_true, reduceCtorEq, or_self, or_false] at hl <;> simp only [Worker.step] at h <;> (repeat' split at h) <;>
    simp only [Option.some.injEq, reduceCtorEq] at h <;> try subst h
  all_goals (try simp_all [LinkE])

/-- Where the messages of job `j` come from. `S ls t`: job `j` has sent `t`. -/
structure Trail (exec : ω → T → Except (OpError χ) O) (text : OpError χ → ε) (j : κ) (S : List (Label κ ℓ O χ ω) → T → Prop) (ls : List (Label κ ℓ O χ ω)) (s : St κ σ T O ε χ) : Prop where
  q : ∀ m ∈ s.queue, m.key = j → S ls m.task
  d : ∀ d ∈ s.dels, d.msg.key = j → S ls d.msg.task
  w : ∀ w d, busy (s.worker w).pc = true → s.dels[s.cur w]? = some d → LinkE (Ran exec ls) d.msg.task (s.worker w).pc
  r : ∀ r ∈ s.results j, ∃ t y, S ls t ∧ Ran exec ls t y ∧ r = y.mapError text

theorem pub_pc {s s' : St κ σ T O ε χ} {w : Nat} {l : Worker.Label κ O χ} (hl : l = .pubOk ∨ l = .pubErr) (h : step cl cfg exec text s (.work w l) = some s') :
    ∃ k y, s'.results = Function.update s.results k (s.results k ++ [y.mapError text]) ∧
      (∀ d : Del κ T, Link exec d (s.worker w).pc → d.msg.key = k) ∧ ∀ (E : T → Except (OpError χ) O → Prop) t, LinkE E t (s.worker w).pc → E t y := by
  rcases hl with rfl | rfl
  all_goals
    simp only [step] at h
    split at h <;> simp only [Option.some.injEq, reduceCtorEq] at h
    rename_i v hv
    simp only [Worker.step] at hv
    split at hv <;> simp only [Option.some.injEq, reduceCtorEq] at hv
    rename_i hpc
    subst h
    simp only [effect, hpc]
  · exact ⟨_, .ok _, rfl, fun d hd => hd.1, fun E t he => he⟩
  · exact ⟨_, .error _, rfl, fun d hd => hd.1, fun E t he => he⟩

theorem trail_step {j : κ} {S : List (Label κ ℓ O χ ω) → T → Prop} (hmono : ∀ ls l t, S ls t → S (ls ++ [l]) t) {ls : List (Label κ ℓ O χ ω)} {s s' : St κ σ T O ε χ} {l : Label κ ℓ O χ ω}
    (hlead : ∀ l' x ts rs, l = .lead j l' → (cl j).step (s.lead j) l' (s.results j) = some (x, ts, rs) → (∀ t ∈ ts, S (ls ++ [l]) t) ∧ ∀ r ∈ rs, r ∈ s.results j)
    (hi : Inv exec s) (hst : step cl cfg exec text s l = some s') (ht : Trail exec text j S ls s) : Trail exec text j S (ls ++ [l]) s' := by
  have he := eff_of_step hi hst
  have hE : ∀ t r, Ran exec ls t r → Ran exec (ls ++ [l]) t r := fun t r h => h.mono _
  have tq : ∀ m ∈ s.queue, m.key = j → S (ls ++ [l]) m.task := fun m hm hk => hmono _ _ _ (ht.q m hm hk)
  have td : ∀ d ∈ s.dels, d.msg.key = j → S (ls ++ [l]) d.msg.task := fun d hd hk => hmono _ _ _ (ht.d d hd hk)
  have tw : ∀ w d, busy (s.worker w).pc = true → s.dels[s.cur w]? = some d → LinkE (Ran exec (ls ++ [l])) d.msg.task (s.worker w).pc := fun w d hb hd => (ht.w w d hb hd).mono hE
  have tr : ∀ r ∈ s.results j, ∃ t y, S (ls ++ [l]) t ∧ Ran exec (ls ++ [l]) t y ∧ r = y.mapError text := by
    intro r hr
    obtain ⟨t, y, h1, h2, h3⟩ := ht.r r hr
    exact ⟨t, y, hmono _ _ _ h1, h2.mono _, h3⟩
  have modd : ∀ (f : Del κ T → Del κ T) (n : Nat), (∀ d, (f d).msg = d.msg) → ∀ d ∈ s.dels.modify n f, d.msg.key = j → S (ls ++ [l]) d.msg.task := by
    intro f n hf d hd hk
    obtain ⟨m, hm⟩ := List.getElem?_of_mem hd
    rw [List.getElem?_modify] at hm
    cases h0 : s.dels[m]? with
    | none => simp [h0] at hm
    | some d0 =>
      simp only [h0] at hm
      simp only [Option.map_eq_map, Option.map_some, Option.some.injEq] at hm
      have hmsg : d.msg = d0.msg := by
        rw [← hm]; split
        · exact hf d0
        · rfl
      rw [hmsg] at hk ⊢
      exact td d0 (List.mem_of_getElem? h0) hk
  have modw : ∀ (f : Del κ T → Del κ T) (n : Nat), (∀ d, (f d).msg = d.msg) → ∀ w d, busy (s.worker w).pc = true → (s.dels.modify n f)[s.cur w]? = some d →
      LinkE (Ran exec (ls ++ [l])) d.msg.task (s.worker w).pc := by
    intro f n hf w d hb hm
    rw [List.getElem?_modify] at hm
    cases h0 : s.dels[s.cur w]? with
    | none => simp [h0] at hm
    | some d0 =>
      simp only [h0] at hm
      simp only [Option.map_eq_map, Option.map_some, Option.some.injEq] at hm
      have hmsg : d.msg = d0.msg := by
        rw [← hm]; split
        · exact hf d0
        · rfl
      rw [hmsg]
      exact tw w d0 hb h0
  cases he with
  | lead j' l' x ts rs h =>
    by_cases hj : j' = j
    · subst hj
      obtain ⟨h1, h2⟩ := hlead l' x ts rs rfl h
      refine ⟨fun m hm hk => ?_, td, tw, fun r hr => ?_⟩
      · rcases List.mem_append.1 hm with hm | hm
        · exact tq m hm hk
        · obtain ⟨t, ht, rfl⟩ := List.mem_map.1 hm
          exact h1 t ht
      · simp only [Function.update_self] at hr; exact tr r (h2 r hr)
    · refine ⟨fun m hm hk => ?_, td, tw, fun r hr => ?_⟩
      · rcases List.mem_append.1 hm with hm | hm
        · exact tq m hm hk
        · obtain ⟨t, ht, rfl⟩ := List.mem_map.1 hm
          exact absurd hk hj
      · simp only [Function.update_of_ne (Ne.symm hj)] at hr; exact tr r hr
  | deliver w k m a b i v hq hpc hv =>
    have hm : ∀ x, x ∈ a ++ b → x ∈ s.queue := fun x hx => by rw [hq]; simp at hx ⊢; tauto
    refine ⟨fun m' hm' hk => tq m' (hm m' hm') hk, fun d hd hk => ?_, fun w' d hb hd => ?_, tr⟩
    · rcases List.mem_append.1 hd with hd | hd
      · exact td d hd hk
      · simp at hd; subst hd; exact tq m (by rw [hq]; simp) hk
    · by_cases hw : w' = w
      · subst hw; simp only [Function.update_self, hv]; trivial
      · simp only [Function.update_of_ne hw] at hb hd ⊢
        obtain ⟨d0, hd0, _⟩ := hi w' hb
        rw [List.getElem?_append_left (List.getElem?_eq_some_iff.1 hd0).1] at hd
        exact tw w' d hb hd
  | finish w x d i k n v hd hpc hv =>
    refine ⟨tq, td, fun w' d' hb hd' => ?_, tr⟩
    by_cases hw : w' = w
    · subst hw
      rw [hd] at hd'; cases hd'
      simp only [Function.update_self, hv]
      cases hx : exec x d.msg.task with
      | ok o => exact ⟨w', x, by simp, hx⟩
      | error e => exact ⟨w', x, by simp, hx⟩
    · simp only [Function.update_of_ne hw] at hb ⊢; exact tw w' d' hb hd'
  | quiet w l' v b hpl hv hb' =>
    have key : ∀ dels : List (Del κ T), (∀ w' d, busy (s.worker w').pc = true → dels[s.cur w']? = some d → LinkE (Ran exec (ls ++ [.work w l'])) d.msg.task (s.worker w').pc) →
        ∀ w' d, busy (Function.update s.worker w v w').pc = true → dels[s.cur w']? = some d → LinkE (Ran exec (ls ++ [.work w l'])) d.msg.task (Function.update s.worker w v w').pc := by
      intro dels h w' d hb hd
      by_cases hw : w' = w
      · subst hw
        simp only [Function.update_self] at hb ⊢
        exact linkE_plain (.inl hpl) hv (h w' d ((plain_step (exec := exec) (T := T) hpl hv).1 hb) hd)
      · simp only [Function.update_of_ne hw] at hb ⊢; exact h w' d hb hd
    cases b with
    | false => exact ⟨tq, td, key _ tw, tr⟩
    | true =>
      exact ⟨tq, modd _ _ (fun _ => rfl), key _ (modw _ _ fun _ => rfl), tr⟩
  | answer w l' v d r hpl hv hd hdw ha hm hm' hlk hx =>
    obtain ⟨k, y, e1, e2, e3⟩ := pub_pc hpl hst
    have hbusy := busy_of_mayAnswer hm
    obtain ⟨d0, hd0, _, hlink⟩ := hi w hbusy
    rw [hd] at hd0; cases hd0
    have hk : d.msg.key = k := e2 d hlink
    have hy := e3 _ _ (tw w d hbusy hd)
    refine ⟨tq, modd _ _ (fun _ => rfl), fun w' d' hb hd' => ?_, fun r' hr' => ?_⟩
    · have := modw (fun d => { d with answered := true }) (s.cur w) (fun _ => rfl)
      by_cases hw : w' = w
      · subst hw
        simp only [Function.update_self] at hb ⊢
        exact linkE_plain (.inr hpl) hv (this w' d' hbusy hd')
      · simp only [Function.update_of_ne hw] at hb ⊢; exact this w' d' hb hd'
    · rw [e1] at hr'
      by_cases hj : k = j
      · subst hj
        rw [Function.update_self] at hr'
        rcases List.mem_append.1 hr' with h | h
        · exact tr r' h
        · simp at h
          exact ⟨d.msg.task, y, td d (List.mem_of_getElem? hd) hk, hy, h⟩
      · rw [Function.update_of_ne (Ne.symm hj)] at hr'; exact tr r' hr'
  | requeue n d hd hf =>
    refine ⟨fun m hm hk => ?_, modd _ _ (fun _ => rfl), modw _ _ fun _ => rfl, tr⟩
    rcases List.mem_cons.1 hm with rfl | hm
    · exact td d (List.mem_of_getElem? hd) hk
    · exact tq m hm hk

theorem trail_run {j : κ} {S : List (Label κ ℓ O χ ω) → T → Prop} (hmono : ∀ ls l t, S ls t → S (ls ++ [l]) t)
    (hlead : ∀ ls s l x ts rs, run cl cfg exec text (init cl) ls = some s → (cl j).step (s.lead j) l (s.results j) = some (x, ts, rs) →
      (∀ t ∈ ts, S (ls ++ [.lead j l]) t) ∧ ∀ r ∈ rs, r ∈ s.results j)
    {ls : List (Label κ ℓ O χ ω)} {s : St κ σ T O ε χ} (h : run cl cfg exec text (init cl) ls = some s) : Trail exec text j S ls s := by
  refine Lts.run_induction (P := fun ls s => Trail exec text j S ls s) ?_ ?_ ls s h
  · constructor <;> simp [init, Worker.init, busy]
  · intro ls l s s' hr ih hst
    refine trail_step hmono ?_ (inv_run hr) hst ih
    rintro l' x ts rs rfl h
    exact hlead ls s l' x ts rs hr h

/-- An error waiting for the leader stays until the leader has taken it. -/
theorem error_stays {j : κ} {Q : σ j → Prop} {e : ε} (h1 : ∀ x l rs x' ts rs', (cl j).step x l rs = some (x', ts, rs') → .error e ∈ rs → .error e ∈ rs' ∨ Q x')
    (h2 : ∀ x l rs x' ts rs', (cl j).step x l rs = some (x', ts, rs') → Q x → Q x') {ls ls' : List (Label κ ℓ O χ ω)} {s s' : St κ σ T O ε χ}
    (h : run cl cfg exec text (init cl) ls = some s) (h' : run cl cfg exec text s ls' = some s') (he : .error e ∈ s.results j ∨ Q (s.lead j)) :
    .error e ∈ s'.results j ∨ Q (s'.lead j) := by
  induction ls' generalizing s ls with
  | nil => cases h'; exact he
  | cons l ls' ih =>
    obtain ⟨s1, hs1, hs2⟩ := Lts.run_cons.1 h'
    refine ih (ls := ls ++ [l]) (Lts.run_snoc.2 ⟨s, h, hs1⟩) hs2 ?_
    have hi := inv_run h
    cases eff_of_step hi hs1 with
    | lead j' l' x ts rs hst =>
      by_cases hj : j' = j
      · subst hj
        simp only [Function.update_self]
        rcases he with he | he
        · exact h1 _ _ _ _ _ _ hst he
        · exact .inr (h2 _ _ _ _ _ _ hst he)
      · simp only [Function.update_of_ne (Ne.symm hj)]; exact he
    | answer w l' v d r hpl hv hd hdw ha hm hm' hlk hx =>
      refine he.imp (fun he => ?_) id
      by_cases hj : d.msg.key = j
      · subst hj; simp [he]
      · simp only [Function.update_of_ne (Ne.symm hj)]; exact he
    | _ => exact he
end

end System
end Paladin
