import Verif.Proofs.SystemFailsDir
import Verif.Props.SystemLoss
import Verif.Props.FoldLive
import Verif.Props.SystemBytes
/-!
# Property C74: a job fails for its own reasons, and a failure of its tasks does not go unnoticed

Maps and folds side by side on the same workers (`Verif/Model/System.lean`, `Verif/Model/SystemClients.lean`). Vocabulary: `Verif/Spec/Fails.lean`, `Verif/Spec/System.lean`,
`Verif/Spec/SystemClients.lean`.
-/
namespace Paladin

namespace System
open Retry

section
variable {A B : Type} [DecidableEq A] [DecidableEq B] {α β : A → Type} {γ : B → Type} {T O ε χ ω : Type} {op : (a : A) → ω → α a → Except ε (β a)}
  {comb : (b : B) → ω → γ b → γ b → Except ε (γ b)} {empty : (b : B) → γ b} {dupErr : ε} {encM : (a : A) → Nat × α a → Option T} {decM : (a : A) → O → Except ε (Nat × β a)}
  {encF : (b : B) → Fold.CTask (γ b) → Option T} {decF : (b : B) → O → Except ε (Seg (γ b))} {cfg : Worker.Cfg (A ⊕ B)} {exec : ω → T → Except (OpError χ) O} {text : OpError χ → ε}

/-- **C74, errors of a map.** Whatever other jobs run on the same workers: every error a map yields is an error on the side of its own leader (of the input stream, of publishing,
closing or acknowledging), or the error of an execution of its own operation on one of its own inputs. -/
theorem C74_map_own_errors (a : A) (hf : MapFaithful exec text (op a) (encM a) (decM a)) (ls : List (Label (A ⊕ B) (DirLabel α γ ε ω) O χ ω)) (s : St (A ⊕ B) (DirSt α β γ ε) T O ε χ)
    (h : dirRun op comb empty dupErr encM decM encF decF cfg exec text ls = some s) (e : ε) (he : e ∈ MapS.errs (mapOf s a).outs) :
    (∃ l ∈ mapSteps ls a, l.failure = some e) ∨ ∃ w x p, Label.finish w x ∈ ls ∧ p ∈ MapS.inputs (mapSteps ls a) ∧ op a x p.2 = .error e := by
  rw [MapS.mem_errs] at he
  revert e
  refine Lts.run_induction (P := fun ls (s : St (A ⊕ B) (DirSt α β γ ε) T O ε χ) => ∀ e, .error e ∈ (mapOf s a).outs →
    (∃ l ∈ mapSteps ls a, l.failure = some e) ∨ ∃ w x p, Label.finish w x ∈ ls ∧ p ∈ MapS.inputs (mapSteps ls a) ∧ op a x p.2 = .error e) ?_ ?_ ls s h
  · intro e he
    exact absurd he (by show Except.error e ∉ ([] : List (MapS.Item (β a) ε)); simp)
  · intro ls l s s' hr ih hst e he
    have mono : ((∃ l ∈ mapSteps ls a, l.failure = some e) ∨ ∃ w x p, Label.finish w x ∈ ls ∧ p ∈ MapS.inputs (mapSteps ls a) ∧ op a x p.2 = .error e) →
        (∃ l' ∈ mapSteps (ls ++ [l]) a, l'.failure = some e) ∨ ∃ w x p, Label.finish w x ∈ ls ++ [l] ∧ p ∈ MapS.inputs (mapSteps (ls ++ [l]) a) ∧ op a x p.2 = .error e := by
      rw [mapSteps_append, MapS.inputs_append]
      rintro (⟨l', h1, h2⟩ | ⟨w, x, p, h1, h2, h3⟩)
      · exact .inl ⟨l', List.mem_append_left _ h1, h2⟩
      · exact .inr ⟨w, x, p, List.mem_append_left _ h1, List.mem_append_left _ h2, h3⟩
    have hi := inv_run hr
    cases eff_of_step hi hst with
    | lead j l x ts rs h =>
      by_cases hj : j = .inl a
      · subst hj
        have he' : .error e ∈ (x : MapS.St (α a) (β a) ε).outs := by
          have : mapOf { s with lead := Function.update s.lead (.inl a) x, results := Function.update s.results (.inl a) rs, queue := s.queue ++ ts.map fun t => ⟨.inl a, t⟩ } a = x := by
            unfold mapOf; exact Function.update_self ..
          rwa [this] at he
        obtain ⟨hl, s1, hs1, rfl, _, rfl⟩ := map_step h
        have ih' : ∀ e, .error e ∈ (s.lead (.inl a) : MapS.St (α a) (β a) ε).outs → _ := ih
        have hfail : ∀ e', (l : MapS.Label (α a) ε ω).failure = some e' → e = e' →
            (∃ l' ∈ mapSteps (ls ++ [Label.lead (Sum.inl a) l]) a, l'.failure = some e) ∨ ∃ w x p, Label.finish w x ∈ ls ++ [Label.lead (Sum.inl a) l] ∧ p ∈ MapS.inputs (mapSteps (ls ++ [Label.lead (Sum.inl a) l]) a) ∧ op a x p.2 = .error e := by
          rintro e' h1 rfl
          exact .inl ⟨l, mem_mapSteps ls a l, h1⟩
        have hrec : ∀ r : Except ε O, r ∈ s.results (.inl a) → r.bind (decM a) = .error e →
            ∃ w x p, Label.finish w x ∈ ls ∧ p ∈ MapS.inputs (mapSteps ls a) ∧ op a x p.2 = .error e := by
          intro r hrm hre
          obtain ⟨t, y, ⟨p, hp, hpt⟩, ⟨w, x, hx, hxy⟩, rfl⟩ := (map_trail a hf hr).r r hrm
          refine ⟨w, x, p, hx, hp, ?_⟩
          have := hf x p.1 p.2 t hpt
          rw [outcome, hxy, hre] at this
          cases ho : op a x p.2 with
          | ok v => rw [ho] at this; simp [Except.map] at this
          | error e' => rw [ho] at this; simp [Except.map] at this; rw [this]
        have hs1 := MapS.stepR_of_step hs1
        generalize hs0 : (s.lead (.inl a) : MapS.St (α a) (β a) ε) = s0 at hs1 ih' he'
        have old : .error e ∈ s0.outs → _ := fun h => mono (ih' e h)
        have app : ∀ r, .error e ∈ s0.outs ++ [r] → (r = .error e → _) → _ := fun r h h' => (List.mem_append.1 h).elim old fun h => h' (by simp at h; exact h.symm)
        cases hs1 with
        | inputErr e' _ => exact app _ he' fun h => hfail e' rfl (by simpa using h.symm)
        | publishErr k e' _ => exact app _ he' fun h => hfail e' rfl (by simpa using h.symm)
        | confirmErr e' _ => exact app _ he' fun h => hfail e' rfl (by simpa using h.symm)
        | closeErr e' _ _ _ => exact app _ he' fun h => hfail e' rfl (by simpa using h.symm)
        | recvAckErr k e' r a' b _ _ hk => exact app _ he' fun h => hfail e' rfl (by simpa using h.symm)
        | recv k r a' b _ _ hk =>
          refine app _ he' fun h => mono (.inr ?_)
          have hk : (s.results (.inl a)).map (fun r => r.bind (decM a)) = a' ++ r :: b := hk
          have : r ∈ (s.results (.inl a)).map (fun r => r.bind (decM a)) := by rw [hk]; simp
          obtain ⟨r0, hr0, rfl⟩ := List.mem_map.1 this
          exact hrec r0 hr0 h
        | exec k w t a' b hk => simp [mapLead] at hl
        | loseTask k t a' b hk => simp [mapLead] at hl
        | loseResult k t a' b hk => simp [mapLead] at hl
        | dupTask k t hk => simp [mapLead] at hl
        | dupResult k t hk => simp [mapLead] at hl
        | _ => exact old he'
      · refine mono (ih e ?_)
        simp only [mapOf, Function.update_of_ne (Ne.symm hj)] at he
        exact he
    | _ => exact mono (ih e he)

/-- Why fold `b` fails with `e`. -/
def FoldWhy (comb : (b : B) → ω → γ b → γ b → Except ε (γ b)) (dupErr : ε) (b : B) (ls : List (Label (A ⊕ B) (DirLabel α γ ε ω) O χ ω)) (s : St (A ⊕ B) (DirSt α β γ ε) T O ε χ) (e : ε) : Prop :=
  (∃ l ∈ foldSteps ls b, l.failure = some e) ∨
  (∃ w x start xs ys u v, Label.finish w x ∈ ls ∧ Tree (Fold.Returns (comb b)) xs u ∧ Tree (Fold.Returns (comb b)) ys v ∧
    (∀ p ∈ indexed start (xs ++ ys), p ∈ Fold.inputs (foldSteps ls b)) ∧ comb b x u v = .error e) ∨
  e = dupErr ∧ ¬ (NoReturn (.inr b) s ∧ ((Fold.inputs (foldSteps ls b)).map (·.1)).Nodup)

/-- **C74, errors of a fold.** Whatever other jobs run on the same workers: the error a fold returns is an error on the side of its own leader (of the input stream, of publishing, closing
or acknowledging); or the error of an execution of its own combination on two values which are combinations, in order, of two neighbouring runs of its own inputs; or "final result tx
taken", and then a delivery was returned to the queue or two inputs have the same index. -/
theorem C74_fold_own_errors (b : B) (hf : FoldFaithful exec text (comb b) (encF b) (decF b)) (ls : List (Label (A ⊕ B) (DirLabel α γ ε ω) O χ ω)) (s : St (A ⊕ B) (DirSt α β γ ε) T O ε χ)
    (h : dirRun op comb empty dupErr encM decM encF decF cfg exec text ls = some s) (e : ε) (he : (foldOf s b).outcome = some (.err e)) :
    (∃ l ∈ foldSteps ls b, l.failure = some e) ∨
    (∃ w x start xs ys u v, Label.finish w x ∈ ls ∧ Tree (Fold.Returns (comb b)) xs u ∧ Tree (Fold.Returns (comb b)) ys v ∧
      (∀ p ∈ indexed start (xs ++ ys), p ∈ Fold.inputs (foldSteps ls b)) ∧ comb b x u v = .error e) ∨
    e = dupErr ∧ ¬ (NoReturn (.inr b) s ∧ ((Fold.inputs (foldSteps ls b)).map (·.1)).Nodup) := by
  revert e
  refine Lts.run_induction (P := fun ls (s : St (A ⊕ B) (DirSt α β γ ε) T O ε χ) => ∀ e, (foldOf s b).outcome = some (.err e) → FoldWhy comb dupErr b ls s e) ?_ ?_ ls s h
  · intro e he
    exact absurd he (by show (none : Option (Fold.Outcome (γ b) ε)) ≠ _; simp)
  · intro ls l s s' hr ih hst e he
    have hi := inv_run hr
    have heff := eff_of_step hi hst
    have mono : FoldWhy comb dupErr b ls s e → FoldWhy comb dupErr b (ls ++ [l]) s' e := by
      unfold FoldWhy
      rw [foldSteps_append, Fold.inputs_append]
      rintro (⟨l', h1, h2⟩ | ⟨w, x, st, xs, ys, u, v, h1, h2, h3, h4, h5⟩ | ⟨h1, h2⟩)
      · exact .inl ⟨l', List.mem_append_left _ h1, h2⟩
      · exact .inr (.inl ⟨w, x, st, xs, ys, u, v, List.mem_append_left _ h1, h2, h3, fun p hp => List.mem_append_left _ (h4 p hp), h5⟩)
      · refine .inr (.inr ⟨h1, fun ⟨h3, h4⟩ => h2 ⟨noReturn_back hi heff h3, ?_⟩⟩)
        rw [List.map_append] at h4; exact (List.nodup_append.1 h4).1
    cases heff with
    | lead j l x ts rs h =>
      by_cases hj : j = .inr b
      · subst hj
        have he' : (x : Fold.St (γ b) ε).outcome = some (.err e) := by
          have : foldOf { s with lead := Function.update s.lead (.inr b) x, results := Function.update s.results (.inr b) rs, queue := s.queue ++ ts.map fun t => ⟨.inr b, t⟩ } b = x := by
            unfold foldOf; exact Function.update_self ..
          rwa [this] at he
        obtain ⟨hl, s1, hs1, rfl, _, rfl⟩ := fold_step h
        have ho : (s.lead (.inr b) : Fold.St (γ b) ε).outcome = none := by have := Fold.step_outcome hs1; exact this
        have hfail : ∀ e', (l : Fold.Label (γ b) ε ω).failure = some e' → e' = e → ∃ l' ∈ foldSteps (ls ++ [Label.lead (Sum.inr b) l]) b, l'.failure = some e := by
          rintro e' h1 rfl
          exact ⟨l, mem_foldSteps ls b l, h1⟩
        have hs1 := Fold.stepR_of_step hs1
        simp only at he'
        cases hs1 with
        | inputErr e' _ => exact .inl (hfail e' rfl (by simpa using he'))
        | ioErr e' => exact .inl (hfail e' rfl (by simpa using he'))
        | item i a hs =>
          exfalso
          obtain ⟨_, _, _, _, _, _, f7⟩ := Fold.tryDispatch_fields ({ (s.lead (.inr b) : Fold.St (γ b) ε) with tasks := [], results := (s.results (.inr b)).map fun r => toRes (r.bind (decF b)), count := (s.lead (.inr b) : Fold.St (γ b) ε).count + 1, notified := true } : Fold.St (γ b) ε) (⟨i, i, a⟩ : Seg (γ b))
          unfold Fold.onItem at he'; simp only at he'; split at he'
          · simp [ho] at he'
          · rw [f7] at he'; simp [ho] at he'
        | inputEnd hs =>
          exfalso
          unfold Fold.onInputEnd at he'; simp only at he'
          split at he'
          · simp at he'
          · split at he' <;> simp at he'
          · simp [ho] at he'
        | recv k r rest hn hp =>
          simp only at hp
          cases r with
          | err e' =>
            simp [Fold.onResult] at he'
            subst he'
            have : Fold.Res.err e' ∈ (s.results (.inr b)).map fun r => toRes (r.bind (decF b)) := hp.mem_iff.2 (by simp)
            obtain ⟨r0, hr0, hre⟩ := List.mem_map.1 this
            have hre : r0.bind (decF b) = .error e' := by
              cases hb : r0.bind (decF b) <;> rw [hb] at hre <;> simp [toRes] at hre
              rw [hre]
            obtain ⟨t, y, ⟨c, hc, hct⟩, ⟨w, x, hx, hxy⟩, rfl⟩ := (fold_trail b hf hr).r r0 hr0
            have hcomb : comb b x c.a c.b = .error e' := by
              have := hf x c t hct
              rw [outcome, hxy, hre] at this
              cases ho : comb b x c.a c.b with
              | ok v => rw [ho] at this; simp [Except.map] at this
              | error e' => rw [ho] at this; simp [Except.map] at this; rw [this]
            refine mono (.inr (.inl ?_))
            obtain ⟨l, r, ⟨xs, h1, h2, h3, h4⟩, ⟨ys, g1, g2, g3, g4⟩, hb, rfl⟩ := hc
            refine ⟨w, x, l.lo, xs, ys, l.val, r.val, hx, h1, g1, fun p hp => ?_, hcomb⟩
            rw [Fold.indexed_append, List.mem_append] at hp
            rcases hp with hp | hp
            · exact h4 p hp
            · refine g4 p ?_
              have : l.lo + xs.length = r.lo := by simp only [Before] at hb; omega
              rwa [this] at hp
          | ok y =>
            obtain ⟨_, _, _, _, _, _, f7⟩ := Fold.tryDispatch_fields ({ (s.lead (.inr b) : Fold.St (γ b) ε) with tasks := [], results := rest } : Fold.St (γ b) ε) y
            unfold Fold.onResult at he'; simp only at he'
            split at he'
            · split at he'
              · split at he'
                · simp [ho] at he'
                · rename_i hfin
                  simp at he'
                  refine mono (.inr (.inr ⟨he'.symm, fun ⟨h1, h2⟩ => ?_⟩))
                  have := fold_final b hf hr h1 h2 ho (by
                    have e : (foldOf s b).final = some _ := hfin
                    rw [e]; simp)
                  rw [this] at hp
                  have := hp.length_eq
                  simp at this
              · rw [f7] at he'; simp [ho] at he'
            · rw [f7] at he'; simp [ho] at he'
        | exec k w t rest hp => simp [foldLead] at hl
        | loseTask k t rest hp => simp [foldLead] at hl
        | loseResult k t rest hp => simp [foldLead] at hl
        | dupTask k t hp => simp [foldLead] at hl
        | dupResult k t hp => simp [foldLead] at hl
        | finish v hv => simp at he'
        | disconnect => simp at he'
        | publish k t rest hp => simp [ho] at he'
      · refine mono (ih e ?_)
        simp only [foldOf, Function.update_of_ne (Ne.symm hj)] at he
        exact he
    | _ => exact mono (ih e he)

/-! ## Nothing is left, nothing is swallowed -/

/-- **C74, a map accounts for everything.** If the mapped stream of a map has ended, with or without errors, and no delivery of its tasks was returned to the queue, then for every task of it a
result was published, the leader has taken them all, and no task of it is left in the queue. -/
theorem C74_map_accounts (a : A) (hf : MapFaithful exec text (op a) (encM a) (decM a)) (ls : List (Label (A ⊕ B) (DirLabel α γ ε ω) O χ ω)) (s : St (A ⊕ B) (DirSt α β γ ε) T O ε χ)
    (h : dirRun op comb empty dupErr encM decM encF decF cfg exec text ls = some s) (hn : NoReturn (.inl a) s) (hc : ∀ l ∈ mapSteps ls a, l.connected = true)
    (hend : (mapOf s a).ended = true) :
    s.results (.inl a) = [] ∧ (∀ m ∈ s.queue, m.key ≠ .inl a) ∧ ∀ d ∈ s.dels, d.msg.key = .inl a → d.answered = true := by
  obtain ⟨mls, m, h1, h2, h3, h4, h5, h6⟩ := map_once a hf h
  have hb := MapS.ended_balanced h1 (h6 hc) (by rw [h2] at hend; exact hend)
  rw [h4, h5] at hb
  have := settled_of_counts (cl := dirs op comb empty dupErr encM decM encF decF) (j := .inl a) (snd := MapS.Label.snd (α := α a) (ε := ε) (ω := ω)) (rcv := MapS.Label.rcv (α := α a) (ε := ε) (ω := ω)) ?_ h hn hb
  · exact ⟨this.1, this.2.1, this.2.2.1⟩
  · intro x l rs x' ts rs' hst
    obtain ⟨c1, _, c2⟩ := map_takes hst
    refine ⟨c1, ?_⟩
    rcases c2 with ⟨rfl, c2⟩ | ⟨r, hp, c2, _⟩
    · have : MapS.Label.rcv (α := α a) (ε := ε) (ω := ω) l = 0 := c2
      omega
    · have : MapS.Label.rcv (α := α a) (ε := ε) (ω := ω) l = 1 := c2
      have := hp.length_eq
      simp at this; omega

/-- **C74, a fold accounts for everything.** If a fold has returned a value, and no delivery of its tasks was returned to the queue, then for every task of it
a result was published, the leader has taken them all, and no task of it is left in the queue. -/
theorem C74_fold_accounts (b : B) (hf : FoldFaithful exec text (comb b) (encF b) (decF b)) (ls : List (Label (A ⊕ B) (DirLabel α γ ε ω) O χ ω)) (s : St (A ⊕ B) (DirSt α β γ ε) T O ε χ)
    (h : dirRun op comb empty dupErr encM decM encF decF cfg exec text ls = some s) (hn : NoReturn (.inr b) s)
    (v : γ b) (hv : (foldOf s b).outcome = some (.ok v)) :
    s.results (.inr b) = [] ∧ (∀ m ∈ s.queue, m.key ≠ .inr b) ∧ ∀ d ∈ s.dels, d.msg.key = .inr b → d.answered = true := by
  obtain ⟨fls, m, h1, h2, h3, h4, h5, h6, h7⟩ := fold_once b hf h hn
  have hb := Fold.ok_balanced fls m v h1 (by rw [h2] at hv; exact hv) h4
  rw [h6, h7] at hb
  have := settled_of_counts (cl := dirs op comb empty dupErr encM decM encF decF) (j := .inr b) (snd := Fold.Label.snd (α := γ b) (ε := ε) (ω := ω)) (rcv := Fold.Label.rcv (α := γ b) (ε := ε) (ω := ω)) ?_ h hn hb
  · exact ⟨this.1, this.2.1, this.2.2.1⟩
  · intro x l rs x' ts rs' hst
    obtain ⟨c1, _, c2⟩ := fold_takes hst
    refine ⟨c1, ?_⟩
    rcases c2 with ⟨rfl, c2⟩ | ⟨r, hp, c2, _⟩
    · have : Fold.Label.rcv (α := γ b) (ε := ε) (ω := ω) l = 0 := c2
      omega
    · have : Fold.Label.rcv (α := γ b) (ε := ε) (ω := ω) l = 1 := c2
      have := hp.length_eq
      simp at this; omega

/-- **C74, a failure of a map's task is not swallowed.** Once the error of a task of a map has been published, its mapped stream does not end without an error. -/
theorem C74_map_surfaces (a : A) (hf : MapFaithful exec text (op a) (encM a) (decM a)) (ls ls' : List (Label (A ⊕ B) (DirLabel α γ ε ω) O χ ω)) (s s' : St (A ⊕ B) (DirSt α β γ ε) T O ε χ)
    (h : dirRun op comb empty dupErr encM decM encF decF cfg exec text ls = some s) (h' : run (dirs op comb empty dupErr encM decM encF decF) cfg exec text s ls' = some s') (e : ε)
    (he : .error e ∈ s.results (.inl a)) (hn : NoReturn (.inl a) s') (hc : ∀ l ∈ mapSteps (ls ++ ls') a, l.connected = true) (hend : (mapOf s' a).ended = true) :
    MapS.errs (mapOf s' a).outs ≠ [] := by
  intro herr
  have hacc := C74_map_accounts a hf (ls ++ ls') s' (Lts.run_append.2 ⟨s, h, h'⟩) hn hc hend
  have := error_stays (j := .inl a) (Q := fun x : MapS.St (α a) (β a) ε => ∃ e, .error e ∈ x.outs) (e := e) ?_ ?_ h h' (.inl he)
  · rcases this with h1 | ⟨e, h1⟩
    · rw [hacc.1] at h1; simp at h1
    · have : e ∈ MapS.errs (mapOf s' a).outs := MapS.mem_errs.2 h1
      rw [herr] at this; simp at this
  · intro x l rs x' ts rs' hst hm
    obtain ⟨_, _, c2⟩ := map_takes hst
    rcases c2 with ⟨rfl, _⟩ | ⟨r, hp, _, h3⟩
    · exact .inl hm
    · rcases List.mem_cons.1 (hp.mem_iff.1 hm) with rfl | hm
      · rcases h3 with h3 | ⟨e', h3⟩
        · exact .inr ⟨e, by rw [h3]; simp [Except.bind]⟩
        · exact .inr ⟨e', by rw [h3]; simp⟩
      · exact .inl hm
  · rintro x l rs x' ts rs' hst ⟨e, hm⟩
    obtain ⟨_, c1, _⟩ := map_takes hst
    exact ⟨e, c1.subset hm⟩

/-- **C74, a failure of a fold's task is not swallowed.** Once the error of a task of a fold has been published, the fold does not return a value. -/
theorem C74_fold_surfaces (b : B) (hf : FoldFaithful exec text (comb b) (encF b) (decF b)) (ls ls' : List (Label (A ⊕ B) (DirLabel α γ ε ω) O χ ω)) (s s' : St (A ⊕ B) (DirSt α β γ ε) T O ε χ)
    (h : dirRun op comb empty dupErr encM decM encF decF cfg exec text ls = some s) (h' : run (dirs op comb empty dupErr encM decM encF decF) cfg exec text s ls' = some s') (e : ε)
    (he : .error e ∈ s.results (.inr b)) (hn : NoReturn (.inr b) s') (v : γ b) : (foldOf s' b).outcome ≠ some (.ok v) := by
  intro hv
  have hacc := C74_fold_accounts b hf (ls ++ ls') s' (Lts.run_append.2 ⟨s, h, h'⟩) hn v hv
  have := error_stays (j := .inr b) (Q := fun x : Fold.St (γ b) ε => x.outcome = some (.err e)) (e := e) ?_ ?_ h h' (.inl he)
  · rcases this with h1 | h1
    · rw [hacc.1] at h1; simp at h1
    · have : (foldOf s' b).outcome = some (.err e) := h1
      rw [hv] at this; simp at this
  · intro x l rs x' ts rs' hst hm
    obtain ⟨_, _, c2⟩ := fold_takes hst
    rcases c2 with ⟨rfl, _⟩ | ⟨r, hp, _, h3⟩
    · exact .inl hm
    · rcases List.mem_cons.1 (hp.mem_iff.1 hm) with rfl | hm
      · exact .inr (h3 e rfl)
      · exact .inl hm
  · intro x l rs x' ts rs' hst hq
    obtain ⟨_, c1, _⟩ := fold_takes hst
    rw [c1] at hq; simp at hq

/-- **C74, a lost task of a map is not swallowed.** Once a delivery of a task of a map is lost (`Lost`: an ignored error, a worker told to stop, a crash between the acknowledgement and the
result, …), its mapped stream does not end any more. -/
theorem C74_map_loss (a : A) (hf : MapFaithful exec text (op a) (encM a) (decM a)) (ls ls' : List (Label (A ⊕ B) (DirLabel α γ ε ω) O χ ω)) (s s' : St (A ⊕ B) (DirSt α β γ ε) T O ε χ)
    (h : dirRun op comb empty dupErr encM decM encF decF cfg exec text ls = some s) (h' : run (dirs op comb empty dupErr encM decM encF decF) cfg exec text s ls' = some s')
    (hl : ¬ NoLoss (.inl a) s) (hn : NoReturn (.inl a) s') (hc : ∀ l ∈ mapSteps (ls ++ ls') a, l.connected = true) : (mapOf s' a).ended = false := by
  rw [← Bool.not_eq_true]
  intro hend
  have hacc := C74_map_accounts a hf (ls ++ ls') s' (Lts.run_append.2 ⟨s, h, h'⟩) hn hc hend
  simp only [NoLoss, not_forall, not_not] at hl
  obtain ⟨n, d, h1, h2, h3⟩ := hl
  obtain ⟨d', g1, g2, _, g3, _⟩ := C69_forever ls ls' s s' h h' n d h1 h3
  have := hacc.2.2 d' (List.mem_of_getElem? g1) (g2 ▸ h2)
  rw [g3] at this; simp at this

/-- **C74, a lost task of a fold is not swallowed.** Once a delivery of a task of a fold is lost, the fold does not return a value. -/
theorem C74_fold_loss (b : B) (hf : FoldFaithful exec text (comb b) (encF b) (decF b)) (ls ls' : List (Label (A ⊕ B) (DirLabel α γ ε ω) O χ ω)) (s s' : St (A ⊕ B) (DirSt α β γ ε) T O ε χ)
    (h : dirRun op comb empty dupErr encM decM encF decF cfg exec text ls = some s) (h' : run (dirs op comb empty dupErr encM decM encF decF) cfg exec text s ls' = some s')
    (hl : ¬ NoLoss (.inr b) s) (hn : NoReturn (.inr b) s') (v : γ b) : (foldOf s' b).outcome ≠ some (.ok v) := by
  intro hv
  have hacc := C74_fold_accounts b hf (ls ++ ls') s' (Lts.run_append.2 ⟨s, h, h'⟩) hn v hv
  simp only [NoLoss, not_forall, not_not] at hl
  obtain ⟨n, d, h1, h2, h3⟩ := hl
  obtain ⟨d', g1, g2, _, g3, _⟩ := C69_forever ls ls' s s' h h' n d h1 h3
  have := hacc.2.2 d' (List.mem_of_getElem? g1) (g2 ▸ h2)
  rw [g3] at this; simp at this

end
/-! ## The text of an error

With messages as bytes. -/

section
open Exec Wire
variable {ε A B : Type} [DecidableEq A] [DecidableEq B] [Anyhow ε] {join dupErr : ε} {ops : List (OpDef ε)} {k kt : Serializer} {M : A → MapJob ε} {F : B → FoldJob ε}
  {cfg : Worker.Cfg (A ⊕ B)}

theorem localOp_err {d : OpDef ε} {op : d.Op} {x : Circ} {a : d.In} {e : ε} (h : localOp join k kt d op x a = .error e)
    (hd : (remoteExecute x.env x.fuel fun i => localAttempt join d kt op a (x.moment i)).2 ≠ none) : Reports join kt d op a e := by
  unfold localOp at h
  split at h
  · simp at h
  · rename_i e' hr
    obtain ⟨n, e0, e1, _, h1, _, rfl⟩ := remoteExecute_err hr
    rw [textBytes_eq] at h
    simp only [Except.error.injEq] at h
    exact ⟨_, e1, h1, h.symm⟩
  · exact absurd ‹_› hd

/-- **C74, the text of a map's error.** An error yielded by a map, if it is none of the leader's side, carries the text of the error with which an attempt of the operation on one of the
map's own inputs failed. (The executions whose end is observed have ended: `hdone`.) -/
theorem C74_map_text (a : A) (hreg : Registered ops (M a).d (M a).id) (ls) (s) (h : bytesRun join dupErr ops k kt M F cfg ls = some s)
    (hdone : ∀ w x p, Label.finish w x ∈ ls → p ∈ MapS.inputs (mapSteps ls a) → (remoteExecute x.env x.fuel fun i => localAttempt join (M a).d kt (M a).op p.2 (x.moment i)).2 ≠ none)
    (e : ε) (he : e ∈ MapS.errs (mapOf s a).outs) :
    (∃ l ∈ mapSteps ls a, l.failure = some e) ∨ ∃ p ∈ MapS.inputs (mapSteps ls a), Reports join kt (M a).d (M a).op p.2 e := by
  rcases C74_map_own_errors a (map_faithful hreg) ls s h e he with h1 | ⟨w, x, p, h1, h2, h3⟩
  · exact .inl h1
  · exact .inr ⟨p, h2, localOp_err h3 (hdone w x p h1 h2)⟩

/-- **C74, the text of a fold's error.** The error returned by a fold, if it is none of the leader's side and no second final result, carries the text of the error with which an attempt to
combine two values failed, combinations, in order, of two neighbouring runs of the fold's own inputs. -/
theorem C74_fold_text (b : B) (hreg : Registered ops (F b).d (F b).id) (ls) (s) (h : bytesRun join dupErr ops k kt M F cfg ls = some s)
    (hdone : ∀ w x u v, Label.finish w x ∈ ls → (remoteExecute x.env x.fuel fun i => localAttempt join (F b).d kt (F b).op (u, v) (x.moment i)).2 ≠ none) (hn : NoReturn (.inr b) s)
    (hnd : ((Fold.inputs (foldSteps ls b)).map (·.1)).Nodup) (e : ε) (he : (foldOf s b).outcome = some (.err e)) :
    (∃ l ∈ foldSteps ls b, l.failure = some e) ∨
    ∃ start xs ys u v, Tree (F b).Gives xs u ∧ Tree (F b).Gives ys v ∧ (∀ p ∈ indexed start (xs ++ ys), p ∈ Fold.inputs (foldSteps ls b)) ∧
      Reports join kt (F b).d (F b).op (u, v) e := by
  rcases C74_fold_own_errors b (fold_faithful hreg) ls s h e he with h1 | ⟨w, x, st, xs, ys, u, v, h1, h2, h3, h4, h5⟩ | ⟨_, h1⟩
  · exact .inl h1
  · exact .inr ⟨st, xs, ys, u, v, h2.mono fun _ _ _ => gives_fold, h3.mono fun _ _ _ => gives_fold, h4, localOp_err h5 (hdone w x u v h1)⟩
  · exact absurd ⟨hn, hnd⟩ h1
end

/-! ## Examples -/

namespace FailDemo
open Exec Wire

abbrev sz := BytesDemo.sz
abbrev usz := BytesDemo.usz

/-- A map that divides 100, retrying twice on zero, and a fold that adds up to 9. -/
def recip : OpDef String := ⟨"Recip", Unit, USz, USz, .ofSerde Unit "big" "undecodable", usz, usz,
  fun _ x _ => if x.1 = 0 then .err (.transient "division by zero" (.immediate 1) .terminate) else .ok (sz (100 / x.1))⟩
def M (_ : Unit) : MapJob String := ⟨⟨"m", by decide +kernel⟩, recip, (), ⟨0, by decide⟩⟩
def F (b : Bool) : FoldJob String := ⟨⟨if b then "f" else "g", by cases b <;> decide +kernel⟩, "Sum", Unit, USz, .ofSerde Unit "big" "undecodable", .ofSerde (USz × USz) "big" "undecodable", usz,
  fun _ x y _ => if x.1 + y.1 < 10 then .ok (sz (x.1 + y.1)) else .err (.fatal "overflow" .terminate), (), ⟨1, by decide⟩, sz 0⟩
def ops : List (OpDef String) := [recip, (F true).d]
def env : Circ := ⟨⟨fun _ => 0, fun _ => 0, fun _ c => c, fun c => c⟩, 0, fun i => i⟩

abbrev Lab := Label (Unit ⊕ Bool) (DirLabel (fun a : Unit => (M a).d.In) (fun b : Bool => (F b).Elem) String Circ) Buf String Circ
abbrev mapL (l : MapS.Label USz String Circ) : Lab := .lead (.inl ()) l
abbrev foldL (l : Fold.Label USz String Circ) : Lab := .lead (.inr true) l
abbrev go (ls : List Lab) := bytesRun "join" "twice" ops .cbor .postcard M F Demo.cfg ls

def start (w : Nat) : List Lab := [.work w .checkFlag, .work w .checkTerm, .work w .start, .finish w env]

/-- The map's input is 0, the fold's are 3 and 9: both tasks fail, and their errors are published. -/
def bad : List Lab :=
  [mapL (.item 0 (sz 0)), mapL (.send 0), mapL .confirm, mapL .inputEnd, foldL (.item 0 (sz 3)), foldL (.item 1 (sz 9)), foldL (.publish 0), foldL .inputEnd, .deliver 0 1, .deliver 1 0] ++
  start 0 ++ start 1 ++ [.work 0 .mark, .work 0 .pubErr, .work 0 .nack, .work 1 .mark, .work 1 .pubErr, .work 1 .nack]

/-- Both leaders read the results. -/
def readAll : List Lab := [mapL (.recv 0), mapL .recvEnd, mapL .finish, foldL (.recv 0)]

theorem registered_map : Registered ops (M ()).d (M ()).id := ⟨rfl, Codec.ofSerde_lawful (α := Unit) trivial ⟨trivial, by decide⟩ _ _, BytesDemo.usz_lawful, BytesDemo.usz_lawful⟩

theorem registered_fold : Registered ops (F true).d (F true).id := by
  have := BytesDemo.registered_fold
  exact ⟨rfl, this.op, this.inp, this.out⟩

instance : DecidableEq (F true).Elem := inferInstanceAs (DecidableEq USz)

def broken := (go bad).get (by decide +kernel)
def rest := (go (bad ++ readAll)).get (by decide +kernel)

/-- The errors are waiting before the leaders read them, and are yielded afterwards. -/
example : go bad = some broken ∧ broken.results (.inl ()) = [.error "Fatal operation error: division by zero"] ∧ broken.results (.inr true) = [.error "Fatal operation error: overflow"] ∧
    go (bad ++ readAll) = some rest ∧ (mapOf rest ()).ended = true ∧ MapS.errs (mapOf rest ()).outs = ["Fatal operation error: division by zero"] ∧
    (foldOf rest true).outcome = some (.err "Fatal operation error: overflow") := by
  refine ⟨by simp [broken], by decide +kernel, by decide +kernel, by simp [rest], by decide +kernel, by decide +kernel, by decide +kernel⟩

/-- Hypotheses of `C74_map_text`, `C74_fold_text`, `C74_map_surfaces` and `C74_fold_surfaces`: met. -/
example : (∀ l ∈ mapSteps (bad ++ readAll) (), l.connected = true) ∧ NoReturn (.inl ()) rest ∧ NoReturn (.inr true) rest ∧
    MapS.inputs (mapSteps (bad ++ readAll) ()) = [(0, (sz 0 : USz))] ∧ ((Fold.inputs (foldSteps (bad ++ readAll) true)).map (·.1)).Nodup ∧
    (∀ w x p, Label.finish w x ∈ bad ++ readAll → p ∈ MapS.inputs (mapSteps (bad ++ readAll) ()) →
      (remoteExecute x.env x.fuel fun i => localAttempt "join" (M ()).d .postcard (M ()).op p.2 (x.moment i)).2 ≠ none) ∧
    (∀ w x u v, Label.finish w x ∈ bad ++ readAll → (remoteExecute x.env x.fuel fun i => localAttempt "join" (F true).d .postcard (F true).op (u, v) (x.moment i)).2 ≠ none) := by
  have hin : MapS.inputs (mapSteps (bad ++ readAll) ()) = [(0, (sz 0 : USz))] := rfl
  have hfin : ∀ w x, (Label.finish w x : Lab) ∈ bad ++ readAll → x = env := by
    intro w x h
    simp [bad, readAll, start] at h
    rcases h with h | h <;> exact h.2
  refine ⟨by decide +kernel, by unfold NoReturn; decide +kernel, by unfold NoReturn; decide +kernel, hin, by decide +kernel, ?_, ?_⟩
  · intro w x p h hp
    rw [hin] at hp
    rw [hfin w x h, List.mem_singleton.1 hp]
    decide +kernel
  · intro w x u v h
    rw [hfin w x h]
    change (remoteExecute env.env env.fuel (localAttempt "join" (F true).d .postcard (F true).op (u, v))).2 ≠ none
    cases h0 : localAttempt "join" (F true).d .postcard (F true).op (u, v) 0 with
    | ok c => rw [(C33_first env.env env.fuel _).1 c h0]; simp
    | error e =>
      cases e with
      | fatal e s => rw [(C33_first env.env env.fuel _).2 e s h0]; simp
      | transient e r s =>
        exfalso
        have hx : (F true).d.execute (F true).op (u, v) 0 = if (show USz from u).1 + (show USz from v).1 < 10 then .ok (sz ((show USz from u).1 + (show USz from v).1))
          else .err (.fatal "overflow" .terminate) := rfl
        unfold localAttempt at h0
        rw [hx] at h0
        by_cases hlt : (show USz from u).1 + (show USz from v).1 < 10
        · rw [if_pos hlt] at h0; simp only at h0; split at h0 <;> simp at h0
        · rw [if_neg hlt] at h0; simp at h0

/-- Hypotheses of `C74_map_accounts` and `C74_fold_accounts`: met, and there were tasks. -/
example : BytesDemo.go BytesDemo.calm = some BytesDemo.rest ∧ NoReturn (.inl ()) BytesDemo.rest ∧ NoReturn (.inr true) BytesDemo.rest ∧
    (∀ l ∈ mapSteps BytesDemo.calm (), l.connected = true) ∧ (mapOf BytesDemo.rest ()).ended = true ∧ (foldOf BytesDemo.rest true).outcome = some (.ok (sz 7 : USz)) ∧
    BytesDemo.rest.dels.length = 2 := by
  refine ⟨by simp [BytesDemo.rest], by unfold NoReturn; decide +kernel, by unfold NoReturn; decide +kernel, by decide +kernel, BytesDemo.rest_ended, BytesDemo.rest_folded, by decide +kernel⟩

/-- Hypotheses of `C74_map_loss`: met; the map's input ends after its task was lost. -/
example : ∃ s s', Demo.go Demo.hurt = some s ∧ Demo.go (Demo.hurt ++ [Demo.mapL .inputEnd]) = some s' ∧ ¬ NoLoss (.inl ()) s ∧ NoReturn (.inl ()) s' ∧
    (∀ l ∈ mapSteps (Demo.hurt ++ [Demo.mapL .inputEnd]) (), l.connected = true) ∧ (mapOf s' ()).closed = true := by
  obtain ⟨s, h1, _, _, _, h2⟩ := Demo.C70_witness
  cases h1
  exact ⟨_, _, rfl, rfl, h2, by unfold NoReturn; decide, by decide, rfl⟩

/-- Hypotheses of `C74_fold_loss`: met; a worker dies between the acknowledgement of the fold's task and the publication of its result. -/
def cut : List Demo.Lab :=
  [Demo.foldL (.item 0 3), Demo.foldL (.item 1 4), Demo.foldL (.publish 0), Demo.foldL .inputEnd, .deliver 0 0, .work 0 .checkFlag, .work 0 .checkTerm, .work 0 .start, .finish 0 7, .work 0 .ack,
   .work 0 .crash]

example : ∃ s, Demo.go cut = some s ∧ ¬ NoLoss (.inr true) s ∧ NoReturn (.inr true) s := by
  refine ⟨_, rfl, ?_, by unfold NoReturn; decide⟩
  intro h
  exact h 0 ⟨0, ⟨.inr true, .inr ⟨0, 1, 3, 4⟩⟩, .settled, false⟩ rfl rfl ⟨rfl, rfl, by decide⟩

end FailDemo

end System
end Paladin
