import Verif.Proofs.SystemFails
import Verif.Proofs.SystemLive
import Verif.Props.System
import Verif.Props.FoldLive
/-! # Where the results of a map or a fold come from, in the whole system -/
namespace Paladin

namespace Fold
variable {comb : ω → α → α → Except ε α} {empty : α} {dupErr : ε}

/-- A fold that has returned a value has taken a result for every task it sent. -/
theorem ok_balanced (ls : List (Label α ε ω)) (s : St α ε) (v : α) (h : run comb empty dupErr init ls = some s) (hv : s.outcome = some (.ok v))
    (hl : ∀ l ∈ ls, l.exactlyOnce = true) : (ls.map Label.snd).sum ≤ (ls.map Label.rcv).sum := by
  have hll : ∀ l ∈ ls, l.lossless = true := by
    intro l hm
    have h1 := hl l hm
    by_cases h2 : l.loses = true
    · exact absurd hv (C09_loss_never_ok ls s v h hl ⟨l, hm, h2⟩)
    · cases l <;> simp_all [Label.lossless, Label.loses, Label.exactlyOnce]
  have hnd : ((inputs ls).map (·.1)).Nodup := by
    rcases C05_fold_ok ls s v h hv with ⟨h1, _⟩ | ⟨st, xs, hp, _⟩
    · simp [h1]
    · exact nodup_of_block hp
  obtain ⟨ls', l, s', rfl, hr, ho, hst⟩ := ok_last h hv
  have hb := balance_run ls' s' hr fun l hl' => hll l (by simp [hl'])
  have hnd' : ((inputs ls').map (·.1)).Nodup := by
    rw [inputs_append, List.map_append] at hnd; exact (List.nodup_append.1 hnd).1
  have hp := part_run ls' s' hr (fun l hl' => hl l (by simp [hl'])) hnd' ho
  have he := (early_run ls' s' hr).emp ho
  simp only [List.map_append, List.sum_append, List.map_cons, List.map_nil, List.sum_cons, List.sum_nil]
  cases hst with
  | inputEnd hsz =>
    unfold onInputEnd at hv
    simp only at hv
    split at hv
    · rename_i h0
      obtain ⟨_, h1, h2⟩ := he (by omega)
      simp [hb, h1, h2, Label.snd]
    · rename_i h0
      obtain ⟨_, h1, h2⟩ := he (by omega)
      simp [hb, h1, h2, Label.snd]
    · simp [ho] at hv
  | finish v' hf =>
    obtain ⟨_, _, _, h1, h2⟩ := hp.cls (by simp [hf])
    simp [hb, h1, h2, Label.snd]
  | recv k r rest hn hp' =>
    exfalso
    unfold onResult at hv
    split at hv
    · simp at hv
    · rename_i x
      obtain ⟨_, _, _, _, _, _, f7⟩ := tryDispatch_fields { s' with results := rest } x
      simp only at hv
      split at hv
      · split at hv
        · split at hv
          · simp [ho] at hv
          · simp at hv
        · rw [f7] at hv; simp [ho] at hv
      · rw [f7] at hv; simp [ho] at hv
  | item i a hs' =>
    exfalso
    unfold onItem at hv; simp only at hv; split at hv
    · simp [ho] at hv
    · obtain ⟨_, _, _, _, _, _, f7⟩ := tryDispatch_fields { s' with count := s'.count + 1, notified := true } (⟨i, i, a⟩ : Seg α)
      rw [f7] at hv; simp [ho] at hv
  | _ => simp [ho] at hv

/-- With distinct indices and every message delivered at most once, an error is a failure on the leader's side or of a combination. -/
theorem own_errors (ls : List (Label α ε ω)) (s : St α ε) (h : run comb empty dupErr init ls = some s) (hl : ∀ l ∈ ls, l.exactlyOnce = true) (hnd : ((inputs ls).map (·.1)).Nodup)
    (e : ε) (he : s.outcome = some (.err e)) : (∃ l ∈ ls, l.failure = some e) ∨ CombineFails comb (inputs ls) e := by
  revert hl hnd e he
  refine run_induction (P := fun ls s => (∀ l ∈ ls, l.exactlyOnce = true) → ((inputs ls).map (·.1)).Nodup → ∀ e, s.outcome = some (.err e) → (∃ l ∈ ls, l.failure = some e) ∨ CombineFails comb (inputs ls) e) ?_ ?_ ls s h
  · intro _ _ e he; simp [init] at he
  · intro ls l s s' hr _ hst hl hnd e he
    have ho := step_outcome hst
    have hin : ∀ p ∈ inputs ls, p ∈ inputs (ls ++ [l]) := by rw [inputs_append]; simp +contextual
    have hnd' : ((inputs ls).map (·.1)).Nodup := by
      rw [inputs_append, List.map_append] at hnd; exact (List.nodup_append.1 hnd).1
    have hp := part_run ls s hr (fun l hl' => hl l (by simp [hl'])) hnd' ho
    have hst := stepR_of_step hst
    cases hst with
    | item i a hs =>
      exfalso
      obtain ⟨_, _, _, _, _, _, f7⟩ := tryDispatch_fields { s with count := s.count + 1, notified := true } (⟨i, i, a⟩ : Seg α)
      unfold onItem at he; simp only at he; split at he
      · simp [ho] at he
      · rw [f7] at he; simp [ho] at he
    | inputEnd hs =>
      exfalso
      unfold onInputEnd at he; simp only at he; split at he
      · simp at he
      · split at he <;> simp at he
      · simp [ho] at he
    | inputErr e' hs => exact .inl ⟨.inputErr e', by simp, by simpa [Label.failure] using he⟩
    | ioErr e' => exact .inl ⟨.ioErr e', by simp, by simpa [Label.failure] using he⟩
    | recv k r rest hn hpm =>
      cases r with
      | err e' =>
        simp [onResult] at he
        subst he
        exact .inr (((from_run ls s hr).res e' (hpm.mem_iff.2 (by simp))).mono hin)
      | ok x =>
        exfalso
        obtain ⟨_, _, _, _, _, _, f7⟩ := tryDispatch_fields { s with results := rest } x
        unfold onResult at he; simp only at he
        split at he
        · split at he
          · split at he
            · simp [ho] at he
            · rename_i hf
              have := (hp.cls (by simp [hf])).2.2.2.2
              rw [this] at hpm
              simpa using hpm.length_eq
          · rw [f7] at he; simp [ho] at he
        · rw [f7] at he; simp [ho] at he
    | _ => simp [ho] at he

end Fold

namespace System
open Retry

section
variable {A B : Type} [DecidableEq A] [DecidableEq B] {α β : A → Type} {γ : B → Type} {T O ε χ ω : Type} {op : (a : A) → ω → α a → Except ε (β a)}
  {comb : (b : B) → ω → γ b → γ b → Except ε (γ b)} {empty : (b : B) → γ b} {dupErr : ε} {encM : (a : A) → Nat × α a → Option T} {decM : (a : A) → O → Except ε (Nat × β a)}
  {encF : (b : B) → Fold.CTask (γ b) → Option T} {decF : (b : B) → O → Except ε (Seg (γ b))} {cfg : Worker.Cfg (A ⊕ B)} {exec : ω → T → Except (OpError χ) O} {text : OpError χ → ε}

theorem mem_left {l : MapS.Label (α a) ε ω} {rs : List R} {r : R} (h : r ∈ mapLeft l rs) : r ∈ rs := by
  unfold mapLeft at h
  split at h
  · exact List.mem_of_mem_eraseIdx h
  · exact List.mem_of_mem_eraseIdx h
  · exact h

theorem mem_leftF {α : Type} {l : Fold.Label α ε ω} {rs : List R} {r : R} (h : r ∈ foldLeft l rs) : r ∈ rs := by
  unfold foldLeft at h
  split at h
  · exact List.mem_of_mem_eraseIdx h
  · exact h

theorem mapSteps_append (xs ys : List (Label (A ⊕ B) (DirLabel α γ ε ω) O χ ω)) (a : A) : mapSteps (xs ++ ys) a = mapSteps xs a ++ mapSteps ys a := Label.leads_append ..

theorem mapSteps_lead (a : A) (l : MapS.Label (α a) ε ω) : mapSteps ([.lead (.inl a) l] : List (Label (A ⊕ B) (DirLabel α γ ε ω) O χ ω)) a = [l] := by
  simp [mapSteps, Label.leads]; rfl

theorem foldSteps_append (xs ys : List (Label (A ⊕ B) (DirLabel α γ ε ω) O χ ω)) (b : B) : foldSteps (xs ++ ys) b = foldSteps xs b ++ foldSteps ys b := Label.leads_append ..

theorem foldSteps_lead (b : B) (l : Fold.Label (γ b) ε ω) : foldSteps ([.lead (.inr b) l] : List (Label (A ⊕ B) (DirLabel α γ ε ω) O χ ω)) b = [l] := by
  simp [foldSteps, Label.leads]; rfl

theorem mem_mapSteps (ls : List (Label (A ⊕ B) (DirLabel α γ ε ω) O χ ω)) (a : A) (l : MapS.Label (α a) ε ω) : l ∈ mapSteps (ls ++ [.lead (.inl a) l]) a := by
  rw [mapSteps_append, mapSteps_lead]; simp

theorem mem_foldSteps (ls : List (Label (A ⊕ B) (DirLabel α γ ε ω) O χ ω)) (b : B) (l : Fold.Label (γ b) ε ω) : l ∈ foldSteps (ls ++ [.lead (.inr b) l]) b := by
  rw [foldSteps_append, foldSteps_lead]; simp

/-- What waits for the leader of a map are outcomes of ended executions on inputs of this map. -/
theorem map_trail (a : A) (hf : MapFaithful exec text (op a) (encM a) (decM a)) {ls : List (Label (A ⊕ B) (DirLabel α γ ε ω) O χ ω)} {s : St (A ⊕ B) (DirSt α β γ ε) T O ε χ}
    (h : dirRun op comb empty dupErr encM decM encF decF cfg exec text ls = some s) :
    Trail exec text (.inl a) (fun ls t => ∃ p ∈ MapS.inputs (mapSteps ls a), encM a p = some t) ls s := by
  refine trail_run ?_ ?_ h
  · rintro ls l t ⟨p, h1, h2⟩
    refine ⟨p, ?_, h2⟩
    rw [mapSteps_append, MapS.inputs_append]; simp [h1]
  · intro ls s l x ts rs hr hst
    obtain ⟨hl, s', hs', rfl, hts, rfl⟩ := map_step hst
    obtain ⟨mls, m, h1, h2, h3, _⟩ := map_alone a hf hr
    refine ⟨fun t ht => ?_, fun r hr => mem_left hr⟩
    have : some t ∈ s'.tasks.map (encM a) := by rw [hts]; exact List.mem_map_of_mem ht
    obtain ⟨p, hp, hpt⟩ := List.mem_map.1 this
    refine ⟨p, ?_, hpt⟩
    have hin := (MapS.from_run mls m h1).inf p (by
      have := tasks_of_map hl hs' hp
      have e : (s.lead (.inl a) : MapS.St (α a) (β a) ε).inflight = m.inflight := by
        have : (s.lead (.inl a) : MapS.St (α a) (β a) ε) = { m with tasks := [], results := [] } := h2
        rw [this]
      rwa [e] at this)
    rw [h3] at hin
    rw [mapSteps_append, MapS.inputs_append]; simp [hin]

/-- What waits for the leader of a fold are outcomes of ended executions on combinations, in order, of inputs of this fold. -/
theorem fold_trail (b : B) (hf : FoldFaithful exec text (comb b) (encF b) (decF b)) {ls : List (Label (A ⊕ B) (DirLabel α γ ε ω) O χ ω)} {s : St (A ⊕ B) (DirSt α β γ ε) T O ε χ}
    (h : dirRun op comb empty dupErr encM decM encF decF cfg exec text ls = some s) :
    Trail exec text (.inr b) (fun ls t => ∃ c, Fold.TaskOk (Fold.Returns (comb b)) (Fold.inputs (foldSteps ls b)) c ∧ encF b c = some t) ls s := by
  refine trail_run ?_ ?_ h
  · rintro ls l t ⟨c, h1, h2⟩
    refine ⟨c, Fold.TaskOk.mono (fun p hp => ?_) h1, h2⟩
    rw [foldSteps_append, Fold.inputs_append]; simp [hp]
  · intro ls s l x ts rs hr hst
    obtain ⟨hl, s', hs', rfl, hts, rfl⟩ := fold_step hst
    obtain ⟨fls, m, h1, h2, h3⟩ := fold_alone b hf hr
    refine ⟨fun t ht => ?_, fun r hr => mem_leftF hr⟩
    have : some t ∈ s'.tasks.map (encF b) := by rw [hts]; exact List.mem_map_of_mem ht
    obtain ⟨c, hc, hct⟩ := List.mem_map.1 this
    refine ⟨c, ?_, hct⟩
    have hin := (Fold.safe_run fls m h1).1.outb c (by
      have := tasks_of_fold hl hs' hc
      have e : (s.lead (.inr b) : Fold.St (γ b) ε).outbox = m.outbox := by
        have : (s.lead (.inr b) : Fold.St (γ b) ε) = { m with tasks := [], results := [] } := h2
        rw [this]
      rwa [e] at this)
    rw [h3] at hin
    refine Fold.TaskOk.mono (fun p hp => ?_) hin
    rw [foldSteps_append, Fold.inputs_append]; simp [hp]

theorem once_toFold {α : Type} {jls : List (JobLabel (Fold.Label α ε ω) ω)} (hm : ∀ l, .lead l ∈ jls → foldLead l = true) (hd : ∀ l ∈ jls, l.dups = false) :
    ∀ l ∈ jls.map toFold, l.exactlyOnce = true := by
  intro l hl
  obtain ⟨x, hx, rfl⟩ := List.mem_map.1 hl
  cases x with
  | lead l => have := hm l hx; cases l <;> simp_all [foldLead, toFold, Fold.Label.exactlyOnce]
  | dup k => have := hd _ hx; simp [JobLabel.dups] at this
  | _ => rfl

theorem sum_toFold {α : Type} (f : Fold.Label α ε ω → Nat) (h0 : ∀ l, foldLead l = false → f l = 0) (jls : List (JobLabel (Fold.Label α ε ω) ω)) :
    ((jls.map toFold).map f).sum = ((JobLabel.leads jls).map f).sum := by
  induction jls with
  | nil => rfl
  | cons l jls ih => rw [List.map_cons, List.map_cons, List.sum_cons, ih]; cases l <;> simp [toFold, JobLabel.leads] <;> exact h0 _ rfl

theorem sum_toMap {α : Type} (f : MapS.Label α ε ω → Nat) (h0 : ∀ l, mapLead l = false → f l = 0) (jls : List (JobLabel (MapS.Label α ε ω) ω)) :
    ((jls.map toMap).map f).sum = ((JobLabel.leads jls).map f).sum := by
  induction jls with
  | nil => rfl
  | cons l jls ih => rw [List.map_cons, List.map_cons, List.sum_cons, ih]; cases l <;> simp [toMap, JobLabel.leads] <;> exact h0 _ rfl

/-- A fold as it runs alone, with what the counts need. -/
theorem fold_once (b : B) (hf : FoldFaithful exec text (comb b) (encF b) (decF b)) {ls : List (Label (A ⊕ B) (DirLabel α γ ε ω) O χ ω)} {s : St (A ⊕ B) (DirSt α β γ ε) T O ε χ}
    (h : dirRun op comb empty dupErr encM decM encF decF cfg exec text ls = some s) (hn : NoReturn (.inr b) s) :
    ∃ fls m, Fold.run (comb b) (empty b) dupErr Fold.init fls = some m ∧ foldOf s b = { m with tasks := [], results := [] } ∧ Fold.inputs fls = Fold.inputs (foldSteps ls b) ∧
      (∀ l ∈ fls, l.exactlyOnce = true) ∧ (m.outcome = none → m.results = (s.results (.inr b)).map fun r => toRes (r.bind (decF b))) ∧
      (fls.map Fold.Label.snd).sum = ((foldSteps ls b).map Fold.Label.snd).sum ∧ (fls.map Fold.Label.rcv).sum = ((foldSteps ls b).map Fold.Label.rcv).sum := by
  obtain ⟨jls, J, h1, h2, h3, h4, h5, h6⟩ := C68_isolation ls s h (.inr b)
  obtain ⟨pre, m, g1, g2, g3, g4, g5⟩ := fold_job (exec := exec) (text := text) (foldFaithful_execute hf) jls J h1
  have hl : JobLabel.leads pre = foldSteps ls b := g2.trans h4
  refine ⟨pre.map toFold, m, g3, h2.symm.trans g4, by rw [inputs_toFold, hl], ?_, fun ho => ?_, ?_, ?_⟩
  · exact once_toFold (fun l hl => lead_of_job (cl := foldClient (comb b) (empty b) dupErr (encF b) (decF b)) lead_of_fold h1 l (g1.subset hl)) fun l hl => h5 hn l (g1.subset hl)
  · rw [(g5 ho).2.2, ← h3]
  · rw [sum_toFold _ (fun l h => by cases l <;> simp_all [foldLead, Fold.Label.snd]), hl]
  · rw [sum_toFold _ (fun l h => by cases l <;> simp_all [foldLead, Fold.Label.rcv]), hl]

/-- A map as it runs alone, with what the counts need. -/
theorem map_once (a : A) (hf : MapFaithful exec text (op a) (encM a) (decM a)) {ls : List (Label (A ⊕ B) (DirLabel α γ ε ω) O χ ω)} {s : St (A ⊕ B) (DirSt α β γ ε) T O ε χ}
    (h : dirRun op comb empty dupErr encM decM encF decF cfg exec text ls = some s) :
    ∃ mls m, MapS.run (op a) MapS.init mls = some m ∧ mapOf s a = { m with tasks := [], results := [] } ∧ MapS.inputs mls = MapS.inputs (mapSteps ls a) ∧
      (mls.map MapS.Label.snd).sum = ((mapSteps ls a).map MapS.Label.snd).sum ∧ (mls.map MapS.Label.rcv).sum = ((mapSteps ls a).map MapS.Label.rcv).sum ∧
      ((∀ l ∈ mapSteps ls a, l.connected = true) → ∀ l ∈ mls, l.connected = true) := by
  obtain ⟨jls, J, h1, h2, h3, h4, h5, h6⟩ := C68_isolation ls s h (.inl a)
  obtain ⟨pre, m, g1, g2, g3, g4, g5⟩ := map_job (exec := exec) (text := text) hf jls J h1
  have hl : JobLabel.leads pre = mapSteps ls a := g2.trans h4
  refine ⟨pre.map toMap, m, g3, h2.symm.trans g4, by rw [inputs_toMap, hl], ?_, ?_, fun hc => connected_toMap (by rw [hl]; exact hc)⟩
  · rw [sum_toMap _ (fun l h => by cases l <;> simp_all [mapLead, MapS.Label.snd]), hl]
  · rw [sum_toMap _ (fun l h => by cases l <;> simp_all [mapLead, MapS.Label.rcv]), hl]

/-- No second final result: if every message is delivered once and the indices are distinct, no result waits once the final result is there. -/
theorem fold_final (b : B) (hf : FoldFaithful exec text (comb b) (encF b) (decF b)) {ls : List (Label (A ⊕ B) (DirLabel α γ ε ω) O χ ω)} {s : St (A ⊕ B) (DirSt α β γ ε) T O ε χ}
    (h : dirRun op comb empty dupErr encM decM encF decF cfg exec text ls = some s) (hn : NoReturn (.inr b) s) (hnd : ((Fold.inputs (foldSteps ls b)).map (·.1)).Nodup)
    (ho : (foldOf s b).outcome = none) (hfin : (foldOf s b).final ≠ none) : s.results (.inr b) = [] := by
  obtain ⟨fls, m, h1, h2, h3, h4, h5, _⟩ := fold_once b hf h hn
  rw [h2] at ho hfin
  have := (Fold.part_run fls m h1 h4 (h3 ▸ hnd) ho).cls hfin
  have hres := h5 ho
  rw [this.2.2.2.2] at hres
  exact List.map_eq_nil_iff.1 hres.symm

theorem takeAt_perm {R S : Type} {f : R → S} {rs : List R} {k : Nat} {y : S} {rest : List S} (h : Fold.takeAt (rs.map f) k = some (y, rest)) :
    ∃ r, rs.Perm (r :: rs.eraseIdx k) ∧ y = f r := by
  rw [takeAt_map] at h
  obtain ⟨⟨r, rest'⟩, h1, h2⟩ := Option.map_eq_some_iff.1 h
  obtain rfl := takeAt_rest h1
  simp at h2
  exact ⟨r, Fold.takeAt_some h1, h2.1.symm⟩

/-- What a step of a map's leader sends, takes and yields. -/
theorem map_takes {α β : Type} {op : ω → α → Except ε β} {enc : Nat × α → Option T} {dec : O → Except ε (Nat × β)} {x : MapS.St α β ε} {l : MapS.Label α ε ω} {rs x' ts rs'}
    (h : (mapClient op enc dec).step x l rs = some (x', ts, rs')) : ts.length = l.snd ∧ x.outs <+: x'.outs ∧ (rs' = rs ∧ l.rcv = 0 ∨
      ∃ r, rs.Perm (r :: rs') ∧ l.rcv = 1 ∧ (x'.outs = x.outs ++ [r.bind dec] ∨ ∃ e, x'.outs = x.outs ++ [.error e])) := by
  obtain ⟨hl, s', hs', rfl, hts, rfl⟩ := map_step h
  have e := congrArg List.length hts
  simp only [List.length_map] at e
  rw [← e]
  clear e hts h
  have he := MapS.step_ended hs'
  simp only at he
  cases l <;> simp only [mapLead, Bool.false_eq_true] at hl <;> simp only [MapS.step, he, Bool.false_eq_true, if_false] at hs' <;> (repeat' split at hs') <;> simp only [Option.some.injEq, reduceCtorEq] at hs' <;> subst hs' <;>
    try (simp [MapS.Label.snd, MapS.Label.rcv, mapLeft, MapS.sendFail]; done)
  · rename_i k _ r rest hk
    obtain ⟨r0, h1, rfl⟩ := takeAt_perm hk
    exact ⟨rfl, by simp, .inr ⟨r0, h1, rfl, .inl rfl⟩⟩
  · rename_i r rest hk
    obtain ⟨r0, h1, rfl⟩ := takeAt_perm hk
    exact ⟨rfl, by simp, .inr ⟨r0, h1, rfl, .inr ⟨_, rfl⟩⟩⟩

/-- What a step of a fold's leader sends and takes. -/
theorem fold_takes {α : Type} {comb : ω → α → α → Except ε α} {empty : α} {dupErr : ε} {enc : Fold.CTask α → Option T} {dec : O → Except ε (Seg α)} {x : Fold.St α ε} {l : Fold.Label α ε ω} {rs x' ts rs'}
    (h : (foldClient comb empty dupErr enc dec).step x l rs = some (x', ts, rs')) : ts.length = l.snd ∧ x.outcome = none ∧ (rs' = rs ∧ l.rcv = 0 ∨
      ∃ r, rs.Perm (r :: rs') ∧ l.rcv = 1 ∧ ∀ e, r.bind dec = .error e → x'.outcome = some (.err e)) := by
  obtain ⟨hl, s', hs', rfl, hts, rfl⟩ := fold_step h
  have e := congrArg List.length hts
  simp only [List.length_map] at e
  rw [← e]
  clear e hts h
  have he := Fold.step_outcome hs'
  simp only at he
  refine ⟨?_, he, ?_⟩
  · have hs' := Fold.stepR_of_step hs'
    cases hs' with
    | item i a hs =>
      obtain ⟨_, _, _, f4, _, _, _⟩ := Fold.tryDispatch_fields ({ x with tasks := [], results := rs.map fun r => toRes (r.bind dec), count := x.count + 1, notified := true } : Fold.St α ε) (⟨i, i, a⟩ : Seg α)
      unfold Fold.onItem; simp only; split
      · rfl
      · rw [f4]; rfl
    | inputEnd hs => unfold Fold.onInputEnd; simp only; split <;> first | rfl | (split <;> rfl)
    | recv k r rest hn hp =>
      cases r with
      | err e => rfl
      | ok y =>
        obtain ⟨_, _, _, f4, _, _, _⟩ := Fold.tryDispatch_fields ({ x with tasks := [], results := rest } : Fold.St α ε) y
        unfold Fold.onResult; simp only; split
        · split
          · split <;> rfl
          · rw [f4]; rfl
        · rw [f4]; rfl
    | publish k t rest hp => simp [Fold.Label.snd]
    | exec k w t rest hp => simp [foldLead] at hl
    | loseTask k t rest hp => simp [foldLead] at hl
    | loseResult k t rest hp => simp [foldLead] at hl
    | dupTask k t hp => simp [foldLead] at hl
    | dupResult k t hp => simp [foldLead] at hl
    | _ => rfl
  · cases l <;> simp only [foldLead, Bool.false_eq_true] at hl <;> try exact .inl ⟨rfl, rfl⟩
    unfold Fold.step at hs'
    simp only [he] at hs'
    split at hs'
    · simp at hs'
    · (repeat' split at hs') <;> simp only [Option.some.injEq, reduceCtorEq] at hs'
      rename_i k _ _ r rest hk
      obtain ⟨r0, h1, rfl⟩ := takeAt_perm hk
      subst hs'
      refine .inr ⟨r0, h1, rfl, fun e h => ?_⟩
      rw [h]; rfl
end
end System
end Paladin
