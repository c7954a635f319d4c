import Verif.Model.SystemClients
import Verif.Proofs.System
import Verif.Spec.SystemClients
/-! # A map or fold alone is an execution of the model of map or fold -/
namespace Paladin
namespace System
open Retry

variable {α β T O ε χ ω : Type}

theorem takeAt_map (f : β → γ) (l : List β) (k : Nat) : Fold.takeAt (l.map f) k = (Fold.takeAt l k).map fun p => (f p.1, p.2.map f) := by
  unfold Fold.takeAt
  rw [List.getElem?_map]
  cases l[k]? <;> simp [List.eraseIdx_map]

theorem takeAt_rest {l rest : List β} {k : Nat} {x : β} (h : Fold.takeAt l k = some (x, rest)) : rest = l.eraseIdx k := by
  unfold Fold.takeAt at h; split at h <;> simp_all

/-- A step of the leader does not look at the tasks sent before, and takes at most one result. -/
theorem map_frame {op : ω → α → Except ε β} {s s' : MapS.St α β ε} {l : MapS.Label α ε ω} (hl : mapLead l = true) (rs : List R) (f : R → MapS.Item β ε)
    (h : MapS.step op { s with tasks := [], results := rs.map f } l = some s') (ts : List (Nat × α)) :
    MapS.step op { s with tasks := ts, results := rs.map f } l = some { s' with tasks := ts ++ s'.tasks } ∧ s'.results = (mapLeft l rs).map f := by
  cases l <;> simp only [mapLead, Bool.false_eq_true] at hl <;> simp only [MapS.step] at h ⊢ <;>
    (repeat' split at h) <;> simp only [Option.some.injEq, reduceCtorEq] at h <;> subst h <;> simp_all [mapLeft, MapS.sendFail, takeAt_map]
  all_goals (rename_i hk; rw [takeAt_rest hk, List.eraseIdx_map])

theorem fold_frame {comb : ω → α → α → Except ε α} {empty : α} {dupErr : ε} {s s' : Fold.St α ε} {l : Fold.Label α ε ω} (hl : foldLead l = true) (rs : List R)
    (f : R → Fold.Res α ε) (h : Fold.step comb empty dupErr { s with tasks := [], results := rs.map f } l = some s') (ts : List (Fold.CTask α)) :
    Fold.step comb empty dupErr { s with tasks := ts, results := rs.map f } l = some { s' with tasks := ts ++ s'.tasks } ∧ s'.results = (foldLeft l rs).map f := by
  cases l <;> simp only [foldLead, Bool.false_eq_true] at hl <;> simp only [Fold.step] at h ⊢ <;>
    (repeat' split at h) <;> simp only [Option.some.injEq, reduceCtorEq] at h <;> subst h <;>
    simp_all [foldLeft, Fold.onItem, Fold.tryDispatch, Fold.onInputEnd, Fold.onResult]
  all_goals (repeat' split) <;> simp_all
  all_goals (rw [← List.eraseIdx_map]; exact takeAt_rest (by assumption))

theorem mapM_some {γ : Type} {enc : β → Option γ} {l : List β} {ts : List γ} : l.mapM enc = some ts ↔ l.map enc = ts.map some := by
  induction l generalizing ts with
  | nil => cases ts <;> simp
  | cons x l ih =>
    rw [List.mapM_cons]
    cases hx : enc x with
    | none => cases ts <;> simp [hx]
    | some y =>
      cases hl : l.mapM enc with
      | none =>
        cases ts with
        | nil => simp
        | cons t ts =>
          simp only [List.map_cons, hx]
          refine ⟨by simp, fun h => ?_⟩
          have := ih.2 (List.cons.inj h).2
          simp [hl] at this
      | some ys =>
        have := ih.1 hl
        cases ts with
        | nil => simp
        | cons t ts =>
          simp only [List.map_cons, hx, this]
          simp [List.map_inj_right]

/-- What a step of the leader of a map is. -/
theorem map_step {op : ω → α → Except ε β} {enc : Nat × α → Option T} {dec : O → Except ε (Nat × β)} {s l rs x' ts rs'}
    (h : (mapClient op enc dec).step s l rs = some (x', ts, rs')) : mapLead l = true ∧
      ∃ s', MapS.step op { s with tasks := [], results := rs.map fun r => r.bind dec } l = some s' ∧ x' = { s' with tasks := [], results := [] } ∧
        s'.tasks.map enc = ts.map some ∧ rs' = mapLeft l rs := by
  simp only [mapClient] at h
  split at h <;> try simp only [reduceCtorEq] at h
  split at h <;> simp only [Option.map_eq_some_iff, reduceCtorEq, Prod.mk.injEq] at h
  obtain ⟨ts', h1, rfl, rfl, rfl⟩ := h
  exact ⟨by assumption, _, by assumption, rfl, mapM_some.1 h1, rfl⟩

/-- What a step of the leader of a fold is. -/
theorem fold_step {comb : ω → α → α → Except ε α} {empty : α} {dupErr : ε} {enc : Fold.CTask α → Option T} {dec : O → Except ε (Seg α)} {s l rs x' ts rs'}
    (h : (foldClient comb empty dupErr enc dec).step s l rs = some (x', ts, rs')) : foldLead l = true ∧
      ∃ s', Fold.step comb empty dupErr { s with tasks := [], results := rs.map fun r => toRes (r.bind dec) } l = some s' ∧ x' = { s' with tasks := [], results := [] } ∧
        s'.tasks.map enc = ts.map some ∧ rs' = foldLeft l rs := by
  simp only [foldClient] at h
  split at h <;> try simp only [reduceCtorEq] at h
  split at h <;> simp only [Option.map_eq_some_iff, reduceCtorEq, Prod.mk.injEq] at h
  obtain ⟨ts', h1, rfl, rfl, rfl⟩ := h
  exact ⟨by assumption, _, by assumption, rfl, mapM_some.1 h1, rfl⟩

theorem takeAt_enc {γ : Type} {enc : β → Option γ} {l : List β} {ts : List γ} (h : l.map enc = ts.map some) {k : Nat} {t : γ} {rest : List γ}
    (hk : Fold.takeAt ts k = some (t, rest)) : ∃ p, Fold.takeAt l k = some p ∧ enc p.1 = some t ∧ p.2.map enc = rest.map some := by
  have h1 : Fold.takeAt (ts.map some) k = some (some t, rest.map some) := by rw [takeAt_map, hk]; rfl
  rw [← h, takeAt_map] at h1
  cases hl : Fold.takeAt l k with
  | none => simp [hl] at h1
  | some p => rw [hl] at h1; simp at h1; exact ⟨p, rfl, h1.1, h1.2⟩

/-- A label of a job alone as a label of map. -/
def toMap : JobLabel (MapS.Label α ε ω) ω → MapS.Label α ε ω
  | .lead l => l
  | .exec k x => .exec k x
  | .lose k => .loseTask k
  | .dup k => .dupTask k

def toFold : JobLabel (Fold.Label α ε ω) ω → Fold.Label α ε ω
  | .lead l => l
  | .exec k x => .exec k x
  | .lose k => .loseTask k
  | .dup k => .dupTask k

variable {exec : ω → T → Except (OpError χ) O} {text : OpError χ → ε}

/-- What the leader of a map alone sees is an execution of the model of map: up to the end of the stream. -/
theorem map_job {op : ω → α → Except ε β} {enc : Nat × α → Option T} {dec : O → Except ε (Nat × β)}
    (hx : MapFaithful exec text op enc dec) (jls : List (JobLabel (MapS.Label α ε ω) ω))
    (J : Job (MapS.St α β ε) T (Except ε O)) (h : Job.run (mapClient op enc dec) (outcome exec text) (Job.init (mapClient op enc dec)) jls = some J) :
    ∃ pre m, pre <+: jls ∧ JobLabel.leads pre = JobLabel.leads jls ∧ MapS.run op MapS.init (pre.map toMap) = some m ∧
      J.lead = { m with tasks := [], results := [] } ∧
      (m.ended = false → pre = jls ∧ m.tasks.map enc = J.tasks.map some ∧ m.results = J.results.map fun r => r.bind dec) := by
  refine Lts.run_induction (P := fun jls J => ∃ pre m, pre <+: jls ∧ JobLabel.leads pre = JobLabel.leads jls ∧
      MapS.run op MapS.init (pre.map toMap) = some m ∧ J.lead = { m with tasks := [], results := [] } ∧
      (m.ended = false → pre = jls ∧ m.tasks.map enc = J.tasks.map some ∧ m.results = J.results.map fun r => r.bind dec)) ?_ ?_ jls J h
  · exact ⟨[], MapS.init, List.prefix_refl _, rfl, rfl, rfl, fun _ => ⟨rfl, rfl, rfl⟩⟩
  · rintro jls l J J' hr ⟨pre, m, h1, h2, h3, h4, h5⟩ hst
    cases he : m.ended with
    | true =>
      refine ⟨pre, m, h1.trans (List.prefix_append _ _), ?_, h3, ?_, fun h => by simp [he] at h⟩
      all_goals
        cases l with
        | lead l =>
          simp only [Job.step] at hst
          split at hst <;> simp only [Option.some.injEq, reduceCtorEq] at hst
          rename_i hc
          obtain ⟨_, s', hs', _⟩ := map_step hc
          rw [h4] at hs'
          simp [MapS.step, he] at hs'
        | _ =>
          simp only [Job.step] at hst
          split at hst <;> simp only [Option.some.injEq, reduceCtorEq] at hst
          subst hst
          first | exact h4 | (rw [JobLabel.leads_append, h2]; simp [JobLabel.leads])
    | false =>
      obtain ⟨rfl, h6, h7⟩ := h5 he
      clear h5 h1 h2
      have snoc : ∀ m', MapS.step op m (toMap l) = some m' → J'.lead = { m' with tasks := [], results := [] } → m'.tasks.map enc = J'.tasks.map some →
          m'.results = J'.results.map (fun r => r.bind dec) → ∃ pre' m, pre' <+: pre ++ [l] ∧ JobLabel.leads pre' = JobLabel.leads (pre ++ [l]) ∧
          MapS.run op MapS.init (pre'.map toMap) = some m ∧ J'.lead = { m with tasks := [], results := [] } ∧
          (m.ended = false → pre' = pre ++ [l] ∧ m.tasks.map enc = J'.tasks.map some ∧ m.results = J'.results.map fun r => r.bind dec) := by
        intro m' hm e1 e2 e3
        refine ⟨pre ++ [l], m', List.prefix_refl _, rfl, ?_, e1, fun _ => ⟨rfl, e2, e3⟩⟩
        rw [List.map_append, MapS.run_append, h3]; simp [MapS.run, hm]
      have hm : m = { J.lead with tasks := m.tasks, results := J.results.map fun r => r.bind dec } := by rw [h4, ← h7]
      cases l with
      | lead l =>
        simp only [Job.step] at hst
        split at hst <;> simp only [Option.some.injEq, reduceCtorEq] at hst
        rename_i x ts' rs' hc
        subst hst
        obtain ⟨hlead, s', hs', rfl, hts, rfl⟩ := map_step hc
        obtain ⟨e1, e2⟩ := map_frame hlead J.results _ hs' m.tasks
        rw [← hm] at e1
        exact snoc _ e1 rfl (by simp [h6, hts]) e2
      | exec k x =>
        simp only [Job.step] at hst
        split at hst <;> simp only [Option.some.injEq, reduceCtorEq] at hst
        rename_i t rest hk
        subst hst
        obtain ⟨p, hk', e1, e2⟩ := takeAt_enc h6 hk
        exact snoc { m with tasks := p.2, results := m.results ++ [(op x p.1.2).map fun b => (p.1.1, b)] } (by simp [toMap, MapS.step, hk', he]) h4 e2
          (by simp [h7, hx x p.1.1 p.1.2 t e1])
      | lose k =>
        simp only [Job.step] at hst
        split at hst <;> simp only [Option.some.injEq, reduceCtorEq] at hst
        rename_i t rest hk
        subst hst
        obtain ⟨p, hk', e1, e2⟩ := takeAt_enc h6 hk
        exact snoc { m with tasks := p.2 } (by simp [toMap, MapS.step, hk', he]) h4 e2 h7
      | dup k =>
        simp only [Job.step] at hst
        split at hst <;> simp only [Option.some.injEq, reduceCtorEq] at hst
        rename_i t hk
        subst hst
        have hk2 := congrArg (fun l => l[k]?) h6
        simp only [List.getElem?_map, hk] at hk2
        cases hk' : m.tasks[k]? with
        | none => simp [hk'] at hk2
        | some p =>
          simp [hk'] at hk2
          exact snoc { m with tasks := m.tasks ++ [p] } (by simp [toMap, MapS.step, hk', he]) h4 (by simp [h6, hk2]) h7

theorem fold_job {comb : ω → α → α → Except ε α} {empty : α} {dupErr : ε} {enc : Fold.CTask α → Option T} {dec : O → Except ε (Seg α)}
    (hx : ∀ x t m, enc t = some m → toRes ((outcome exec text x m).bind dec) = Fold.execute comb x t) (jls : List (JobLabel (Fold.Label α ε ω) ω))
    (J : Job (Fold.St α ε) T (Except ε O))
    (h : Job.run (foldClient comb empty dupErr enc dec) (outcome exec text) (Job.init (foldClient comb empty dupErr enc dec)) jls = some J) :
    ∃ pre m, pre <+: jls ∧ JobLabel.leads pre = JobLabel.leads jls ∧ Fold.run comb empty dupErr Fold.init (pre.map toFold) = some m ∧
      J.lead = { m with tasks := [], results := [] } ∧
      (m.outcome = none → pre = jls ∧ m.tasks.map enc = J.tasks.map some ∧ m.results = J.results.map fun r => toRes (r.bind dec)) := by
  refine Lts.run_induction (P := fun jls J => ∃ pre m, pre <+: jls ∧ JobLabel.leads pre = JobLabel.leads jls ∧
      Fold.run comb empty dupErr Fold.init (pre.map toFold) = some m ∧ J.lead = { m with tasks := [], results := [] } ∧
      (m.outcome = none → pre = jls ∧ m.tasks.map enc = J.tasks.map some ∧ m.results = J.results.map fun r => toRes (r.bind dec))) ?_ ?_ jls J h
  · exact ⟨[], Fold.init, List.prefix_refl _, rfl, rfl, rfl, fun _ => ⟨rfl, rfl, rfl⟩⟩
  · rintro jls l J J' hr ⟨pre, m, h1, h2, h3, h4, h5⟩ hst
    cases he : m.outcome with
    | some o =>
      refine ⟨pre, m, h1.trans (List.prefix_append _ _), ?_, h3, ?_, fun h => by simp [he] at h⟩
      all_goals
        cases l with
        | lead l =>
          simp only [Job.step] at hst
          split at hst <;> simp only [Option.some.injEq, reduceCtorEq] at hst
          rename_i hc
          obtain ⟨_, s', hs', _⟩ := fold_step hc
          rw [h4] at hs'
          simp [Fold.step, he] at hs'
        | _ =>
          simp only [Job.step] at hst
          split at hst <;> simp only [Option.some.injEq, reduceCtorEq] at hst
          subst hst
          first | exact h4 | (rw [JobLabel.leads_append, h2]; simp [JobLabel.leads])
    | none =>
      obtain ⟨rfl, h6, h7⟩ := h5 he
      clear h5 h1 h2
      have snoc : ∀ m', Fold.step comb empty dupErr m (toFold l) = some m' → J'.lead = { m' with tasks := [], results := [] } → m'.tasks.map enc = J'.tasks.map some →
          m'.results = J'.results.map (fun r => toRes (r.bind dec)) → ∃ pre' m, pre' <+: pre ++ [l] ∧ JobLabel.leads pre' = JobLabel.leads (pre ++ [l]) ∧
          Fold.run comb empty dupErr Fold.init (pre'.map toFold) = some m ∧ J'.lead = { m with tasks := [], results := [] } ∧
          (m.outcome = none → pre' = pre ++ [l] ∧ m.tasks.map enc = J'.tasks.map some ∧ m.results = J'.results.map fun r => toRes (r.bind dec)) := by
        intro m' hm e1 e2 e3
        refine ⟨pre ++ [l], m', List.prefix_refl _, rfl, ?_, e1, fun _ => ⟨rfl, e2, e3⟩⟩
        rw [List.map_append, Fold.run_append, h3]; simp [Fold.run, hm]
      have hm : m = { J.lead with tasks := m.tasks, results := J.results.map fun r => toRes (r.bind dec) } := by rw [h4, ← h7]
      cases l with
      | lead l =>
        simp only [Job.step] at hst
        split at hst <;> simp only [Option.some.injEq, reduceCtorEq] at hst
        rename_i x ts' rs' hc
        subst hst
        obtain ⟨hlead, s', hs', rfl, hts, rfl⟩ := fold_step hc
        obtain ⟨e1, e2⟩ := fold_frame hlead J.results _ hs' m.tasks
        rw [← hm] at e1
        exact snoc _ e1 rfl (by simp [h6, hts]) e2
      | exec k x =>
        simp only [Job.step] at hst
        split at hst <;> simp only [Option.some.injEq, reduceCtorEq] at hst
        rename_i t rest hk
        subst hst
        obtain ⟨p, hk', e1, e2⟩ := takeAt_enc h6 hk
        exact snoc { m with tasks := p.2, results := m.results ++ [Fold.execute comb x p.1] } (by simp [toFold, Fold.step, hk', he]) h4 e2
          (by simp [h7, hx x p.1 t e1])
      | lose k =>
        simp only [Job.step] at hst
        split at hst <;> simp only [Option.some.injEq, reduceCtorEq] at hst
        rename_i t rest hk
        subst hst
        obtain ⟨p, hk', e1, e2⟩ := takeAt_enc h6 hk
        exact snoc { m with tasks := p.2 } (by simp [toFold, Fold.step, hk', he]) h4 e2 h7
      | dup k =>
        simp only [Job.step] at hst
        split at hst <;> simp only [Option.some.injEq, reduceCtorEq] at hst
        rename_i t hk
        subst hst
        have hk2 := congrArg (fun l => l[k]?) h6
        simp only [List.getElem?_map, hk] at hk2
        cases hk' : m.tasks[k]? with
        | none => simp [hk'] at hk2
        | some p =>
          simp [hk'] at hk2
          exact snoc { m with tasks := m.tasks ++ [p] } (by simp [toFold, Fold.step, hk', he]) h4 (by simp [h6, hk2]) h7

/-! ## Reading off the steps of the leader -/

theorem mem_leads {ℓ : Type} {l : ℓ} {jls : List (JobLabel ℓ ω)} : l ∈ JobLabel.leads jls ↔ .lead l ∈ jls := by
  induction jls with
  | nil => simp [JobLabel.leads]
  | cons x jls ih => cases x <;> simp [JobLabel.leads, ih]

theorem inputs_toMap (jls : List (JobLabel (MapS.Label α ε ω) ω)) : MapS.inputs (jls.map toMap) = MapS.inputs (JobLabel.leads jls) := by
  induction jls with
  | nil => rfl
  | cons x jls ih =>
    cases x with
    | lead l => cases l <;> simp [JobLabel.leads, toMap, MapS.inputs, ih]
    | _ => simp [JobLabel.leads, toMap, MapS.inputs, ih]

theorem inputs_toFold (jls : List (JobLabel (Fold.Label α ε ω) ω)) : Fold.inputs (jls.map toFold) = Fold.inputs (JobLabel.leads jls) := by
  induction jls with
  | nil => rfl
  | cons x jls ih =>
    cases x with
    | lead l => cases l <;> simp [JobLabel.leads, toFold, Fold.inputs, ih]
    | _ => simp [JobLabel.leads, toFold, Fold.inputs, ih]

theorem connected_toMap {jls : List (JobLabel (MapS.Label α ε ω) ω)} (h : ∀ l ∈ JobLabel.leads jls, l.connected = true) : ∀ l ∈ jls.map toMap, l.connected = true := by
  intro l hl
  obtain ⟨x, hx, rfl⟩ := List.mem_map.1 hl
  cases x with
  | lead l => exact h l (mem_leads.2 hx)
  | _ => rfl

/-- The leader takes leader steps only. -/
theorem lead_of_job {σ ℓ T R : Type} {cl : Client σ ℓ T R} {ex : ω → T → R} {P : ℓ → Prop} (hP : ∀ s l rs x, cl.step s l rs = some x → P l) {s J : Job σ T R}
    {jls : List (JobLabel ℓ ω)} (h : Job.run cl ex s jls = some J) : ∀ l, .lead l ∈ jls → P l := by
  induction jls generalizing s with
  | nil => simp
  | cons x jls ih =>
    obtain ⟨s1, h1, h2⟩ := Lts.run_cons.1 h
    intro l hl
    rcases List.mem_cons.1 hl with rfl | hl
    · simp only [Job.step] at h1
      split at h1 <;> try simp only [reduceCtorEq] at h1
      exact hP _ _ _ _ (by assumption)
    · exact ih h2 l hl

theorem lead_of_map {op : ω → α → Except ε β} {enc : Nat × α → Option T} {dec : O → Except ε (Nat × β)} (s l rs x) (h : (mapClient op enc dec).step s l rs = some x) : mapLead l = true := by
  simp only [mapClient] at h
  split at h
  · assumption
  · simp at h

theorem lead_of_fold {comb : ω → α → α → Except ε α} {empty : α} {dupErr : ε} {enc : Fold.CTask α → Option T} {dec : O → Except ε (Seg α)} (s l rs x)
    (h : (foldClient comb empty dupErr enc dec).step s l rs = some x) : foldLead l = true := by
  simp only [foldClient] at h
  split at h
  · assumption
  · simp at h

theorem once_toMap {jls : List (JobLabel (MapS.Label α ε ω) ω)} (hm : ∀ l, .lead l ∈ jls → mapLead l = true) (hd : ∀ l ∈ jls, l.dups = false) :
    ∀ l ∈ jls.map toMap, l.exactlyOnce = true := by
  intro l hl
  obtain ⟨x, hx, rfl⟩ := List.mem_map.1 hl
  cases x with
  | lead l => have := hm l hx; cases l <;> simp_all [mapLead, toMap, MapS.Label.exactlyOnce]
  | dup k => have := hd _ hx; simp [JobLabel.dups] at this
  | _ => rfl

theorem foldFaithful_execute {comb : ω → α → α → Except ε α} {enc : Fold.CTask α → Option T} {dec : O → Except ε (Seg α)} (h : FoldFaithful exec text comb enc dec) (x : ω) (t : Fold.CTask α) (m : T)
    (hm : enc t = some m) : toRes ((outcome exec text x m).bind dec) = Fold.execute comb x t := by
  rw [h x t m hm, Fold.execute]
  cases comb x t.a t.b <;> rfl

end System
end Paladin
