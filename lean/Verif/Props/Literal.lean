import Verif.Model.Literal
import Verif.Proofs.MapS
/-! # Property C17: `Literal::map` -/
namespace Paladin
namespace Lit

variable {op : ω → α → Except ε β} {x : α}

/-- Nothing goes wrong outside the operation. -/
def Label.reliable : Label ε ω → Bool
  | .send | .published | .closed | .exec _ _ | .recv _ | .recvEnd => true
  | _ => false

theorem run_append {s : St α β ε} {ls ls' : List (Label ε ω)} :
    run op x s (ls ++ ls') = (run op x s ls).bind fun s' => run op x s' ls' := by
  induction ls generalizing s with
  | nil => simp [run]
  | cons l ls ih =>
    simp only [List.cons_append, run]
    cases step op x s l <;> simp [ih]

theorem run_induction {s0 : St α β ε} {P : List (Label ε ω) → St α β ε → Prop} (h0 : P [] s0)
    (hstep : ∀ ls l s s', run op x s0 ls = some s → P ls s → step op x s l = some s' → P (ls ++ [l]) s') :
    ∀ ls s, run op x s0 ls = some s → P ls s := by
  intro ls
  obtain ⟨n, hn⟩ : ∃ n, ls.length = n := ⟨_, rfl⟩
  induction n generalizing ls with
  | zero =>
    intro s h
    have : ls = [] := List.eq_nil_of_length_eq_zero hn
    subst this; simp [run] at h; subst h; exact h0
  | succ n ih =>
    intro s h
    have hne : ls ≠ [] := by rintro rfl; simp at hn
    obtain ⟨ls', l, rfl⟩ : ∃ ls' l, ls = ls' ++ [l] := ⟨_, _, (List.dropLast_append_getLast hne).symm⟩
    rw [run_append] at h
    cases h1 : run op x s0 ls' with
    | none => simp [h1] at h
    | some s1 =>
      simp only [h1, Option.bind_some, run] at h
      cases h2 : step op x s1 l with
      | none => simp [h2] at h
      | some s2 =>
        simp [h2] at h; subst h
        exact hstep ls' l s1 s2 h1 (ih ls' (by simpa using hn) s1 h1) h2

structure Inv (op : ω → α → Except ε β) (x : α) (ls : List (Label ε ω)) (s : St α β ε) : Prop where
  tasks : ∀ t ∈ s.tasks, t = x
  res : ∀ r ∈ s.results, ∃ k w, .exec k w ∈ ls ∧ op w x = r
  pend : s.pc ≠ .done → s.pending = 1
  none : s.pc ≠ .done ↔ s.ret = none
  no : s.ret ≠ some .noResults
  ok : ∀ b, s.ret = some (.ok b) → ∃ k w, .exec k w ∈ ls ∧ op w x = .ok b
  err : ∀ e, s.ret = some (.err e) → .publishErr e ∈ ls ∨ .closeErr e ∈ ls ∨ (∃ k, .recvAckErr k e ∈ ls) ∨
    ∃ k w, .exec k w ∈ ls ∧ op w x = .error e
  rel : (∀ l ∈ ls, l.reliable = true) → s.innerEnded = false ∧ (s.sent = false → s.pc = .publishing) ∧
    (s.sent = true → s.ret = Option.none → s.tasks ≠ [] ∨ s.results ≠ [])

theorem inv_run (ls : List (Label ε ω)) (s : St α β ε) (h : run op x init ls = some s) : Inv op x ls s := by
  refine run_induction (P := fun ls s => Inv op x ls s) ?_ ?_ ls s h
  · constructor <;> simp [init]
  · intro ls l s s' _ ih hst
    obtain ⟨h1, h2, h3, h4, h5, h6, h7, h8⟩ := ih
    have h2' : ∀ r ∈ s.results, ∃ k w, .exec k w ∈ ls ++ [l] ∧ op w x = r := by
      intro r hr; obtain ⟨k, w, a, b⟩ := h2 r hr; exact ⟨k, w, by simp [a], b⟩
    have h6' : ∀ b, s.ret = some (.ok b) → ∃ k w, .exec k w ∈ ls ++ [l] ∧ op w x = .ok b := by
      intro r hr; obtain ⟨k, w, a, b⟩ := h6 r hr; exact ⟨k, w, by simp [a], b⟩
    have h7' : ∀ e, s.ret = some (.err e) → .publishErr e ∈ ls ++ [l] ∨ .closeErr e ∈ ls ++ [l] ∨ (∃ k, .recvAckErr k e ∈ ls ++ [l]) ∨
        ∃ k w, .exec k w ∈ ls ++ [l] ∧ op w x = .error e := by
      intro e he
      rcases h7 e he with h | h | ⟨k, h⟩ | ⟨k, w, a, b⟩
      · simp [h]
      · simp [h]
      · exact .inr (.inr (.inl ⟨k, by simp [h]⟩))
      · exact .inr (.inr (.inr ⟨k, w, by simp [a], b⟩))
    have h8' : (∀ l' ∈ ls ++ [l], l'.reliable = true) → s.innerEnded = false ∧ (s.sent = false → s.pc = .publishing) ∧
        (s.sent = true → s.ret = Option.none → s.tasks ≠ [] ∨ s.results ≠ []) := fun hh => h8 fun l' hl' => hh l' (by simp [hl'])
    cases l with
    | send =>
      simp only [step] at hst; split at hst <;> simp at hst; subst hst
      rename_i hc
      refine ⟨?_, h2', h3, h4, h5, h6', h7', ?_⟩
      · intro t ht; simp at ht; rcases ht with ht | ht
        · exact h1 t ht
        · exact ht
      · intro hh; exact ⟨(h8' hh).1, by simp, by simp⟩
    | published =>
      simp only [step] at hst; split at hst <;> simp at hst; subst hst
      rename_i hc
      refine ⟨h1, h2', fun _ => h3 (by simp [hc.1]), ?_, h5, h6', h7', ?_⟩
      · simp; exact h4.1 (by simp [hc.1])
      · intro hh; exact ⟨(h8' hh).1, by simp [hc.2], (h8' hh).2.2⟩
    | publishErr e =>
      simp only [step] at hst; split at hst <;> simp at hst; subst hst
      exact ⟨h1, h2', by simp, by simp, by simp, by simp, by simp, fun hh => by have := hh (.publishErr e) (by simp); simp [Label.reliable] at this⟩
    | closed =>
      simp only [step] at hst; split at hst <;> simp at hst; subst hst
      rename_i hc
      refine ⟨h1, h2', fun _ => h3 (by simp [hc]), ?_, h5, h6', h7', ?_⟩
      · simp; exact h4.1 (by simp [hc])
      · intro hh
        refine ⟨(h8' hh).1, ?_, (h8' hh).2.2⟩
        intro hs; have := (h8' hh).2.1 hs; rw [hc] at this; simp at this
    | closeErr e =>
      simp only [step] at hst; split at hst <;> simp at hst; subst hst
      exact ⟨h1, h2', by simp, by simp, by simp, by simp, by simp, fun hh => by have := hh (.closeErr e) (by simp); simp [Label.reliable] at this⟩
    | exec k w =>
      simp only [step] at hst; split at hst <;> simp at hst; subst hst
      rename_i t rest hk
      obtain ⟨a, b, e1, rfl⟩ := takeAt_split hk
      have ht : t = x := h1 t (by rw [e1]; simp)
      refine ⟨?_, ?_, h3, h4, h5, h6', h7', ?_⟩
      · intro t' ht'; exact h1 t' (by rw [e1]; simp at ht' ⊢; rcases ht' with h | h <;> simp [h])
      · intro r hr; simp at hr
        rcases hr with hr | rfl
        · exact h2' r hr
        · exact ⟨k, w, by simp, by rw [ht]⟩
      · intro hh; exact ⟨(h8' hh).1, (h8' hh).2.1, by simp⟩
    | recv k =>
      simp only [step] at hst; split at hst
      · split at hst <;> simp at hst <;> subst hst
        · rename_i b rest hk
          obtain ⟨a, b', e1, rfl⟩ := takeAt_split hk
          obtain ⟨k', w, e2, e3⟩ := h2' (.ok b) (by rw [e1]; simp)
          refine ⟨h1, ?_, by simp, by simp, by simp, ?_, by simp, ?_⟩
          · intro r hr; exact h2' r (by rw [e1]; simp at hr ⊢; rcases hr with h | h <;> simp [h])
          · simp; exact ⟨k', w, by simpa using e2, e3⟩
          · intro hh
            refine ⟨(h8' hh).1, ?_, by simp⟩
            intro hs; have := (h8' hh).2.1 hs; rename_i hc _; rw [hc.1] at this; simp at this
        · rename_i b rest hk
          obtain ⟨a, b', e1, rfl⟩ := takeAt_split hk
          obtain ⟨k', w, e2, e3⟩ := h2' (.error b) (by rw [e1]; simp)
          refine ⟨h1, ?_, by simp, by simp, by simp, by simp, ?_, ?_⟩
          · intro r hr; exact h2' r (by rw [e1]; simp at hr ⊢; rcases hr with h | h <;> simp [h])
          · intro e he; simp at he; subst he
            exact .inr (.inr (.inr ⟨k', w, e2, e3⟩))
          · intro hh
            refine ⟨(h8' hh).1, ?_, by simp⟩
            intro hs; have := (h8' hh).2.1 hs; rename_i hc _; rw [hc.1] at this; simp at this
      · simp at hst
    | recvAckErr k e =>
      simp only [step] at hst; split at hst
      · split at hst <;> simp at hst; subst hst
        rename_i b rest hk
        obtain ⟨a, b', e1, rfl⟩ := takeAt_split hk
        refine ⟨h1, ?_, by simp, by simp, by simp, by simp, ?_, fun hh => by
          have := hh (.recvAckErr k e) (by simp); simp [Label.reliable] at this⟩
        · intro r hr; exact h2' r (by rw [e1]; simp at hr ⊢; rcases hr with h | h <;> simp [h])
        · intro e' he; simp at he; subst he; exact .inr (.inr (.inl ⟨k, by simp⟩))
      · simp at hst
    | recvEnd =>
      simp only [step] at hst; split at hst <;> simp at hst; subst hst
      rename_i hc
      have := h3 (by simp [hc.1]); omega
    | disconnect =>
      simp [step] at hst; subst hst
      exact ⟨h1, h2', h3, h4, h5, h6', h7', fun hh => by have := hh .disconnect (by simp); simp [Label.reliable] at this⟩
    | loseTask k =>
      simp only [step] at hst; split at hst <;> simp at hst; subst hst
      rename_i t rest hk
      obtain ⟨a, b, e1, rfl⟩ := takeAt_split hk
      refine ⟨?_, h2', h3, h4, h5, h6', h7', fun hh => by have := hh (.loseTask k) (by simp); simp [Label.reliable] at this⟩
      intro t' ht'; exact h1 t' (by rw [e1]; simp at ht' ⊢; rcases ht' with h | h <;> simp [h])
    | loseResult k =>
      simp only [step] at hst; split at hst <;> simp at hst; subst hst
      rename_i t rest hk
      obtain ⟨a, b, e1, rfl⟩ := takeAt_split hk
      refine ⟨h1, ?_, h3, h4, h5, h6', h7', fun hh => by have := hh (.loseResult k) (by simp); simp [Label.reliable] at this⟩
      intro t' ht'; exact h2' t' (by rw [e1]; simp at ht' ⊢; rcases ht' with h | h <;> simp [h])
    | dupTask k =>
      simp only [step] at hst; split at hst <;> simp at hst; subst hst
      rename_i t hk
      refine ⟨?_, h2', h3, h4, h5, h6', h7', fun hh => by have := hh (.dupTask k) (by simp); simp [Label.reliable] at this⟩
      intro t' ht'; simp at ht'; rcases ht' with h | rfl
      · exact h1 t' h
      · exact h1 _ (List.mem_of_getElem? hk)
    | dupResult k =>
      simp only [step] at hst; split at hst <;> simp at hst; subst hst
      rename_i t hk
      refine ⟨h1, ?_, h3, h4, h5, h6', h7', fun hh => by have := hh (.dupResult k) (by simp); simp [Label.reliable] at this⟩
      intro t' ht'; simp at ht'; rcases ht' with h | rfl
      · exact h2' t' h
      · exact h2' _ (List.mem_of_getElem? hk)

/-- **C17.** In every execution of `Literal(x).map(op)`, with messages lost or duplicated and connections failing in any way: an `Ok` is the output of an
execution of the operation on `x`; an error was reported by publishing, closing, acknowledging or by an execution; "No results received" is never
returned. -/
theorem C17_literal_map (ls : List (Label ε ω)) (s : St α β ε) (h : run op x init ls = some s) :
    (∀ b, s.ret = some (.ok b) → ∃ k w, .exec k w ∈ ls ∧ op w x = .ok b) ∧
    (∀ e, s.ret = some (.err e) → .publishErr e ∈ ls ∨ .closeErr e ∈ ls ∨ (∃ k, .recvAckErr k e ∈ ls) ∨
      ∃ k w, .exec k w ∈ ls ∧ op w x = .error e) ∧
    s.ret ≠ some .noResults :=
  let i := inv_run ls s h
  ⟨i.ok, i.err, i.no⟩

/-- **C17, failure.** If every execution of the operation fails, `Ok` is never returned. -/
theorem C17_literal_failure (ls : List (Label ε ω)) (s : St α β ε) (b : β) (h : run op x init ls = some s)
    (hf : ∀ k w, .exec k w ∈ ls → ∃ e, op w x = .error e) : s.ret ≠ some (.ok b) := by
  intro hb
  obtain ⟨k, w, h1, h2⟩ := (inv_run ls s h).ok b hb
  obtain ⟨e, he⟩ := hf k w h1
  rw [h2] at he; simp at he

/-- **C17, completion.** If nothing fails outside the operation and nothing can happen any more, `map` has returned the result of an execution of the operation. -/
theorem C17_literal_completes [Inhabited ω] (ls : List (Label ε ω)) (s : St α β ε) (h : run op x init ls = some s)
    (hl : ∀ l ∈ ls, l.reliable = true) (hstuck : ∀ l : Label ε ω, l.reliable = true → step op x s l = none) :
    ∃ k w, .exec k w ∈ ls ∧ ((∃ b, op w x = .ok b ∧ s.ret = some (.ok b)) ∨ ∃ e, op w x = .error e ∧ s.ret = some (.err e)) := by
  have hi := inv_run ls s h
  obtain ⟨r1, r2, r3⟩ := hi.rel hl
  have hdone : s.pc = .done := by
    cases hpc : s.pc with
    | done => rfl
    | publishing =>
      exfalso
      cases hs : s.sent with
      | false => have := hstuck .send rfl; simp [step, hpc, hs] at this
      | true => have := hstuck .published rfl; simp [step, hpc, hs] at this
    | closing => have := hstuck .closed rfl; simp [step, hpc] at this
    | waiting =>
      exfalso
      have hs : s.sent = true := by
        cases hs : s.sent with
        | true => rfl
        | false => have := r2 hs; rw [hpc] at this; simp at this
      rcases r3 hs (hi.none.1 (by simp [hpc])) with hne | hne
      · obtain ⟨t, rest, ht⟩ := Fold.takeAt_zero hne
        have := hstuck (.exec 0 default) rfl
        simp [step, ht] at this
      · obtain ⟨t, rest, ht⟩ := Fold.takeAt_zero hne
        have := hstuck (.recv 0) rfl
        cases t <;> simp [step, hpc, r1, ht] at this
  cases hr : s.ret with
  | none => exact absurd hdone (hi.none.2 hr)
  | some r =>
    cases r with
    | ok b => obtain ⟨k, w, h1, h2⟩ := hi.ok b hr; exact ⟨k, w, h1, .inl ⟨b, h2, rfl⟩⟩
    | err e =>
      rcases hi.err e hr with h | h | ⟨k, h⟩ | ⟨k, w, h1, h2⟩
      · have := hl _ h; simp [Label.reliable] at this
      · have := hl _ h; simp [Label.reliable] at this
      · have := hl _ h; simp [Label.reliable] at this
      · exact ⟨k, w, h1, .inr ⟨e, h2, rfl⟩⟩
    | noResults => exact absurd hr hi.no

/-- Somebody executes the task. -/
def Label.isExec : Label ε ω → Bool
  | .exec _ _ => true
  | _ => false

theorem takeAt_len {τ : Type} {l rest : List τ} {k : Nat} {t : τ} (h : Fold.takeAt l k = some (t, rest)) : rest.length + 1 = l.length := by
  unfold Fold.takeAt at h
  split at h
  · rename_i hk
    simp only [Option.some.injEq, Prod.mk.injEq] at h
    have := (List.getElem?_eq_some_iff.1 hk).1
    rw [← h.2, List.length_eraseIdx_of_lt this]; omega
  · cases h

/-- **C17, once.** `map` publishes one task: if no task is delivered twice, the operation is executed at most once. -/
theorem C17_once (ls : List (Label ε ω)) (s : St α β ε) (h : run op x init ls = some s) (hd : ∀ k, .dupTask k ∉ ls) : (ls.filter Label.isExec).length ≤ 1 := by
  suffices hi : (∀ k, .dupTask k ∉ ls) → (ls.filter Label.isExec).length + s.tasks.length ≤ if s.sent then 1 else 0 by
    have := hi hd
    split at this <;> omega
  refine run_induction (P := fun ls (s : St α β ε) => (∀ k, .dupTask k ∉ ls) → (ls.filter Label.isExec).length + s.tasks.length ≤ if s.sent then 1 else 0) (by simp [init]) ?_ ls s h
  intro ls l s s' _ ih hst hd
  have ih := ih fun k hk => hd k (List.mem_append_left _ hk)
  rw [List.filter_append, List.length_append]
  cases l with
  | dupTask k => exact absurd (List.mem_append_right _ (List.mem_singleton.2 rfl)) (hd k)
  | send =>
    simp only [step] at hst
    split at hst <;> simp only [Option.some.injEq, reduceCtorEq] at hst
    rename_i hc
    subst hst
    have e : ([.send] : List (Label ε ω)).filter Label.isExec = [] := rfl
    simp only [hc.2, Bool.false_eq_true, if_false] at ih
    simp only [e, List.length_nil, List.length_append, List.length_singleton, if_true]
    omega
  | exec k w =>
    simp only [step] at hst
    split at hst <;> simp only [Option.some.injEq, reduceCtorEq] at hst
    rename_i ht
    subst hst
    have := takeAt_len ht
    have e : (([.exec k w] : List (Label ε ω)).filter Label.isExec).length = 1 := rfl
    simp only [e]
    omega
  | loseTask k =>
    simp only [step] at hst
    split at hst <;> simp only [Option.some.injEq, reduceCtorEq] at hst
    rename_i ht
    subst hst
    have := takeAt_len ht
    simp [Label.isExec]
    omega
  | _ => simp only [step] at hst <;> (repeat' split at hst) <;> simp only [Option.some.injEq, reduceCtorEq] at hst <;> subst hst <;> simpa [Label.isExec] using ih

/-- **C17, disconnection.** When the stream of results ends before `map` has received one, `map` never returns, unless publishing or closing fails. -/
theorem C17_disconnect (ls : List (Label ε ω)) (s : St α β ε) (h : run op x init ls = some s) (hr : s.ret = none) (ls' : List (Label ε ω)) (s' : St α β ε)
    (h' : run op x s (.disconnect :: ls') = some s') (hl : ∀ e, .publishErr e ∉ ls' ∧ .closeErr e ∉ ls') : s'.ret = none := by
  have hi := inv_run ls s h
  have hpend : s.pending = 1 := hi.pend (hi.none.2 hr)
  simp only [run, step, Option.bind_some] at h'
  clear h
  generalize hs1 : { s with innerEnded := true } = s1 at h'
  have e1 : s1.innerEnded = true := by subst hs1; rfl
  have e2 : s1.pending = 1 := by subst hs1; exact hpend
  have e3 : s1.ret = none := by subst hs1; exact hr
  clear hs1 hpend hr hi
  induction ls' generalizing s1 with
  | nil => simp only [run, Option.some.injEq] at h'; subst h'; exact e3
  | cons l ls ih =>
    simp only [run, Option.bind_eq_some_iff] at h'
    obtain ⟨s2, h1, h2⟩ := h'
    have hl' : ∀ e, .publishErr e ∉ ls ∧ .closeErr e ∉ ls := fun e => ⟨fun hx => (hl e).1 (List.mem_cons_of_mem _ hx), fun hx => (hl e).2 (List.mem_cons_of_mem _ hx)⟩
    have key : s2.innerEnded = true ∧ s2.pending = 1 ∧ s2.ret = none := by
      cases l with
      | publishErr e => exact absurd (List.mem_cons_self) (hl e).1
      | closeErr e => exact absurd (List.mem_cons_self) (hl e).2
      | recv k => simp [step, e1] at h1
      | recvAckErr k e => simp [step, e1] at h1
      | recvEnd => simp [step, e2] at h1
      | _ => simp only [step] at h1 <;> (repeat' split at h1) <;> simp only [Option.some.injEq, reduceCtorEq] at h1 <;> subst h1 <;> exact ⟨by first | rfl | exact e1, e2, e3⟩
    exact ih hl' s2 h2 key.1 key.2.1 key.2.2

/-! ## Concrete executions -/

def len : Unit → String → Except String Nat := fun _ a => if a = "" then .error "empty" else .ok a.length

example : ∃ s, run len "abc" init [.send, .published, .dupTask 0, .closed, .exec 0 (), .exec 0 (), .recv 1] = some s ∧
    s.ret = some (.ok 3) := ⟨_, rfl, by decide⟩

example : ∃ s, run len "" init [.send, .published, .closed, .exec 0 (), .recv 0] = some s ∧
    s.ret = some (.err "empty") := ⟨_, rfl, by decide⟩

/-- Hypotheses of `C17_disconnect`: the task has been executed and its result waits when the stream ends. -/
example : ∃ s s', run len "abc" init [.send, .published, .closed, .exec 0 ()] = some s ∧ s.ret = none ∧ run len "abc" s [.disconnect, .dupResult 0] = some s' ∧ s'.ret = none :=
  ⟨_, _, rfl, rfl, rfl, rfl⟩

end Lit
end Paladin
