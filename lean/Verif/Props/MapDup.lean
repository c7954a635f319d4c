import Verif.Props.MapS
/-!
# Map when the broker redelivers (C16, C18)

With duplicates a mapped stream may repeat some outputs and miss others, but it still yields as many outputs as there were inputs, each belonging to an input. This is
enough for a following fold, which rejects repeated indices.
-/
namespace Paladin
namespace MapS

variable {op : ω → α → Except ε β}

/-- Whatever is lost or duplicated: what a map yields comes from its inputs, and without failures it counts one output per input. -/
theorem redelivery_inv (ls : List (Label α ε ω)) (s : St α β ε) (h : run op init ls = some s) :
    (∀ t ∈ s.inflight ++ s.tasks, t ∈ inputs ls) ∧
    (∀ i b, .ok (i, b) ∈ s.results ++ s.outs → ∃ a, (i, a) ∈ inputs ls ∧ Returns op a b) ∧
    ((∀ l ∈ ls, l.fails = false) → s.pending + s.outs.length = (inputs ls).length) := by
  refine run_induction (P := fun ls s => (∀ t ∈ s.inflight ++ s.tasks, t ∈ inputs ls) ∧
    (∀ i b, .ok (i, b) ∈ s.results ++ s.outs → ∃ a, (i, a) ∈ inputs ls ∧ Returns op a b) ∧
    ((∀ l ∈ ls, l.fails = false) → s.pending + s.outs.length = (inputs ls).length)) ?_ ?_ ls s h
  · simp [init, inputs]
  · rintro ls l s s' _ ⟨h1, h2, h3⟩ hst
    have hst := stepR_of_step hst
    have hi : ∀ x, x ∈ inputs ls → x ∈ inputs (ls ++ [l]) := by intro x hx; rw [inputs_append]; simp [hx]
    have h2' : ∀ i b, .ok (i, b) ∈ s.results ++ s.outs → ∃ a, (i, a) ∈ inputs (ls ++ [l]) ∧ Returns op a b := by
      intro i b hb; obtain ⟨a, ha, hr⟩ := h2 i b hb; exact ⟨a, hi _ ha, hr⟩
    have h1' : ∀ t ∈ s.inflight ++ s.tasks, t ∈ inputs (ls ++ [l]) := fun t ht => hi t (h1 t ht)
    have h3' : (∀ l' ∈ ls ++ [l], l'.fails = false) → s.pending + s.outs.length = (inputs ls).length ∧ l.fails = false :=
      fun hh => ⟨h3 fun l' hl' => hh l' (by simp [hl']), hh l (by simp)⟩
    have hlen : (inputs (ls ++ [l])).length = (inputs ls).length + l.items.length := by
      rw [inputs_append, inputs_cons]; simp [inputs]
    rw [hlen]
    have herr : ∀ e : ε, (∀ t ∈ (sendFail s e).inflight ++ (sendFail s e).tasks, t ∈ inputs (ls ++ [l])) ∧
        (∀ i b, .ok (i, b) ∈ (sendFail s e).results ++ (sendFail s e).outs → ∃ a, (i, a) ∈ inputs (ls ++ [l]) ∧ Returns op a b) := by
      intro e
      refine ⟨fun t ht => h1' t ?_, fun i b hb => h2' i b ?_⟩
      · simp [sendFail] at ht; simp [ht]
      · simpa [sendFail] using hb
    cases hst with
    | item i a _ _ =>
      refine ⟨?_, h2', fun hh => ?_⟩
      · intro t ht
        simp at ht
        rcases ht with ht | rfl | ht
        · exact h1' t (by simp [ht])
        · rw [inputs_append]; simp [inputs]
        · exact h1' t (by simp [ht])
      · have := (h3' hh).1; simp [Label.items]; omega
    | send k t a b hs =>
      refine ⟨fun t' ht' => h1' t' ?_, h2', fun hh => by simpa [Label.items] using (h3' hh).1⟩
      rw [hs]; simp at ht' ⊢; tauto
    | exec k w t a b hs =>
      refine ⟨fun t' ht' => h1' t' ?_, ?_, fun hh => by simpa [Label.items] using (h3' hh).1⟩
      · rw [hs]; simp at ht' ⊢; tauto
      · intro i c hc
        simp at hc
        rcases hc with hc | hc | hc
        · exact h2' i c (by simp [hc])
        · rcases hop : op w t.2 with e | b' <;> simp [hop, Except.map] at hc
          obtain ⟨rfl, rfl⟩ := hc
          exact ⟨t.2, h1' _ (by rw [hs]; simp), w, hop⟩
        · exact h2' i c (by simp [hc])
    | recv k r a b _ _ hs =>
      refine ⟨h1', ?_, fun hh => ?_⟩
      · intro i c hc
        apply h2' i c
        rw [hs]; simp at hc ⊢; tauto
      · have := (h3' hh).1; simp [Label.items]; omega
    | recvAckErr k e r a b _ _ hs =>
      refine ⟨h1', ?_, fun hh => by have := (h3' hh).2; simp [Label.fails] at this⟩
      intro i c hc
      apply h2' i c
      rw [hs]; simp at hc ⊢; tauto
    | loseTask k t a b hs =>
      refine ⟨fun t' ht' => h1' t' ?_, h2', fun hh => by simpa [Label.items] using (h3' hh).1⟩
      rw [hs]; simp at ht' ⊢; tauto
    | loseResult k r a b hs =>
      refine ⟨h1', ?_, fun hh => by simpa [Label.items] using (h3' hh).1⟩
      intro i c hc
      apply h2' i c
      rw [hs]; simp at hc ⊢; tauto
    | dupTask k t hm =>
      refine ⟨fun t' ht' => h1' t' ?_, h2', fun hh => by simpa [Label.items] using (h3' hh).1⟩
      simp at ht' ⊢
      rcases ht' with h | h | rfl
      · simp [h]
      · simp [h]
      · simp [hm]
    | dupResult k r hm =>
      refine ⟨h1', ?_, fun hh => by simpa [Label.items] using (h3' hh).1⟩
      intro i c hc
      apply h2' i c
      simp at hc ⊢
      rcases hc with h | rfl | h
      · simp [h]
      · simp [hm]
      · simp [h]
    | inputErr e _ => exact ⟨(herr e).1, (herr e).2, fun hh => by have := (h3' hh).2; simp [Label.fails] at this⟩
    | publishErr k e _ => exact ⟨(herr e).1, (herr e).2, fun hh => by have := (h3' hh).2; simp [Label.fails] at this⟩
    | confirmErr e _ => exact ⟨(herr e).1, (herr e).2, fun hh => by have := (h3' hh).2; simp [Label.fails] at this⟩
    | closeErr e _ _ _ => exact ⟨(herr e).1, (herr e).2, fun hh => by have := (h3' hh).2; simp [Label.fails] at this⟩
    | _ => exact ⟨h1', h2', fun hh => by simpa [Label.items] using (h3' hh).1⟩

theorem ended_zero (ls : List (Label α ε ω)) (s : St α β ε) (h : run op init ls = some s) (hc : ∀ l ∈ ls, l.connected = true)
    (he : s.ended = true) : s.pending = 0 ∧ s.sendDone = true := by
  have key : s.innerEnded = false ∧ s.closed = s.sendDone ∧ (s.ended = true → s.recvEnded = true) ∧
      (s.recvEnded = true → s.pending = 0 ∧ s.sendDone = true) := by
    clear he
    revert hc
    refine run_induction (P := fun ls s => (∀ l ∈ ls, l.connected = true) → s.innerEnded = false ∧ s.closed = s.sendDone ∧
      (s.ended = true → s.recvEnded = true) ∧ (s.recvEnded = true → s.pending = 0 ∧ s.sendDone = true)) ?_ ?_ ls s h
    · simp [init]
    · intro ls l s s' _ ih hst hc
      have hcl := hc l (by simp)
      obtain ⟨h1, h2, h3, h4⟩ := ih (fun l h => hc l (by simp [h]))
      have hst := stepR_of_step hst
      cases hst <;> simp_all [Label.connected, sendFail]
  exact key.2.2.2 (key.2.2.1 he)

/-- **C16, what holds under redelivery.** With any losses and duplicates, when a mapped stream ends with no error item it has yielded as many outputs as there
were inputs, and every output was returned by an execution of the operation on the input of the same index. -/
theorem C16_redelivery_partial (ls : List (Label α ε ω)) (s : St α β ε) (h : run op init ls = some s)
    (hc : ∀ l ∈ ls, l.connected = true) (hend : s.ended = true) (herr : errs s.outs = []) :
    (oks s.outs).length = (inputs ls).length ∧ ∀ i b, (i, b) ∈ oks s.outs → ∃ a, (i, a) ∈ inputs ls ∧ Returns op a b := by
  obtain ⟨_, h2, h3⟩ := redelivery_inv ls s h
  have hf : ∀ l ∈ ls, l.fails = false := by
    intro l hl
    by_contra hc
    exact (C15_failure_surfaces ls s [] h ⟨l, hl, by simpa using hc⟩).1 herr
  have h4 := h3 hf
  have h5 := (ended_zero ls s h hc hend).1
  have h6 := outs_of_errs_nil herr
  refine ⟨?_, fun i b hb => h2 i b ?_⟩
  · have : s.outs.length = (oks s.outs).length := by conv => lhs; rw [h6]; simp
    omega
  · rw [List.mem_append]; right
    rw [h6]; simpa using hb

/-- Hypotheses of C16_redelivery_partial: met by the execution of `C16_redelivery_witness`. -/
example : ∃ s, run bang init [.item 0 "a", .send 0, .confirm, .item 1 "b", .send 0, .confirm, .inputEnd, .dupTask 0, .exec 0 0, .exec 1 0,
    .recv 0, .recv 0, .recvEnd, .finish] = some s ∧ s.ended = true ∧ errs s.outs = [] := by
  refine ⟨_, rfl, by decide, by decide⟩

end MapS
end Paladin
