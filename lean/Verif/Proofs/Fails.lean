import Verif.Spec.Fails
import Verif.Proofs.MapS
import Verif.Proofs.FoldEnd
import Verif.Proofs.FoldTree
/-! # Where the errors of a map or a fold come from -/
namespace Paladin

namespace MapS

theorem OpFails.mono {op : ω → α → Except ε β} {ins ins' : List (Nat × α)} {e : ε} (hs : ∀ p ∈ ins, p ∈ ins') (h : OpFails op ins e) : OpFails op ins' e := by
  obtain ⟨w, p, h1, h2⟩ := h
  exact ⟨w, p, hs p h1, h2⟩

/-- Everything in flight comes from the input, and so do the errors. -/
structure From (op : ω → α → Except ε β) (ls : List (Label α ε ω)) (s : St α β ε) : Prop where
  inf : ∀ p ∈ s.inflight, p ∈ inputs ls
  tsk : ∀ p ∈ s.tasks, p ∈ inputs ls
  res : ∀ e, .error e ∈ s.results → OpFails op (inputs ls) e
  out : ∀ e, .error e ∈ s.outs → (∃ l ∈ ls, l.failure = some e) ∨ OpFails op (inputs ls) e

theorem from_run {op : ω → α → Except ε β} (ls : List (Label α ε ω)) (s : St α β ε) (h : run op init ls = some s) : From op ls s := by
  refine run_induction (P := fun ls s => From op ls s) ?_ ?_ ls s h
  · constructor <;> simp [init]
  · intro ls l s s' hr ih hst
    have hst := stepR_of_step hst
    have hin : ∀ p ∈ inputs ls, p ∈ inputs (ls ++ [l]) := by rw [inputs_append]; simp +contextual
    have i1 : ∀ p ∈ s.inflight, p ∈ inputs (ls ++ [l]) := fun p hp => hin p (ih.inf p hp)
    have i2 : ∀ p ∈ s.tasks, p ∈ inputs (ls ++ [l]) := fun p hp => hin p (ih.tsk p hp)
    have i3 : ∀ e, .error e ∈ s.results → OpFails op (inputs (ls ++ [l])) e := fun e he => (ih.res e he).mono hin
    have i4 : ∀ e, .error e ∈ s.outs → (∃ l' ∈ ls ++ [l], l'.failure = some e) ∨ OpFails op (inputs (ls ++ [l])) e := by
      intro e he
      rcases ih.out e he with ⟨l', h1, h2⟩ | h1
      · exact .inl ⟨l', by simp [h1], h2⟩
      · exact .inr (h1.mono hin)
    have hfail : ∀ e, l.failure = some e → From op (ls ++ [l]) (sendFail s e) := by
      intro e he
      refine ⟨by simp [sendFail], i2, i3, fun e' he' => ?_⟩
      rcases List.mem_append.1 he' with h | h
      · exact i4 e' h
      · simp at h; exact .inl ⟨l, by simp, h ▸ he⟩
    cases hst with
    | item i a _ _ =>
      refine ⟨fun p hp => ?_, i2, i3, i4⟩
      rcases List.mem_append.1 hp with h | h
      · exact i1 p h
      · rw [inputs_append]; simp at h; simp [inputs, h]
    | inputErr e _ => exact hfail e rfl
    | publishErr k e _ => exact hfail e rfl
    | confirmErr e _ => exact hfail e rfl
    | closeErr e _ _ _ => exact hfail e rfl
    | send k t a b hk =>
      rw [hk] at i1
      refine ⟨fun p hp => i1 p (by simp at hp ⊢; tauto), fun p hp => ?_, i3, i4⟩
      rcases List.mem_append.1 hp with h | h
      · exact i2 p h
      · simp at h; exact i1 p (by simp [h])
    | exec k w t a b hk =>
      rw [hk] at i2
      refine ⟨i1, fun p hp => i2 p (by simp at hp ⊢; tauto), fun e he => ?_, i4⟩
      rcases List.mem_append.1 he with h | h
      · exact i3 e h
      · simp at h
        refine ⟨w, t, i2 t (by simp), ?_⟩
        cases ho : op w t.2 with
        | ok v => rw [ho] at h; simp [Except.map] at h
        | error e' => rw [ho] at h; simp [Except.map] at h; rw [h]
    | recv k r a b _ _ hk =>
      rw [hk] at i3
      refine ⟨i1, i2, fun e he => i3 e (by simp at he ⊢; tauto), fun e he => ?_⟩
      rcases List.mem_append.1 he with h | h
      · exact i4 e h
      · simp at h; exact .inr (i3 e (by simp [h]))
    | recvAckErr k e r a b _ _ hk =>
      rw [hk] at i3
      refine ⟨i1, i2, fun e he => i3 e (by simp at he ⊢; tauto), fun e' he => ?_⟩
      rcases List.mem_append.1 he with h | h
      · exact i4 e' h
      · simp at h; exact .inl ⟨.recvAckErr k e, by simp, by rw [h]; rfl⟩
    | loseTask k t a b hk =>
      rw [hk] at i2
      exact ⟨i1, fun p hp => i2 p (by simp at hp ⊢; tauto), i3, i4⟩
    | loseResult k t a b hk =>
      rw [hk] at i3
      exact ⟨i1, i2, fun e he => i3 e (by simp at he ⊢; tauto), i4⟩
    | dupTask k t hm =>
      refine ⟨i1, fun p hp => ?_, i3, i4⟩
      rcases List.mem_append.1 hp with h | h
      · exact i2 p h
      · simp at h; exact i2 p (h ▸ hm)
    | dupResult k t hm =>
      refine ⟨i1, i2, fun e he => ?_, i4⟩
      rcases List.mem_append.1 he with h | h
      · exact i3 e h
      · simp at h; exact i3 e (h ▸ hm)
    | _ => exact ⟨i1, i2, i3, i4⟩

end MapS

namespace Fold

variable {comb : ω → α → α → Except ε α} {empty : α} {dupErr : ε}

theorem CombineFails.mono {ins ins' : List (Nat × α)} {e : ε} (hs : ∀ p ∈ ins, p ∈ ins') (h : CombineFails comb ins e) : CombineFails comb ins' e := by
  obtain ⟨w, st, xs, ys, a, b, h1, h2, h3, h4⟩ := h
  exact ⟨w, st, xs, ys, a, b, h1, h2, fun p hp => hs p (h3 p hp), h4⟩

theorem CombineFails.ofTask {ins : List (Nat × α)} {t : CTask α} {w : ω} {e : ε} (ht : TaskOk (Returns comb) ins t) (h : comb w t.a t.b = .error e) : CombineFails comb ins e := by
  obtain ⟨l, r, ⟨xs, h1, h2, h3, h4⟩, ⟨ys, g1, g2, g3, g4⟩, hb, rfl⟩ := ht
  refine ⟨w, l.lo, xs, ys, l.val, r.val, h1, g1, fun p hp => ?_, h⟩
  rw [indexed_append, List.mem_append] at hp
  rcases hp with hp | hp
  · exact h4 p hp
  · refine g4 p ?_
    have : l.lo + xs.length = r.lo := by simp only [Before] at hb; omega
    rwa [this] at hp

theorem TaskOk.asked {R : α → α → α → Prop} {ins : List (Nat × α)} {t : CTask α} (ht : TaskOk R ins t) : Asked R ins t := by
  obtain ⟨l, r, ⟨xs, h1, h2, h3, h4⟩, ⟨ys, g1, g2, g3, g4⟩, hb, rfl⟩ := ht
  have hlr : l.lo + xs.length = r.lo := by simp only [Before] at hb; omega
  refine ⟨xs, ys, h1, g1, by simp only [List.length_append]; omega, fun p hp => ?_⟩
  rw [indexed_append, List.mem_append, hlr] at hp
  rcases hp with hp | hp
  · exact h4 p hp
  · exact g4 p hp

theorem Asked.mono {R R' : α → α → α → Prop} {ins ins' : List (Nat × α)} {t : CTask α} (hR : ∀ a b c, R a b c → R' a b c) (hs : ∀ p ∈ ins, p ∈ ins') (h : Asked R ins t) :
    Asked R' ins' t := by
  obtain ⟨xs, ys, h1, h2, h3, h4⟩ := h
  exact ⟨xs, ys, h1.mono hR, h2.mono hR, h3, fun p hp => hs p (h4 p hp)⟩

theorem CombineFails.asked {ins : List (Nat × α)} {e : ε} (h : CombineFails comb ins e) : ∃ w t, Asked (Returns comb) ins t ∧ comb w t.a t.b = .error e := by
  obtain ⟨w, st, xs, ys, a, b, h1, h2, h3, h4⟩ := h
  have := List.length_pos_of_ne_nil h1.ne_nil
  refine ⟨w, ⟨st, st + (xs ++ ys).length - 1, a, b⟩, ⟨xs, ys, h1, h2, ?_, h3⟩, h4⟩
  simp only [List.length_append]; omega

/-- Errors of the results and of the outcome. -/
structure From (comb : ω → α → α → Except ε α) (dupErr : ε) (ls : List (Label α ε ω)) (s : St α ε) : Prop where
  res : ∀ e, Res.err e ∈ s.results → CombineFails comb (inputs ls) e
  out : ∀ e, s.outcome = some (.err e) → (∃ l ∈ ls, l.failure = some e) ∨ CombineFails comb (inputs ls) e ∨ e = dupErr

theorem from_run (ls : List (Label α ε ω)) (s : St α ε) (h : run comb empty dupErr init ls = some s) : From comb dupErr ls s := by
  refine run_induction (P := fun ls s => From comb dupErr ls s) ?_ ?_ ls s h
  · constructor <;> simp [init]
  · intro ls l s s' hr ih hst
    have ho := step_outcome hst
    have hst := stepR_of_step hst
    have hin : ∀ p ∈ inputs ls, p ∈ inputs (ls ++ [l]) := by rw [inputs_append]; simp +contextual
    have hres : ∀ e, Res.err e ∈ s.results → CombineFails comb (inputs (ls ++ [l])) e := fun e he => (ih.res e he).mono hin
    have hsafe := (safe_run ls s hr).1
    cases hst with
    | item i a hs =>
      have hd := tryDispatch_fields { s with count := s.count + 1, notified := true } (⟨i, i, a⟩ : Seg α)
      obtain ⟨_, _, _, _, f5, _, f7⟩ := hd
      unfold onItem; simp only; split
      · exact ⟨hres, by simp [ho]⟩
      · exact ⟨by rw [f5]; exact hres, by rw [f7]; simp [ho]⟩
    | inputEnd hs =>
      unfold onInputEnd; simp only; split
      · exact ⟨hres, by simp⟩
      · split <;> exact ⟨hres, by simp⟩
      · exact ⟨hres, by simp [ho]⟩
    | inputErr e hs => exact ⟨hres, fun e' he' => .inl ⟨.inputErr e, by simp, by simpa [Label.failure] using he'⟩⟩
    | ioErr e => exact ⟨hres, fun e' he' => .inl ⟨.ioErr e, by simp, by simpa [Label.failure] using he'⟩⟩
    | exec k w t rest hp =>
      refine ⟨?_, by simp [ho]⟩
      intro e he
      simp at he
      rcases he with he | he
      · exact hres e he
      · unfold execute at he
        split at he
        · simp at he
        · rename_i e' hc
          simp at he; subst he
          exact (CombineFails.ofTask (hsafe.tsk t (hp.mem_iff.2 (by simp))) hc).mono hin
    | recv k r rest hn hp =>
      have hrest : ∀ e, Res.err e ∈ rest → CombineFails comb (inputs (ls ++ [(.recv k : Label α ε ω)])) e :=
        fun e he => hres e (hp.mem_iff.2 (by simp [he]))
      cases r with
      | err e =>
        refine ⟨hrest, ?_⟩
        intro e' he'
        simp [onResult] at he'
        subst he'
        exact .inr (.inl (hres e (hp.mem_iff.2 (by simp))))
      | ok x =>
        obtain ⟨_, _, _, _, f5, _, f7⟩ := tryDispatch_fields { s with results := rest } x
        unfold onResult; simp only
        split
        · split
          · split
            · exact ⟨hrest, by simp [ho]⟩
            · exact ⟨hrest, fun e he => .inr (.inr (by simpa using he.symm))⟩
          · exact ⟨by rw [f5]; exact hrest, by rw [f7]; simp [ho]⟩
        · exact ⟨by rw [f5]; exact hrest, by rw [f7]; simp [ho]⟩
    | loseResult k r rest hp => exact ⟨fun e he => hres e (hp.mem_iff.2 (by simp [he])), by simp [ho]⟩
    | dupResult k r hm =>
      refine ⟨fun e he => hres e ?_, by simp [ho]⟩
      simp at he
      rcases he with he | he
      · exact he
      · rw [he]; exact hm
    | _ => exact ⟨hres, by simp [ho]⟩

end Fold
end Paladin

/-! # Counting sends and receipts -/
namespace Paladin

namespace MapS

/-- Messages sent by a step. -/
def Label.snd : Label α ε ω → Nat
  | .send _ => 1
  | _ => 0

/-- Results taken by a step. -/
def Label.rcv : Label α ε ω → Nat
  | .recv _ | .recvAckErr _ _ => 1
  | _ => 0

theorem balance_run {op : ω → α → Except ε β} (ls : List (Label α ε ω)) (s : St α β ε) (h : run op init ls = some s) :
    (ls.map Label.snd).sum + s.inflight.length ≤ (inputs ls).length ∧ (oks s.outs).length ≤ (ls.map Label.rcv).sum := by
  refine run_induction (P := fun ls s => (ls.map Label.snd).sum + s.inflight.length ≤ (inputs ls).length ∧ (oks s.outs).length ≤ (ls.map Label.rcv).sum) ?_ ?_ ls s h
  · simp [init, inputs, oks]
  · intro ls l s s' hr ih hst
    have hst := stepR_of_step hst
    obtain ⟨h1, h2⟩ := ih
    rw [inputs_append, inputs_cons]
    simp only [List.map_append, List.map_cons, List.map_nil, List.sum_append, List.sum_cons, List.sum_nil, inputs, List.append_nil, List.length_append]
    cases hst with
    | send k t a b hk => rw [hk] at h1; simp [Label.snd, Label.rcv, Label.items] at h1 ⊢; omega
    | recv k r a b _ _ hk =>
      simp only [Label.snd, Label.rcv, Label.items, oks_append, List.length_append]
      cases r <;> simp [oks] <;> omega
    | _ => (simp [Label.snd, Label.rcv, Label.items, sendFail, oks_append, oks]; omega)

/-- Received or pending. -/
theorem pending_run {op : ω → α → Except ε β} (ls : List (Label α ε ω)) (s : St α β ε) (h : run op init ls = some s) (hc : ∀ l ∈ ls, l.connected = true) :
    (inputs ls).length ≤ s.pending + (ls.map Label.rcv).sum ∧ s.innerEnded = false ∧ (s.closed = true → s.sendDone = true) ∧
      (s.recvEnded = true → s.closed = true ∧ s.pending = 0) ∧ (s.ended = true → s.recvEnded = true) := by
  revert hc
  refine run_induction (P := fun ls s => (∀ l ∈ ls, l.connected = true) → (inputs ls).length ≤ s.pending + (ls.map Label.rcv).sum ∧ s.innerEnded = false ∧
    (s.closed = true → s.sendDone = true) ∧ (s.recvEnded = true → s.closed = true ∧ s.pending = 0) ∧ (s.ended = true → s.recvEnded = true)) ?_ ?_ ls s h
  · simp [init, inputs]
  · intro ls l s s' hr ih hst hc
    have he := step_ended hst
    have hst := stepR_of_step hst
    have hcl := hc l (by simp)
    obtain ⟨h1, h2, h3, h4, h5⟩ := ih fun l h => hc l (by simp [h])
    rw [inputs_append, inputs_cons]
    simp only [List.map_append, List.map_cons, List.map_nil, List.sum_append, List.sum_cons, List.sum_nil, inputs, List.append_nil, List.length_append]
    cases hst with
    | item i a hd _ =>
      simp only [Label.items, Label.rcv, List.length_singleton]
      refine ⟨by omega, h2, h3, fun h => ?_, h5⟩
      have := h3 (h4 h).1
      simp [hd] at this
    | disconnect => simp [Label.connected] at hcl
    | _ => simp_all [Label.items, Label.rcv, sendFail] <;> omega

/-- A map that has ended has taken a result for every message it sent. -/
theorem ended_balanced {op : ω → α → Except ε β} {ls : List (Label α ε ω)} {s : St α β ε} (h : run op init ls = some s) (hc : ∀ l ∈ ls, l.connected = true) (he : s.ended = true) :
    (ls.map Label.snd).sum ≤ (ls.map Label.rcv).sum := by
  obtain ⟨h1, _, _, h4, h5⟩ := pending_run ls s h hc
  have := (h4 (h5 he)).2
  have := (balance_run ls s h).1
  omega

end MapS

namespace Fold

variable {comb : ω → α → α → Except ε α} {empty : α} {dupErr : ε}

/-- Messages sent by a step. -/
def Label.snd : Label α ε ω → Nat
  | .publish _ => 1
  | _ => 0

/-- Results taken by a step. -/
def Label.rcv : Label α ε ω → Nat
  | .recv _ => 1
  | _ => 0

theorem balance_run (ls : List (Label α ε ω)) (s : St α ε) (h : run comb empty dupErr init ls = some s) (hl : ∀ l ∈ ls, l.lossless = true) :
    (ls.map Label.snd).sum = (ls.map Label.rcv).sum + s.tasks.length + s.results.length := by
  revert hl
  refine run_induction (P := fun ls s => (∀ l ∈ ls, l.lossless = true) → (ls.map Label.snd).sum = (ls.map Label.rcv).sum + s.tasks.length + s.results.length) ?_ ?_ ls s h
  · simp [init]
  · intro ls l s s' hr ih hst hl
    have hll := hl l (by simp)
    have ih := ih fun l h => hl l (by simp [h])
    have hst := stepR_of_step hst
    simp only [List.map_append, List.map_cons, List.map_nil, List.sum_append, List.sum_cons, List.sum_nil]
    cases hst with
    | item i a hs =>
      obtain ⟨_, _, _, f4, f5, _, _⟩ := tryDispatch_fields { s with count := s.count + 1, notified := true } (⟨i, i, a⟩ : Seg α)
      unfold onItem; simp only; split
      · simpa [Label.snd, Label.rcv] using ih
      · rw [f4, f5]; simpa [Label.snd, Label.rcv] using ih
    | inputEnd hs =>
      unfold onInputEnd; simp only; split
      · simpa [Label.snd, Label.rcv] using ih
      · split <;> simpa [Label.snd, Label.rcv] using ih
      · simpa [Label.snd, Label.rcv] using ih
    | publish k t rest hp => have := hp.length_eq; simp [Label.snd, Label.rcv] at this ⊢; omega
    | exec k w t rest hp => have := hp.length_eq; simp [Label.snd, Label.rcv] at this ⊢; omega
    | recv k r rest hn hp =>
      have := hp.length_eq
      simp at this
      have key : (onResult dupErr { s with results := rest } r).tasks = s.tasks ∧ (onResult dupErr { s with results := rest } r).results = rest := by
        cases r with
        | err e => exact ⟨rfl, rfl⟩
        | ok x =>
          obtain ⟨_, _, _, f4, f5, _, _⟩ := tryDispatch_fields { s with results := rest } x
          unfold onResult; simp only
          split
          · split
            · split <;> exact ⟨rfl, rfl⟩
            · exact ⟨f4, f5⟩
          · exact ⟨f4, f5⟩
      rw [key.1, key.2]
      simp [Label.snd, Label.rcv]; omega
    | loseTask k r rest hp => simp [Label.lossless] at hll
    | loseResult k r rest hp => simp [Label.lossless] at hll
    | dupTask k r hp => simp [Label.lossless] at hll
    | dupResult k r hm => simp [Label.lossless] at hll
    | _ => simpa [Label.snd, Label.rcv] using ih

end Fold
end Paladin
