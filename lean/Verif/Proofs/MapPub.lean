import Verif.Proofs.PubMap
import Verif.Proofs.Lts
/-! # What the sending side of a map does, `publish_all` can do: proofs -/
namespace Paladin
namespace PubAll

variable {α β ε ω : Type} {op : ω → α → Except ε β}

/-- Between two polls, everything that was ready taken. -/
structure Idle (s : St (Nat × α) ε) : Prop where
  pc : s.pc = .asleep
  opened : s.opened = true
  ready : s.ready = none
  res : ∀ f ∈ s.futs, f.res = none

theorem split_filterMap {γ δ : Type} {g : γ → Option δ} : ∀ {l : List γ} {k : Nat} {t : δ}, (l.filterMap g)[k]? = some t → ∃ a x b, l = a ++ x :: b ∧ g x = some t ∧ (a.filterMap g).length = k
  | [], k, t, h => by simp at h
  | x :: l, k, t, h => by
    cases hx : g x with
    | none =>
      rw [List.filterMap_cons, hx] at h
      obtain ⟨a, y, b, rfl, h2, h3⟩ := split_filterMap h
      exact ⟨x :: a, y, b, rfl, h2, by rw [List.filterMap_cons, hx]; exact h3⟩
    | some d =>
      rw [List.filterMap_cons, hx] at h
      cases k with
      | zero => exact ⟨[], x, l, rfl, by simpa [hx] using h, rfl⟩
      | succ k =>
        obtain ⟨a, y, b, rfl, h2, h3⟩ := split_filterMap (k := k) (by simpa using h)
        exact ⟨x :: a, y, b, rfl, h2, by rw [List.filterMap_cons, hx]; simp [h3]⟩

theorem lens_eq (items : List (Nat × α)) (fs : List (Fut ε)) (hb : ∀ f ∈ fs, f.idx < items.length) : (fs.filterMap (unsent items)).length + fs.countP (·.sent) = fs.length := by
  induction fs with
  | nil => simp
  | cons f fs ih =>
    have ih := ih fun g hg => hb g (by simp [hg])
    have hf := hb f (by simp)
    simp only [List.filterMap_cons, List.countP_cons, List.length_cons]
    cases hs : f.sent with
    | true => 
      have : unsent items f = none := by simp [unsent, hs]
      rw [this]; simp; omega
    | false =>
      have : unsent items f = some items[f.idx] := by simp [unsent, hs, hf]
      rw [this]; simp; omega

theorem takeAt_some {γ : Type} {l : List γ} {k : Nat} {t : γ} {r : List γ} (h : Fold.takeAt l k = some (t, r)) : l[k]? = some t ∧ r = l.eraseIdx k := by
  unfold Fold.takeAt at h
  split at h <;> simp only [Option.some.injEq, reduceCtorEq, Prod.mk.injEq] at h
  rename_i hx
  exact ⟨h.1 ▸ hx, h.2.symm⟩

/-- Nothing is ready: the poll goes back to sleep. -/
theorem to_sleep {s : St (Nat × α) ε} (hpc : s.pc = .top) (ho : s.opened = true) (hr : s.ready = none) (hres : ∀ f ∈ s.futs, f.res = none) :
    ∃ ls s', run (some MapS.limit) s ls = some s' ∧ Label.drop ∉ ls ∧ Idle s' ∧ s'.futs = s.futs ∧ s'.items = s.items ∧ s'.sent = s.sent ∧ s'.ret = s.ret := by
  obtain ⟨pc, opened, ready, parked, woken, futs, items, sent, ret⟩ := s
  simp only at hpc ho hr hres
  subst hpc ho hr
  have hs : ∃ p, step (some MapS.limit) ⟨.top, true, none, parked, woken, futs, items, sent, ret⟩ .stream = some ⟨.futures false, true, none, p, woken, futs, items, sent, ret⟩ := by
    simp only [step, if_true]
    split <;> exact ⟨_, rfl⟩
  obtain ⟨p, hs⟩ := hs
  cases hf : futs with
  | nil =>
    subst hf
    exact ⟨[.stream, .futNone], _, Lts.run_cons.2 ⟨_, hs, rfl⟩, by simp, ⟨rfl, rfl, rfl, fun f hf => by cases hf⟩, rfl, rfl, rfl, rfl⟩
  | cons f fs =>
    have : step (some MapS.limit) ⟨.futures false, true, none, p, woken, futs, items, sent, ret⟩ .futPending = some ⟨.asleep, true, none, p, woken, futs, items, sent, ret⟩ := by
      simp only [step]
      rw [if_pos]
      · rfl
      · simp only [Bool.and_eq_true, List.all_eq_true, Option.isNone_iff_eq_none]
        exact ⟨by simp [hf], hres⟩
    rw [← hf]
    exact ⟨[.stream, .futPending], _, Lts.run_cons.2 ⟨_, hs, Lts.run_one.2 this⟩, by simp, ⟨rfl, rfl, rfl, hres⟩, rfl, rfl, rfl, rfl⟩

/-- The `k`-th publish finishes, and the task polls: the stream has nothing, the set of publishes is polled. -/
theorem finishes {s : St (Nat × α) ε} (hi : Idle s) {a b : List (Fut ε)} {f : Fut ε} (hf : s.futs = a ++ f :: b) (r : Except ε Unit) (hr : r.isOk = true → f.sent = true) :
    ∃ p, run (some MapS.limit) s [.resolve a.length r, .poll, .stream] = some { s with pc := .futures false, parked := p, woken := false, futs := a ++ { f with res := some r } :: b } := by
  obtain ⟨pc, opened, ready, parked, woken, futs, items, sent, ret⟩ := s
  obtain ⟨h1, h2, h3, h4⟩ := hi
  simp only at h1 h2 h3 h4 hf
  subst h1 h2 h3 hf
  have hn := h4 f (by simp)
  have hg : (f.res.isSome || (r.isOk && !f.sent)) = false := by
    cases hk : r.isOk with
    | false => simp [hn]
    | true => simp [hn, hr hk]
  have hget : (a ++ f :: b)[a.length]? = some f := by simp
  have hset : (a ++ f :: b).set a.length { f with res := some r } = a ++ { f with res := some r } :: b := by simp [List.set_append_right]
  have e1 : step (some MapS.limit) ⟨.asleep, true, none, parked, woken, a ++ f :: b, items, sent, ret⟩ (.resolve a.length r) =
      some ⟨.asleep, true, none, parked, true, a ++ { f with res := some r } :: b, items, sent, ret⟩ := by
    simp only [step, hget, hg, hset]; rfl
  have e2 : ∃ p, step (some MapS.limit) ⟨.top, true, none, parked, false, a ++ { f with res := some r } :: b, items, sent, ret⟩ .stream =
      some ⟨.futures false, true, none, p, false, a ++ { f with res := some r } :: b, items, sent, ret⟩ := by
    simp only [step, if_true]
    split <;> exact ⟨_, rfl⟩
  obtain ⟨p, e2⟩ := e2
  exact ⟨p, Lts.run_cons.2 ⟨_, e1, Lts.run_cons.2 ⟨_, rfl, Lts.run_one.2 e2⟩⟩⟩

theorem realize_step {s : St (Nat × α) ε} {m m' : MapS.St α β ε} {l : MapS.Label α ε ω} (hi : Inv s) (hs : Sends s m) (hid : Idle s) (hl : sending l = true)
    (he : ∀ e, l = .inputErr e → m.inflight.length + m.unconf < MapS.limit) (h : MapS.step op m l = some m') :
    ∃ ls s', run (some MapS.limit) s ls = some s' ∧ Label.drop ∉ ls ∧ Sends s' m' ∧ s'.items = s.items ++ MapS.inputs [l] ∧ (Idle s' ∨ m'.sendDone = true) := by
  have hlen := lens_eq s.items s.futs hi.bound
  obtain ⟨h1, h2, h3, h4, h5, h6, h7, h8⟩ := hs
  have hid' := hid
  obtain ⟨i1, i2, i3, i4⟩ := hid
  have hr : s.ret = none := h6 (by simp [i1])
  have h5 : m.sendDone = false := by rw [h5, i1]; rfl
  rw [← h1, ← h2] at hlen
  cases l <;> simp only [sending, Bool.false_eq_true] at hl <;> simp only [MapS.step, h4, h5, Bool.false_eq_true, if_false, Bool.not_false, Bool.true_and] at h
  case item i a =>
    split at h <;> simp only [Option.some.injEq, reduceCtorEq] at h
    rename_i hroom
    subst h
    obtain ⟨g1, g2⟩ := grow_items hi (i, a)
    have hroom : room (some MapS.limit) s.futs.length = true := by
      have := of_decide_eq_true hroom
      rw [hlen] at this
      exact decide_eq_true this
    let s1 : St (Nat × α) ε := { s with pc := .futures true, ready := none, parked := false, woken := false, futs := s.futs ++ [⟨s.items.length, false, none⟩], items := s.items ++ [(i, a)] }
    let s2 : St (Nat × α) ε := { s1 with pc := .top }
    have e1 : ∃ w, step (some MapS.limit) s (.answer (.item (i, a))) = some { s with ready := some (.item (i, a)), woken := w } := by
      simp only [step, i2, i3]; exact ⟨_, rfl⟩
    obtain ⟨w, e1⟩ := e1
    have e2 : step (some MapS.limit) { s with ready := some (.item (i, a)), woken := w } .poll = some { s with pc := .top, ready := some (.item (i, a)), woken := false } := by
      simp only [step, i1, if_true]
    have e3 : step (some MapS.limit) { s with pc := .top, ready := some (.item (i, a)), woken := false } .stream = some s1 := by
      simp only [step, hroom, i2, if_true, s1]
    have hres : ∀ f ∈ s1.futs, f.res = none := by
      intro f hf
      rcases List.mem_append.1 hf with hf | hf
      · exact i4 f hf
      · simp only [List.mem_singleton] at hf; subst hf; rfl
    have e4 : step (some MapS.limit) s1 .futPending = some s2 := by
      simp only [step, s1]
      rw [if_pos]
      · rfl
      · simp only [Bool.and_eq_true, List.all_eq_true, Option.isNone_iff_eq_none]
        exact ⟨by simp, hres⟩
    obtain ⟨ls, s3, r1, r2, r3, r4, r5, r6, r7⟩ := to_sleep (s := s2) rfl i2 rfl hres
    refine ⟨.answer (.item (i, a)) :: .poll :: .stream :: .futPending :: ls, s3, Lts.run_cons.2 ⟨_, e1, Lts.run_cons.2 ⟨_, e2, Lts.run_cons.2 ⟨_, e3, Lts.run_cons.2 ⟨_, e4, r1⟩⟩⟩⟩,
      by simp [r2], ⟨?_, ?_, ?_, by first | exact h4 | rfl, ?_, ?_, ?_, ?_⟩, ?_, .inl r3⟩
    · rw [r4, r5]
      show m.inflight ++ [(i, a)] = (s.futs ++ [_]).filterMap (unsent (s.items ++ [(i, a)]))
      rw [List.filterMap_append, g1, ← h1]
      simp [unsent]
    · rw [r4]
      show m.unconf = (s.futs ++ [_]).countP _
      simp [h2]
    · rw [r5, r6]
      show m.tasks = s.sent.filterMap ((s.items ++ [(i, a)])[·]?)
      rw [g2]; exact h3
    · rw [r3.pc]; rfl
    · intro _; rw [r7]; exact hr
    · rw [r7]; exact h7
    · rw [r7]; exact h8
    · rw [r5]; rfl
  case inputErr e =>
    simp only [if_true, Option.some.injEq] at h
    subst h
    have hroom : room (some MapS.limit) s.futs.length = true := decide_eq_true (hlen ▸ he e rfl)
    have e1 : ∃ w, step (some MapS.limit) s (.answer (.err e)) = some { s with ready := some (.err e), woken := w } := by
      simp only [step, i2, i3]; exact ⟨_, rfl⟩
    obtain ⟨w, e1⟩ := e1
    have e2 : step (some MapS.limit) { s with ready := some (.err e), woken := w } .poll = some { s with pc := .top, ready := some (.err e), woken := false } := by
      simp only [step, i1, if_true]
    have e3 : step (some MapS.limit) { s with pc := .top, ready := some (.err e), woken := false } .stream =
        some { s with pc := .returned, opened := false, ready := none, parked := false, woken := false, futs := [], ret := some (.error e) } := by
      simp only [step, hroom, i2, if_true]
    exact ⟨[.answer (.err e), .poll, .stream], _, Lts.run_cons.2 ⟨_, e1, Lts.run_cons.2 ⟨_, e2, Lts.run_one.2 e3⟩⟩, by simp,
      ⟨rfl, rfl, h3, h4, rfl, by simp, by simp [MapS.sendFail, h7, hr, forwarded], rfl⟩, by simp [MapS.inputs], .inr rfl⟩
  case send k =>
    split at h <;> simp only [Option.some.injEq, reduceCtorEq] at h
    rename_i t rest ht0
    subst h
    obtain ⟨ht, hrest⟩ := takeAt_some ht0
    clear ht0
    subst hrest
    rw [h1] at ht
    obtain ⟨a, f, b, hab, hun, hk⟩ := split_filterMap ht
    have hfs : f.sent = false := by
      cases hc : f.sent with
      | false => rfl
      | true => simp [unsent, hc] at hun
    have hidx : s.items[f.idx]? = some t := by simpa [unsent, hfs] using hun
    have hn := i4 f (hab ▸ by simp)
    have hget : s.futs[a.length]? = some f := by simp [hab]
    have hset : s.futs.set a.length { f with sent := true } = a ++ { f with sent := true } :: b := by simp [hab, List.set_append_right]
    have e1 : step (some MapS.limit) s (.send a.length) = some { s with futs := a ++ { f with sent := true } :: b, sent := s.sent ++ [f.idx] } := by
      simp only [step, hget, hset]
      rw [if_neg (by simp [hfs, hn])]
    refine ⟨[.send a.length], _, Lts.run_one.2 e1, by simp, ⟨?_, ?_, ?_, by first | exact h4 | rfl, ?_, h6, h7, h8⟩, by simp [MapS.inputs], .inl ⟨i1, i2, i3, ?_⟩⟩
    · show m.inflight.eraseIdx k = (a ++ { f with sent := true } :: b).filterMap (unsent s.items)
      rw [h1, hab, List.filterMap_append, List.filterMap_cons, hun, List.filterMap_append, List.filterMap_cons, ← hk, List.eraseIdx_append_of_length_le (Nat.le_refl _)]
      simp only [Nat.sub_self, List.eraseIdx_cons_zero]
      rfl
    · show m.unconf + 1 = (a ++ { f with sent := true } :: b).countP (·.sent)
      rw [h2, hab, List.countP_append, List.countP_append, List.countP_cons, List.countP_cons]
      simp [hfs]; omega
    · simp [h3, List.filterMap_append, hidx]
    · rw [i1]; rfl
    · intro g hg
      simp only [List.mem_append, List.mem_cons] at hg
      rcases hg with hg | rfl | hg
      · exact i4 g (hab ▸ by simp [hg])
      · exact hn
      · exact i4 g (hab ▸ by simp [hg])
  case confirm =>
    split at h <;> simp only [Option.some.injEq, reduceCtorEq] at h
    rename_i hpos
    subst h
    rw [h2] at hpos
    obtain ⟨f, hf, hfs⟩ := List.countP_pos_iff.1 hpos
    obtain ⟨a, b, hab⟩ := List.append_of_mem hf
    obtain ⟨p, e1⟩ := finishes hid' hab (.ok ()) fun _ => hfs
    let s1 : St (Nat × α) ε := { s with pc := .top, parked := p, woken := false, futs := a ++ b }
    have e2 : step (some MapS.limit) { s with pc := .futures false, parked := p, woken := false, futs := a ++ { f with res := some (.ok ()) } :: b } (.fut a.length) = some s1 := by
      have hget : (a ++ { f with res := some (.ok ()) } :: b)[a.length]? = some { f with res := some (.ok ()) } := by simp
      simp only [step, hget, List.eraseIdx_append_of_length_le (Nat.le_refl _), Nat.sub_self, List.eraseIdx_cons_zero]; rfl
    have hres : ∀ g ∈ s1.futs, g.res = none := fun g hg => i4 g (hab ▸ by rcases List.mem_append.1 hg with hg | hg <;> simp [hg])
    obtain ⟨ls, s3, r1, r2, r3, r4, r5, r6, r7⟩ := to_sleep (s := s1) rfl i2 i3 hres
    refine ⟨[.resolve a.length (.ok ()), .poll, .stream] ++ (.fut a.length :: ls), s3, Lts.run_append.2 ⟨_, e1, Lts.run_cons.2 ⟨_, e2, r1⟩⟩, by simp [r2], ⟨?_, ?_, ?_, by first | exact h4 | rfl, ?_, ?_, ?_, ?_⟩, ?_, .inl r3⟩
    · rw [r4, r5]
      show m.inflight = (a ++ b).filterMap (unsent s.items)
      have hun : unsent s.items f = none := by simp [unsent, hfs]
      rw [h1, hab, List.filterMap_append, List.filterMap_cons, hun, List.filterMap_append]
    · rw [r4]
      show m.unconf - 1 = (a ++ b).countP (·.sent)
      rw [h2, hab, List.countP_append, List.countP_cons, List.countP_append, if_pos hfs]
      omega
    · rw [r5, r6]; exact h3
    · rw [r3.pc]; rfl
    · intro _; rw [r7]; exact hr
    · rw [r7]; exact h7
    · rw [r7]; exact h8
    · rw [r5]; simp [MapS.inputs, s1]
  case publishErr k e =>
    split at h <;> simp only [Option.some.injEq, reduceCtorEq] at h
    rename_i t ht
    subst h
    obtain ⟨t, rest⟩ := t
    obtain ⟨ht, _⟩ := takeAt_some ht
    rw [h1] at ht
    obtain ⟨a, f, b, hab, _, _⟩ := split_filterMap ht
    obtain ⟨p, e1⟩ := finishes hid' hab (.error e) fun h => by cases h
    have e2 : step (some MapS.limit) { s with pc := .futures false, parked := p, woken := false, futs := a ++ { f with res := some (.error e) } :: b } (.fut a.length) =
        some { s with pc := .returned, opened := false, parked := p, woken := false, futs := [], ret := some (.error e) } := by
      have hget : (a ++ { f with res := some (.error e) } :: b)[a.length]? = some { f with res := some (.error e) } := by simp
      simp only [step, hget]
    have e3 := Lts.run_append.2 ⟨_, e1, Lts.run_one.2 e2⟩
    refine ⟨_, _, e3, by simp, ?_, by simp [MapS.inputs], .inr rfl⟩
    exact ⟨rfl, rfl, h3, h4, rfl, by simp, by simp [MapS.sendFail, h7, hr, forwarded], rfl⟩
  case confirmErr e =>
    split at h <;> simp only [Option.some.injEq, reduceCtorEq] at h
    rename_i hpos
    subst h
    rw [h2] at hpos
    obtain ⟨f, hf, hfs⟩ := List.countP_pos_iff.1 hpos
    obtain ⟨a, b, hab⟩ := List.append_of_mem hf
    obtain ⟨p, e1⟩ := finishes hid' hab (.error e) fun h => by cases h
    have e2 : step (some MapS.limit) { s with pc := .futures false, parked := p, woken := false, futs := a ++ { f with res := some (.error e) } :: b } (.fut a.length) =
        some { s with pc := .returned, opened := false, parked := p, woken := false, futs := [], ret := some (.error e) } := by
      have hget : (a ++ { f with res := some (.error e) } :: b)[a.length]? = some { f with res := some (.error e) } := by simp
      simp only [step, hget]
    have e3 := Lts.run_append.2 ⟨_, e1, Lts.run_one.2 e2⟩
    refine ⟨_, _, e3, by simp, ?_, by simp [MapS.inputs], .inr rfl⟩
    exact ⟨rfl, rfl, h3, h4, rfl, by simp, by simp [MapS.sendFail, h7, hr, forwarded], rfl⟩
  case inputEnd =>
    split at h <;> simp only [Option.some.injEq, reduceCtorEq] at h
    rename_i hg
    subst h
    simp only [Bool.and_eq_true, List.isEmpty_iff, decide_eq_true_eq] at hg
    have hf : s.futs = [] := by
      apply List.eq_nil_of_length_eq_zero
      rw [← hlen, hg.1, hg.2]; rfl
    have e1 : ∃ w, step (some MapS.limit) s (.answer .fin) = some { s with ready := some .fin, woken := w } := by
      simp only [step, i2, i3]; exact ⟨_, rfl⟩
    obtain ⟨w, e1⟩ := e1
    have e2 : step (some MapS.limit) { s with ready := some .fin, woken := w } .poll = some { s with pc := .top, ready := some .fin, woken := false } := by
      simp only [step, i1, if_true]
    have e3 : step (some MapS.limit) { s with pc := .top, ready := some .fin, woken := false } .stream =
        some { s with pc := .futures false, opened := false, ready := none, parked := false, woken := false } := by
      have hroom : room (some MapS.limit) s.futs.length = true := by rw [hf]; rfl
      simp only [step, hroom, i2, if_true]
    have e4 : step (some MapS.limit) { s with pc := .futures false, opened := false, ready := none, parked := false, woken := false } .futNone =
        some { s with pc := .returned, opened := false, ready := none, parked := false, woken := false, ret := some (.ok ()) } := by
      simp [step, hf]
    exact ⟨[.answer .fin, .poll, .stream, .futNone], _, Lts.run_cons.2 ⟨_, e1, Lts.run_cons.2 ⟨_, e2, Lts.run_cons.2 ⟨_, e3, Lts.run_one.2 e4⟩⟩⟩, by simp,
      ⟨h1, h2, h3, by first | exact h4 | rfl, rfl, by simp, by simp [h7, hr, forwarded], rfl⟩, by simp [MapS.inputs], .inr rfl⟩

end PubAll
end Paladin
