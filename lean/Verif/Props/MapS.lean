import Verif.Proofs.MapS
/-!
# Properties C12-C16: `IndexedStream::map`

Vocabulary: `Verif/Spec/MapTrace.lean`. `run op init ls = some s` says that `ls` is an execution of the map and `s` its state afterwards;
`s.outs` is what the mapped stream has yielded, `s.ended` whether it has returned `None`.
-/
namespace Paladin
namespace MapS

variable {op : ω → α → Except ε β}

/-- **C12.** If the mapped stream has ended and yielded no error, its items are exactly one output per input. Messages may be lost; they are
delivered at most once and the broker's consumer does not end. -/
theorem C12_map_one_each (ls : List (Label α ε ω)) (s : St α β ε) (h : run op init ls = some s)
    (hl : ∀ l ∈ ls, l.exactlyOnce = true) (hc : ∀ l ∈ ls, l.connected = true)
    (hend : s.ended = true) (herr : errs s.outs = []) : OneEach (Returns op) (inputs ls) (oks s.outs) := by
  obtain ⟨R, T, E, L, hi⟩ := inv_run ls s h hl hc
  obtain ⟨_, _, _, _, _, hp⟩ := hi.ended hend
  have hE : E = [] := List.eq_nil_of_length_eq_zero (by have := hi.err; rw [herr] at this; simpa using this)
  rw [hE] at hp
  exact ⟨T, by simpa using hp, hi.out.symm, hi.ret⟩

/-- At any time, ended or not: every output yielded belongs to an input received, and no input is used twice. -/
theorem C12_map_sound (ls : List (Label α ε ω)) (s : St α β ε) (h : run op init ls = some s)
    (hl : ∀ l ∈ ls, l.exactlyOnce = true) (hc : ∀ l ∈ ls, l.connected = true) :
    ∃ ins rest, (ins ++ rest).Perm (inputs ls) ∧ OneEach (Returns op) ins (oks s.outs) := by
  obtain ⟨R, T, E, L, hi⟩ := inv_run ls s h hl hc
  refine ⟨T.map fun t => (t.1, t.2.1), s.inflight ++ (s.tasks ++ (R.map Src.inp ++ (E ++ L))), ?_, T, .refl _, hi.out.symm, hi.ret⟩
  refine List.Perm.trans ?_ hi.part
  perm_count

theorem indexed_inj {start : Nat} {xs : List α} {a b : Nat × α} (ha : a ∈ indexed start xs) (hb : b ∈ indexed start xs)
    (h : a.1 = b.1) : a = b := by
  induction xs generalizing start with
  | nil => simp [indexed] at ha
  | cons x xs ih =>
    simp only [indexed, List.mem_cons] at ha hb
    rcases ha with rfl | ha <;> rcases hb with rfl | hb
    · rfl
    · have := Fold.mem_indexed hb; simp at h; omega
    · have := Fold.mem_indexed ha; simp at h; omega
    · exact ih ha hb

/-- One output per input, sorted by index, for inputs numbered consecutively, is the pointwise image. -/
theorem OneEach.sorted {R : α → β → Prop} {start : Nat} {xs : List α} {outs sorted : List (Nat × β)}
    (h : OneEach R (indexed start xs) outs) (hp : sorted.Perm outs) (hs : sorted.Pairwise (fun a b => a.1 ≤ b.1)) :
    List.Forall₂ R xs (sorted.map (·.2)) := by
  obtain ⟨T, hT, rfl, h3⟩ := h
  -- choose the triples in the order of `sorted`
  obtain ⟨U, hU, rfl⟩ : ∃ U : List (Nat × α × β), U.Perm T ∧ U.map (fun t => (t.1, t.2.2)) = sorted := by
    clear hs hT h3
    induction T generalizing sorted with
    | nil => simp at hp; subst hp; exact ⟨[], .refl _, rfl⟩
    | cons t T ih =>
      simp only [List.map_cons] at hp
      obtain ⟨a, b, rfl⟩ := List.append_of_mem (hp.mem_iff.2 (by simp : (t.1, t.2.2) ∈ _))
      have hp' : (a ++ b).Perm (T.map fun t => (t.1, t.2.2)) :=
        (List.perm_cons _).1 (List.perm_middle.symm.trans hp)
      obtain ⟨U, hU, hm⟩ := ih hp'
      obtain ⟨Ua, Ub, rfl, rfl, rfl⟩ := List.map_eq_append_iff.1 hm
      exact ⟨Ua ++ t :: Ub, List.perm_middle.trans (hU.cons t), by simp⟩
  have h1 : (U.map fun t => (t.1, t.2.1)).Perm (indexed start xs) := (hU.map _).trans hT
  have heq : (U.map fun t => (t.1, t.2.1)) = indexed start xs := by
    refine h1.eq_of_pairwise (le := fun p q => p.1 ≤ q.1) ?_ ?_ ?_
    · intro a b ha hb h1' h2'
      have hb' := hb
      have ha' := h1.mem_iff.1 ha
      have : a.1 = b.1 := by omega
      by_contra hne
      exact hne (indexed_inj ha' hb' (by omega))
    · rw [List.pairwise_map] at hs ⊢; exact hs
    · exact (Fold.pairwise_indexed start xs).imp fun h => by omega
  have h3' : ∀ t ∈ U, R t.2.1 t.2.2 := fun t ht => h3 t (hU.mem_iff.1 ht)
  clear h1 hs hU h3 hp hT
  induction xs generalizing start U with
  | nil =>
    cases U with
    | nil => simp
    | cons _ _ => simp [indexed] at heq
  | cons x xs ih =>
    cases U with
    | nil => simp [indexed] at heq
    | cons t U =>
      simp only [indexed, List.map_cons, List.cons.injEq] at heq
      obtain ⟨ht, heq⟩ := heq
      refine List.Forall₂.cons ?_ (ih U heq (fun t ht => h3' t (by simp [ht])))
      have := h3' t (by simp)
      cases ht; exact this

/-- **C13.** `IndexedStream::from(xs).map(op)` drained with `into_values_sorted`: an `Ok` result has one output per element of `xs`, in the order of
`xs`, each what some execution of the operation on that element returned. -/
theorem C13_map_sorted (ls : List (Label α ε ω)) (s : St α β ε) (xs : List α) (vs : List β) (h : run op init ls = some s)
    (hl : ∀ l ∈ ls, l.exactlyOnce = true) (hc : ∀ l ∈ ls, l.connected = true) (hin : (inputs ls).Perm (indexed 0 xs))
    (hv : Collects s.outs s.ended (.ok vs)) : List.Forall₂ (Returns op) xs vs := by
  generalize ho : s.outs = outs at hv
  generalize he : s.ended = en at hv
  cases hv with
  | ok hp hs =>
    rename_i oks' sorted
    have herr : errs s.outs = [] := by rw [ho]; exact errs_map_ok _
    obtain ⟨T, h1, h2, h3⟩ := C12_map_one_each ls s h hl hc he herr
    rw [ho, oks_map_ok] at h2
    exact OneEach.sorted ⟨T, h1.trans hin, h2, h3⟩ hp hs

/-- **C13, pure operations.** If the operation is a function that does not fail, the result is `xs.map f`. -/
theorem C13_map_pure (f : α → β) (ls : List (Label α ε ω)) (s : St α β ε) (xs : List α) (vs : List β)
    (h : run (fun _ a => .ok (f a)) init ls = some s) (hl : ∀ l ∈ ls, l.exactlyOnce = true)
    (hc : ∀ l ∈ ls, l.connected = true) (hin : (inputs ls).Perm (indexed 0 xs))
    (hv : Collects s.outs s.ended (.ok vs)) : vs = xs.map f := by
  have := C13_map_sorted ls s xs vs h hl hc hin hv
  clear hin hv
  induction this with
  | nil => rfl
  | cons h _ ih =>
    obtain ⟨w, hw⟩ := h
    simp at hw
    simp [← hw, ih]

/-- **C14 (partial).** Missing: the case that the broker's consumer stream ends, where the claim is false (`C14_disconnect_witness`). Otherwise a mapped
stream that has ended has lost nothing: no task or result vanished, and every input has an output or is matched by an error item. -/
theorem C14_no_silent_drop_partial (ls : List (Label α ε ω)) (s : St α β ε) (h : run op init ls = some s)
    (hl : ∀ l ∈ ls, l.exactlyOnce = true) (hc : ∀ l ∈ ls, l.connected = true) (hend : s.ended = true) :
    (∀ l ∈ ls, l.loses = false) ∧
    ∃ answered failed, (answered ++ failed).Perm (inputs ls) ∧ OneEach (Returns op) answered (oks s.outs) ∧
      failed.length ≤ (errs s.outs).length := by
  obtain ⟨R, T, E, L, hi⟩ := inv_run ls s h hl hc
  obtain ⟨_, _, _, _, hL, hp⟩ := hi.ended hend
  refine ⟨?_, T.map fun t => (t.1, t.2.1), E, hp, ⟨T, .refl _, hi.out.symm, hi.ret⟩, hi.err⟩
  intro l hl
  cases hlo : l.loses with
  | false => rfl
  | true => exact absurd hL (hi.lossy ⟨l, hl, hlo⟩)

/-- **C15, leader-side failures.** If the input stream, a publish, the close or an acknowledgement failed, an error has been yielded, so draining the
stream never returns `Ok`. No hypothesis on delivery. -/
theorem C15_failure_surfaces (ls : List (Label α ε ω)) (s : St α β ε) (vs : List β) (h : run op init ls = some s)
    (hf : ∃ l ∈ ls, l.fails = true) : errs s.outs ≠ [] ∧ ¬ Collects s.outs s.ended (.ok vs) := by
  have key : errs s.outs ≠ [] := by
    revert hf
    refine run_induction (P := fun ls s => (∃ l ∈ ls, l.fails = true) → errs s.outs ≠ []) ?_ ?_ ls s h
    · simp
    · rintro ls l s s' hr ih hst ⟨l', hl', hf⟩
      simp at hl'
      have hst := stepR_of_step hst
      rcases hl' with hl' | rfl
      · have ih := ih ⟨l', hl', hf⟩
        cases hst <;> simp_all [sendFail, errs_append]
      · cases hst <;> simp_all [sendFail, errs_append, Label.fails, errs]
  refine ⟨key, ?_⟩
  intro hv
  generalize ho : s.outs = outs at hv
  generalize he : s.ended = en at hv
  cases hv with
  | ok hp hs => rw [ho, errs_map_ok] at key; exact key rfl

/-- **C15, operation failures.** If an `Err` result of an operation reached the result queue (`Terminate`), the mapped stream never ends without
having yielded an error, so draining it never returns `Ok`. -/
theorem C15_op_error_surfaces (ls1 ls2 : List (Label α ε ω)) (s1 s2 : St α β ε) (e : ε) (vs : List β)
    (h1 : run op init ls1 = some s1) (he : .error e ∈ s1.results) (h2 : run op s1 ls2 = some s2)
    (hl : ∀ l ∈ ls1 ++ ls2, l.exactlyOnce = true) (hc : ∀ l ∈ ls1 ++ ls2, l.connected = true) :
    (s2.ended = true → errs s2.outs ≠ []) ∧ ¬ Collects s2.outs s2.ended (.ok vs) := by
  obtain ⟨R, T, E, L, hi⟩ := inv_run ls1 s1 h1 (fun l h => hl l (by simp [h])) (fun l h => hc l (by simp [h]))
  have hi' : Inv op True (∃ l ∈ ls1, l.loses = true) (∃ l ∈ ls1, l.fails = true) (inputs ls1) s1 R T E L :=
    ⟨hi.res, hi.src, hi.out, hi.ret, hi.part, hi.pend, hi.err, hi.clo, hi.sent, hi.inn, hi.rend, hi.fin,
      fun _ => .inr (.inr ⟨e, he⟩), hi.lossy, hi.fails⟩
  obtain ⟨R, T, E, L, hi2⟩ := inv_run_from hi' ls2 s2 h2 (fun l h => hl l (by simp [h])) (fun l h => hc l (by simp [h]))
  have key : s2.ended = true → errs s2.outs ≠ [] := by
    intro hend
    obtain ⟨_, _, e3, _, e5, _⟩ := hi2.ended hend
    rcases hi2.bad trivial with h | h | ⟨e, h⟩
    · exact h
    · exact absurd e5 h
    · rw [e3] at h; simp at h
  refine ⟨key, ?_⟩
  intro hv
  generalize ho : s2.outs = outs at hv
  generalize he : s2.ended = en at hv
  cases hv with
  | ok hp hs => exact key he (by rw [ho, errs_map_ok])

/-- **C16 (partial).** Missing: redelivery, where the claim is false (`C16_redelivery_witness`). With at-most-once delivery and a block of distinct
indices, every index occurs at most once among the outputs, and exactly once each when the stream has ended without error. -/
theorem C16_once_partial (ls : List (Label α ε ω)) (s : St α β ε) (h : run op init ls = some s)
    (hl : ∀ l ∈ ls, l.exactlyOnce = true) (hc : ∀ l ∈ ls, l.connected = true)
    (hnd : ((inputs ls).map (·.1)).Nodup) :
    ((oks s.outs).map (·.1)).Nodup ∧
    (s.ended = true → errs s.outs = [] → ((oks s.outs).map (·.1)).Perm ((inputs ls).map (·.1))) := by
  obtain ⟨ins, rest, hp, T, h1, h2, _⟩ := C12_map_sound ls s h hl hc
  have e1 : (oks s.outs).map (·.1) = T.map (·.1) := by rw [← h2]; simp
  refine ⟨?_, ?_⟩
  · have e2 : (T.map (·.1)).Perm (ins.map (·.1)) := by
      have := h1.map (·.1); rw [List.map_map] at this; exact this
    rw [e1, e2.nodup_iff]
    have := (hp.map (·.1)).nodup_iff.2 hnd
    rw [List.map_append] at this
    exact (List.nodup_append.1 this).1
  · intro he hr
    obtain ⟨T, h1, h2, _⟩ := C12_map_one_each ls s h hl hc he hr
    have := h1.map (·.1)
    rw [← h2]
    rw [List.map_map] at this ⊢; exact this

/-! ## Concrete executions -/

/-- The operation: append `"!"`; an execution under circumstances `1` fails. -/
def bang : Nat → String → Except String String := fun w a => if w = 1 then .error "boom" else .ok (a ++ "!")

/-- Three items, results received out of order. Hypotheses of C12, C13, C14, C16: met. -/
def demo : List (Label String String Nat) :=
  [.item 0 "a", .item 1 "b", .send 1, .exec 0 0, .confirm, .send 0, .recv 0, .item 2 "c", .confirm, .send 0, .confirm, .inputEnd,
   .exec 1 0, .recv 0, .exec 0 0, .recv 0, .recvEnd, .finish]

example : ∃ s, run bang init demo = some s ∧ s.outs = [.ok (1, "b!"), .ok (2, "c!"), .ok (0, "a!")] ∧ s.ended = true ∧
    (∀ l ∈ demo, l.exactlyOnce = true ∧ l.connected = true) ∧ (inputs demo).Perm (indexed 0 ["a", "b", "c"]) ∧
    Collects s.outs s.ended (.ok ["a!", "b!", "c!"]) := by
  refine ⟨_, rfl, by decide, by decide, by decide, by decide, ?_⟩
  exact .ok (oks := [(1, "b!"), (2, "c!"), (0, "a!")]) (sorted := [(0, "a!"), (1, "b!"), (2, "c!")]) (by decide) (by decide)

/-- Hypotheses of C15_failure_surfaces: a publish fails; an error is yielded. -/
example : ∃ s, run bang init [.item 0 "a", .publishErr 0 "io"] = some s ∧ s.outs = [.error "io"] := by
  refine ⟨_, rfl, by decide⟩

/-- Hypotheses of C15_op_error_surfaces: an execution fails. -/
example : ∃ s, run bang init [.item 0 "a", .send 0, .confirm, .inputEnd, .exec 0 1] = some s ∧ .error "boom" ∈ s.results := by
  refine ⟨_, rfl, by decide⟩

/-- **C14 witness.** The first item is processed and acknowledged, the broker's consumer stream ends, the receiver ends because nothing is pending, and
the second item is published afterwards: the mapped stream ends without error and without an output for it. -/
theorem C14_disconnect_witness : ∃ (ls : List (Label String String Nat)) (s : St String String String),
    run bang init ls = some s ∧ s.ended = true ∧ s.outs = [.ok (0, "a!")] ∧ inputs ls = [(0, "a"), (1, "b")] ∧
    (∀ l ∈ ls, l.exactlyOnce = true) := by
  refine ⟨[.item 0 "a", .send 0, .confirm, .exec 0 0, .recv 0, .disconnect, .recvEnd, .item 1 "b", .send 0, .confirm, .inputEnd, .finish],
    _, rfl, by decide, by decide, by decide, by decide⟩

/-- **C16 witness.** A task is delivered twice: the stream ends with two outputs for index 0 and none for index 1. -/
theorem C16_redelivery_witness : ∃ (ls : List (Label String String Nat)) (s : St String String String),
    run bang init ls = some s ∧ s.ended = true ∧ s.outs = [.ok (0, "a!"), .ok (0, "a!")] ∧ inputs ls = [(0, "a"), (1, "b")] ∧
    (∀ l ∈ ls, l.connected = true) := by
  refine ⟨[.item 0 "a", .send 0, .confirm, .item 1 "b", .send 0, .confirm, .inputEnd, .dupTask 0, .exec 0 0, .exec 1 0, .recv 0, .recv 0,
    .recvEnd, .finish], _, rfl, by decide, by decide, by decide, by decide⟩

end MapS
end Paladin
