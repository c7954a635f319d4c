import Verif.Proofs.FoldSafe
import Verif.Spec.MapTrace
/-! # Map: invariants -/
namespace Paladin

theorem takeAt_split {l : List β} {k : Nat} {x : β} {rest : List β} (h : Fold.takeAt l k = some (x, rest)) :
    ∃ a b, l = a ++ x :: b ∧ rest = a ++ b := by
  unfold Fold.takeAt at h
  split at h
  · rename_i y hy
    simp at h; obtain ⟨rfl, rfl⟩ := h
    obtain ⟨hk, rfl⟩ := List.getElem?_eq_some_iff.1 hy
    refine ⟨l.take k, l.drop (k + 1), ?_, ?_⟩
    · rw [← List.drop_eq_getElem_cons hk, List.take_append_drop]
    · exact List.eraseIdx_eq_take_drop_succ _ _
  · simp at h

namespace MapS

def Label.items : Label α ε ω → List (Nat × α)
  | .item i a => [(i, a)]
  | _ => []

theorem inputs_cons (l : Label α ε ω) (ls : List (Label α ε ω)) : inputs (l :: ls) = l.items ++ inputs ls := by
  cases l <;> simp [inputs, Label.items]

theorem inputs_append (a b : List (Label α ε ω)) : inputs (a ++ b) = inputs a ++ inputs b := by
  induction a with
  | nil => simp [inputs]
  | cons l a ih => rw [List.cons_append, inputs_cons, inputs_cons, ih, List.append_assoc]

theorem oks_append (a b : List (Item β ε)) : oks (a ++ b) = oks a ++ oks b := by
  induction a with
  | nil => simp [oks]
  | cons x a ih => cases x <;> simp [oks, ih]

theorem errs_append (a b : List (Item β ε)) : errs (a ++ b) = errs a ++ errs b := by
  induction a with
  | nil => simp [errs]
  | cons x a ih => cases x <;> simp [errs, ih]

theorem outs_of_errs_nil {l : List (Item β ε)} (h : errs l = []) : l = (oks l).map Except.ok := by
  induction l with
  | nil => rfl
  | cons x l ih =>
    cases x with
    | ok x => simp only [errs] at h; simp [oks, ← ih h]
    | error e => simp [errs] at h

theorem oks_map_ok (l : List (Nat × β)) : oks (l.map (Except.ok : _ → Item β ε)) = l := by
  induction l with
  | nil => rfl
  | cons x l ih => simp [oks, ih]

theorem errs_map_ok (l : List (Nat × β)) : errs (l.map (Except.ok : _ → Item β ε)) = [] := by
  induction l with
  | nil => rfl
  | cons x l ih => simp [errs, ih]

theorem mem_errs {l : List (Item β ε)} {e : ε} : e ∈ errs l ↔ .error e ∈ l := by
  induction l with
  | nil => simp [errs]
  | cons x l ih => cases x <;> simp [errs, ih]

section
variable {op : ω → α → Except ε β}

/-- Case analysis of `step`. -/
inductive StepR (op : ω → α → Except ε β) (s : St α β ε) : Label α ε ω → St α β ε → Prop
  | item (i a) : s.sendDone = false → s.inflight.length + s.unconf < limit →
      StepR op s (.item i a) { s with inflight := s.inflight ++ [(i, a)], pending := s.pending + 1 }
  | inputErr (e) : s.sendDone = false → StepR op s (.inputErr e) (sendFail s e)
  | send (k t a b) : s.inflight = a ++ t :: b →
      StepR op s (.send k) { s with inflight := a ++ b, unconf := s.unconf + 1, tasks := s.tasks ++ [t] }
  | confirm : 0 < s.unconf → StepR op s .confirm { s with unconf := s.unconf - 1 }
  | publishErr (k e) : s.inflight ≠ [] → StepR op s (.publishErr k e) (sendFail s e)
  | confirmErr (e) : 0 < s.unconf → StepR op s (.confirmErr e) (sendFail s e)
  | inputEnd : s.sendDone = false → s.inflight = [] → s.unconf = 0 →
      StepR op s .inputEnd { s with closed := true, sendDone := true }
  | closeErr (e) : s.sendDone = false → s.inflight = [] → s.unconf = 0 → StepR op s (.closeErr e) (sendFail s e)
  | exec (k w t a b) : s.tasks = a ++ t :: b →
      StepR op s (.exec k w) { s with tasks := a ++ b, results := s.results ++ [(op w t.2).map fun b => (t.1, b)] }
  | recv (k r a b) : s.recvEnded = false → s.innerEnded = false → s.results = a ++ r :: b →
      StepR op s (.recv k) { s with results := a ++ b, pending := s.pending - 1, outs := s.outs ++ [r] }
  | recvAckErr (k e r a b) : s.recvEnded = false → s.innerEnded = false → s.results = a ++ r :: b →
      StepR op s (.recvAckErr k e) { s with results := a ++ b, outs := s.outs ++ [.error e] }
  | recvEnd : s.recvEnded = false → (s.closed = true ∨ s.innerEnded = true) → s.pending = 0 →
      StepR op s .recvEnd { s with recvEnded := true }
  | finish : s.sendDone = true → s.recvEnded = true → StepR op s .finish { s with ended := true }
  | disconnect : StepR op s .disconnect { s with innerEnded := true }
  | loseTask (k t a b) : s.tasks = a ++ t :: b → StepR op s (.loseTask k) { s with tasks := a ++ b }
  | loseResult (k r a b) : s.results = a ++ r :: b → StepR op s (.loseResult k) { s with results := a ++ b }
  | dupTask (k t) : t ∈ s.tasks → StepR op s (.dupTask k) { s with tasks := s.tasks ++ [t] }
  | dupResult (k r) : r ∈ s.results → StepR op s (.dupResult k) { s with results := s.results ++ [r] }

theorem step_ended {s s' : St α β ε} {l : Label α ε ω} (h : step op s l = some s') : s.ended = false := by
  cases he : s.ended with
  | false => rfl
  | true => simp [step, he] at h

theorem stepR_of_step {s s' : St α β ε} {l : Label α ε ω} (h : step op s l = some s') : StepR op s l s' := by
  have he := step_ended h
  unfold step at h
  rw [if_neg (by simp [he])] at h
  cases l with
  | item i a =>
    simp only at h; split at h
    · rename_i hc; simp at hc h; subst h; exact .item i a hc.1 hc.2
    · simp at h
  | inputErr e =>
    simp only at h; split at h
    · rename_i hc; simp at hc h; subst h; exact .inputErr e hc
    · simp at h
  | send k =>
    simp only at h; split at h
    · rename_i t rest hk; simp at h; subst h
      obtain ⟨a, b, h1, rfl⟩ := takeAt_split hk
      exact .send k t a b h1
    · simp at h
  | confirm =>
    simp only at h; split at h
    · rename_i hc; simp at h; subst h; exact .confirm hc
    · simp at h
  | publishErr k e =>
    simp only at h; split at h
    · rename_i t hk; simp at h; subst h
      obtain ⟨a, b, h1, _⟩ := takeAt_split (x := t.1) (rest := t.2) hk
      exact .publishErr k e (by rw [h1]; simp)
    · simp at h
  | confirmErr e =>
    simp only at h; split at h
    · rename_i hc; simp at h; subst h; exact .confirmErr e hc
    · simp at h
  | inputEnd =>
    simp only at h; split at h
    · rename_i hc; simp at hc h; subst h; exact .inputEnd hc.1.1 hc.1.2 hc.2
    · simp at h
  | closeErr e =>
    simp only at h; split at h
    · rename_i hc; simp at hc h; subst h; exact .closeErr e hc.1.1 hc.1.2 hc.2
    · simp at h
  | exec k w =>
    simp only at h; split at h
    · rename_i t rest hk; simp at h; subst h
      obtain ⟨a, b, h1, rfl⟩ := takeAt_split hk
      exact .exec k w t a b h1
    · simp at h
  | recv k =>
    simp only at h; split at h
    · simp at h
    · rename_i hc
      simp at hc
      split at h
      · rename_i r rest hk; simp at h; subst h
        obtain ⟨a, b, h1, rfl⟩ := takeAt_split hk
        exact .recv k r a b hc.1 hc.2 h1
      · simp at h
  | recvAckErr k e =>
    simp only at h; split at h
    · simp at h
    · rename_i hc
      simp at hc
      split at h
      · rename_i r rest hk; simp at h; subst h
        obtain ⟨a, b, h1, rfl⟩ := takeAt_split hk
        exact .recvAckErr k e r a b hc.1 hc.2 h1
      · simp at h
  | recvEnd =>
    simp only at h; split at h
    · rename_i hc; simp at hc h; subst h; exact .recvEnd hc.1.1 hc.1.2 hc.2
    · simp at h
  | finish =>
    simp only at h; split at h
    · rename_i hc; simp at hc h; subst h; exact .finish hc.1 hc.2
    · simp at h
  | disconnect => simp at h; subst h; exact .disconnect
  | loseTask k =>
    simp only at h; split at h
    · rename_i t rest hk; simp at h; subst h
      obtain ⟨a, b, h1, rfl⟩ := takeAt_split hk
      exact .loseTask k t a b h1
    · simp at h
  | loseResult k =>
    simp only at h; split at h
    · rename_i t rest hk; simp at h; subst h
      obtain ⟨a, b, h1, rfl⟩ := takeAt_split hk
      exact .loseResult k t a b h1
    · simp at h
  | dupTask k =>
    simp only at h; split at h
    · rename_i t hk; simp at h; subst h
      exact .dupTask k t (List.mem_of_getElem? hk)
    · simp at h
  | dupResult k =>
    simp only at h; split at h
    · rename_i t hk; simp at h; subst h
      exact .dupResult k t (List.mem_of_getElem? hk)
    · simp at h

theorem run_append {s : St α β ε} {ls ls' : List (Label α ε ω)} :
    run op s (ls ++ ls') = (run op s ls).bind fun s' => run op s' ls' := by
  induction ls generalizing s with
  | nil => simp [run]
  | cons l ls ih =>
    simp only [List.cons_append, run]
    cases step op s l <;> simp [ih]

/-- Induction over continuations of a state. -/
theorem run_induction {s0 : St α β ε} {P : List (Label α ε ω) → St α β ε → Prop} (h0 : P [] s0)
    (hstep : ∀ ls l s s', run op s0 ls = some s → P ls s → step op s l = some s' → P (ls ++ [l]) s') :
    ∀ ls s, run op s0 ls = some s → P ls s := by
  intro ls
  obtain ⟨n, hn⟩ : ∃ n, ls.length = n := ⟨_, rfl⟩
  induction n generalizing ls with
  | zero =>
    intro s h
    have : ls = [] := List.eq_nil_of_length_eq_zero hn
    subst this; simp [run] at h; subst h; exact h0
  | succ n ih =>
    intro s h
    have hne : ls ≠ [] := by rintro rfl; simp at hn
    obtain ⟨ls', l, rfl⟩ : ∃ ls' l, ls = ls' ++ [l] := ⟨_, _, (List.dropLast_append_getLast hne).symm⟩
    rw [run_append] at h
    cases h1 : run op s0 ls' with
    | none => simp [h1] at h
    | some s1 =>
      simp only [h1, Option.bind_some, run] at h
      cases h2 : step op s1 l with
      | none => simp [h2] at h
      | some s2 =>
        simp [h2] at h; subst h
        exact hstep ls' l s1 s2 h1 (ih ls' (by simpa using hn) s1 h1) h2

/-- A result with the input it belongs to. -/
abbrev Src (α β ε : Type) := Nat × α × Except ε β

def Src.item (r : Src α β ε) : Item β ε := r.2.2.map fun b => (r.1, b)
def Src.inp (r : Src α β ε) : Nat × α := (r.1, r.2.1)

/-- The accounting invariant (no duplicate delivery, no disconnection): `R` sources of waiting results, `T` yielded outputs, `E` inputs whose error was
yielded, `L` inputs that are lost for ever. -/
structure Inv (op : ω → α → Except ε β) (bad lossy fails : Prop) (recd : List (Nat × α)) (s : St α β ε)
    (R : List (Src α β ε)) (T : List (Nat × α × β)) (E L : List (Nat × α)) : Prop where
  res : s.results = R.map Src.item
  src : ∀ r ∈ R, ∃ w, op w r.2.1 = r.2.2
  out : oks s.outs = T.map fun t => (t.1, t.2.2)
  ret : ∀ t ∈ T, Returns op t.2.1 t.2.2
  part : (s.inflight ++ (s.tasks ++ (R.map Src.inp ++ ((T.map fun t => (t.1, t.2.1)) ++ (E ++ L))))).Perm recd
  pend : s.pending = s.inflight.length + s.tasks.length + R.length + L.length
  err : E.length ≤ (errs s.outs).length
  clo : s.closed = s.sendDone
  sent : s.sendDone = true → s.inflight = []
  inn : s.innerEnded = false
  rend : s.recvEnded = true → s.pending = 0 ∧ s.sendDone = true
  fin : s.ended = true → s.recvEnded = true
  bad : bad → errs s.outs ≠ [] ∨ L ≠ [] ∨ ∃ e, .error e ∈ s.results
  lossy : lossy → L ≠ []
  fails : fails → errs s.outs ≠ []

theorem inv_init : Inv op False False False [] (init : St α β ε) [] [] [] [] := by
  constructor <;> simp [init, oks]

theorem inv_sendFail {bad lossy lossy' fails fails' : Prop} {recd : List (Nat × α)} {s : St α β ε} {R T E L}
    (h : Inv op bad lossy fails recd s R T E L) (hly : lossy' → lossy) (e : ε) :
    Inv op bad lossy' fails' recd (sendFail s e) R T E (s.inflight ++ L) := by
  obtain ⟨h1, h2, h3, h4, h5, h6, h7, h8, h8', h9, h10, h11, h12, h13, h14⟩ := h
  constructor
  · exact h1
  · exact h2
  · simp [sendFail, oks_append, oks, h3]
  · exact h4
  · simp only [sendFail]
    refine List.Perm.trans ?_ h5
    perm_count
  · simp [sendFail, h6]; omega
  · simp [sendFail, errs_append, errs]; omega
  · simp [sendFail]
  · simp [sendFail]
  · exact h9
  · intro hh; exact ⟨(h10 hh).1, by simp [sendFail]⟩
  · exact h11
  · intro _; left; simp [sendFail, errs_append, errs]
  · intro hh; have := h13 (hly hh); simp [this]
  · intro hh; simp [sendFail, errs_append, errs]

theorem inv_step {bad lossy fails : Prop} {recd : List (Nat × α)} {s s' : St α β ε} {l : Label α ε ω} {R T E L}
    (h : Inv op bad lossy fails recd s R T E L) (hl : l.exactlyOnce = true) (hc : l.connected = true)
    (hne : s.ended = false) (hst : StepR op s l s') :
    ∃ R T E L, Inv op bad (lossy ∨ l.loses = true) (fails ∨ l.fails = true) (recd ++ l.items) s' R T E L := by
  have hfail : ∀ (lossy' fails' : Prop) e, (lossy' → lossy) → ∃ R T E L, Inv op bad lossy' fails' recd (sendFail s e) R T E L :=
    fun _ _ e hh => ⟨_, _, _, _, inv_sendFail h hh e⟩
  obtain ⟨h1, h2, h3, h4, h5, h6, h7, h8, h8', h9, h10, h11, h12, h13, h14⟩ := h
  cases hst with
  | disconnect => simp [Label.connected] at hc
  | dupTask | dupResult => simp [Label.exactlyOnce] at hl
  | inputErr e hs | publishErr k e hs | confirmErr e hs | closeErr e hs1 hs2 hs3 =>
    simp only [Label.items, List.append_nil]
    exact hfail _ _ e (by simp [Label.loses])
  | item i a hs hlim =>
    refine ⟨R, T, E, L, h1, h2, h3, h4, ?_, ?_, h7, h8, ?_, h9, ?_, h11, h12, ?_, ?_⟩
    · simp only [Label.items]
      refine List.Perm.trans ?_ (h5.append_right [(i, a)])
      perm_count
    · simp; omega
    · simp [hs]
    · intro hh; have := (h10 hh).2; simp [hs] at this
    · simpa [Label.loses] using h13
    · simpa [Label.fails] using h14
  | send k t a b hs =>
    simp only [Label.items, List.append_nil]
    refine ⟨R, T, E, L, h1, h2, h3, h4, ?_, ?_, h7, h8, ?_, h9, ?_, h11, h12, ?_, ?_⟩
    · refine List.Perm.trans ?_ h5
      rw [hs]; perm_count
    · simp [h6, hs]; omega
    · intro hh; have := h8' hh; rw [hs] at this; simp at this
    · intro hh; have := h8' (h10 hh).2; rw [hs] at this; simp at this
    · simpa [Label.loses] using h13
    · simpa [Label.fails] using h14
  | confirm hs =>
    simp only [Label.items, List.append_nil]
    exact ⟨R, T, E, L, h1, h2, h3, h4, h5, h6, h7, h8, h8', h9, h10, h11, h12, by simpa [Label.loses] using h13,
      by simpa [Label.fails] using h14⟩
  | inputEnd hs hin hun =>
    simp only [Label.items, List.append_nil]
    refine ⟨R, T, E, L, h1, h2, h3, h4, h5, h6, h7, rfl, ?_, h9, ?_, h11, h12, by simpa [Label.loses] using h13,
      by simpa [Label.fails] using h14⟩
    · intro _; exact hin
    · intro hh; exact ⟨(h10 hh).1, rfl⟩
  | exec k w t a b hs =>
    simp only [Label.items, List.append_nil]
    refine ⟨R ++ [(t.1, t.2, op w t.2)], T, E, L, ?_, ?_, h3, h4, ?_, ?_, h7, h8, h8', h9, h10, h11, ?_,
      by simpa [Label.loses] using h13, by simpa [Label.fails] using h14⟩
    · simp [h1, Src.item]
    · intro r hr
      simp at hr
      rcases hr with hr | rfl
      · exact h2 r hr
      · exact ⟨w, rfl⟩
    · refine List.Perm.trans ?_ h5
      obtain ⟨ti, tv⟩ := t
      rw [hs]; perm_count [Src.inp]
    · simp [h6, hs]; omega
    · intro hh
      rcases h12 hh with h | h | ⟨e, h⟩
      · exact .inl h
      · exact .inr (.inl h)
      · exact .inr (.inr ⟨e, by simp [h]⟩)
  | recv k r a b hre hie hs =>
    simp only [Label.items, List.append_nil]
    rw [h1] at hs
    obtain ⟨Ra, Rb', hR, hRa, hRb'⟩ := List.map_eq_append_iff.1 hs
    obtain ⟨x, Rb, rfl, hx, hRb⟩ := List.map_eq_cons_iff.1 hRb'
    subst hR
    have hres : (Ra ++ Rb).map Src.item = a ++ b := by simp [hRa, hRb]
    have hpd : s.pending - 1 = s.inflight.length + s.tasks.length + (Ra ++ Rb).length + L.length := by
      simp [h6]; omega
    have hsrc : ∀ r ∈ Ra ++ Rb, ∃ w, op w r.2.1 = r.2.2 := fun r hr => h2 r (by simp at hr ⊢; rcases hr with h | h <;> simp [h])
    have hrd : s.recvEnded = true → s.pending - 1 = 0 ∧ s.sendDone = true := by rw [hre]; simp
    obtain ⟨i, v, o⟩ := x
    cases o with
    | ok y =>
      have hr : r = .ok (i, y) := by rw [← hx]; rfl
      subst hr
      obtain ⟨w, hw⟩ := h2 (i, v, .ok y) (by simp)
      refine ⟨Ra ++ Rb, T ++ [(i, v, y)], E, L, hres.symm, hsrc, ?_, ?_, ?_, hpd, ?_, h8, h8', h9, hrd, h11, ?_,
        by simpa [Label.loses] using h13, ?_⟩
      · simp [oks_append, oks, h3]
      · intro t ht; simp at ht
        rcases ht with ht | rfl
        · exact h4 t ht
        · exact ⟨w, hw⟩
      · refine List.Perm.trans ?_ h5
        perm_count [Src.inp]
      · simp [errs_append, errs]; exact h7
      · intro hh
        rcases h12 hh with h | h | ⟨e, h⟩
        · left; simp [errs_append, errs, h]
        · exact .inr (.inl h)
        · right; right
          refine ⟨e, ?_⟩
          rw [h1, hs] at h; simpa using h
      · simpa [Label.fails, errs_append, errs] using h14
    | error e =>
      have hr : r = .error e := by rw [← hx]; rfl
      subst hr
      refine ⟨Ra ++ Rb, T, (i, v) :: E, L, hres.symm, hsrc, ?_, h4, ?_, hpd, ?_, h8, h8', h9, hrd, h11, ?_,
        by simpa [Label.loses] using h13, ?_⟩
      · simp [oks_append, oks, h3]
      · refine List.Perm.trans ?_ h5
        perm_count [Src.inp]
      · simp [errs_append, errs]; exact h7
      · intro _; left; simp [errs_append, errs]
      · intro _; simp [errs_append, errs]
  | recvAckErr k e r a b hre hie hs =>
    simp only [Label.items, List.append_nil]
    rw [h1] at hs
    obtain ⟨Ra, Rb', hR, hRa, hRb'⟩ := List.map_eq_append_iff.1 hs
    obtain ⟨x, Rb, rfl, hx, hRb⟩ := List.map_eq_cons_iff.1 hRb'
    subst hR
    refine ⟨Ra ++ Rb, T, E, x.inp :: L, ?_, ?_, ?_, h4, ?_, ?_, ?_, h8, h8', h9, h10, h11, ?_, ?_, ?_⟩
    · simp [hRa, hRb]
    · exact fun r hr => h2 r (by simp at hr ⊢; rcases hr with h | h <;> simp [h])
    · simp [oks_append, oks, h3]
    · refine List.Perm.trans ?_ h5
      perm_count [Src.inp]
    · simp [h6]; omega
    · simp [errs_append, errs]; omega
    · intro _; left; simp [errs_append, errs]
    · simp
    · intro _; simp [errs_append, errs]
  | recvEnd hre hcl hp =>
    simp only [Label.items, List.append_nil]
    refine ⟨R, T, E, L, h1, h2, h3, h4, h5, h6, h7, h8, h8', h9, ?_, fun _ => rfl, h12, by simpa [Label.loses] using h13,
      by simpa [Label.fails] using h14⟩
    intro _
    rw [h9] at hcl; simp at hcl
    exact ⟨hp, by rw [← h8]; exact hcl⟩
  | finish hs hre =>
    simp only [Label.items, List.append_nil]
    exact ⟨R, T, E, L, h1, h2, h3, h4, h5, h6, h7, h8, h8', h9, h10, fun _ => hre, h12, by simpa [Label.loses] using h13,
      by simpa [Label.fails] using h14⟩
  | loseTask k t a b hs =>
    simp only [Label.items, List.append_nil]
    refine ⟨R, T, E, t :: L, h1, h2, h3, h4, ?_, ?_, h7, h8, h8', h9, h10, h11, ?_, ?_, by simpa [Label.fails] using h14⟩
    · refine List.Perm.trans ?_ h5
      rw [hs]; perm_count
    · simp [h6, hs]; omega
    · intro _; right; left; simp
    · simp
  | loseResult k r a b hs =>
    simp only [Label.items, List.append_nil]
    rw [h1] at hs
    obtain ⟨Ra, Rb', hR, hRa, hRb'⟩ := List.map_eq_append_iff.1 hs
    obtain ⟨x, Rb, rfl, hx, hRb⟩ := List.map_eq_cons_iff.1 hRb'
    subst hR
    refine ⟨Ra ++ Rb, T, E, x.inp :: L, ?_, ?_, h3, h4, ?_, ?_, h7, h8, h8', h9, h10, h11, ?_, ?_, by simpa [Label.fails] using h14⟩
    · simp [hRa, hRb]
    · exact fun r hr => h2 r (by simp at hr ⊢; rcases hr with h | h <;> simp [h])
    · refine List.Perm.trans ?_ h5
      perm_count [Src.inp]
    · simp [h6]; omega
    · intro _; right; left; simp
    · simp

/-- The invariant along a run from any state satisfying it. -/
theorem inv_run_from {bad lossy fails : Prop} {recd : List (Nat × α)} {s0 : St α β ε} {R T E L}
    (h0 : Inv op bad lossy fails recd s0 R T E L) (ls : List (Label α ε ω)) (s : St α β ε) (h : run op s0 ls = some s)
    (hl : ∀ l ∈ ls, l.exactlyOnce = true) (hc : ∀ l ∈ ls, l.connected = true) :
    ∃ R T E L, Inv op bad (lossy ∨ ∃ l ∈ ls, l.loses = true) (fails ∨ ∃ l ∈ ls, l.fails = true) (recd ++ inputs ls) s R T E L := by
  revert hl hc
  refine run_induction (P := fun ls s => (∀ l ∈ ls, l.exactlyOnce = true) → (∀ l ∈ ls, l.connected = true) →
    ∃ R T E L, Inv op bad (lossy ∨ ∃ l ∈ ls, l.loses = true) (fails ∨ ∃ l ∈ ls, l.fails = true) (recd ++ inputs ls) s R T E L)
    ?_ ?_ ls s h
  · intro _ _
    exact ⟨R, T, E, L, by simpa [inputs] using h0⟩
  · intro ls l s s' hr ih hst hl hc
    obtain ⟨R, T, E, L, hi⟩ := ih (fun l h => hl l (by simp [h])) (fun l h => hc l (by simp [h]))
    obtain ⟨R, T, E, L, hi⟩ := inv_step hi (hl l (by simp)) (hc l (by simp)) (step_ended hst) (stepR_of_step hst)
    refine ⟨R, T, E, L, ?_⟩
    have e1 : recd ++ inputs (ls ++ [l]) = recd ++ inputs ls ++ l.items := by
      rw [inputs_append, inputs_cons]; simp [inputs]
    rw [e1]
    have e2 : (lossy ∨ ∃ l' ∈ ls ++ [l], l'.loses = true) = ((lossy ∨ ∃ l ∈ ls, l.loses = true) ∨ l.loses = true) := by
      apply propext; simp [or_and_right, exists_or, or_assoc]
    have e3 : (fails ∨ ∃ l' ∈ ls ++ [l], l'.fails = true) = ((fails ∨ ∃ l ∈ ls, l.fails = true) ∨ l.fails = true) := by
      apply propext; simp [or_and_right, exists_or, or_assoc]
    rw [e2, e3]; exact hi

theorem inv_run (ls : List (Label α ε ω)) (s : St α β ε) (h : run op init ls = some s)
    (hl : ∀ l ∈ ls, l.exactlyOnce = true) (hc : ∀ l ∈ ls, l.connected = true) :
    ∃ R T E L, Inv op False (∃ l ∈ ls, l.loses = true) (∃ l ∈ ls, l.fails = true) (inputs ls) s R T E L := by
  simpa using inv_run_from inv_init ls s h hl hc

/-- What the invariant says about a mapped stream that has ended. -/
theorem Inv.ended {bad lossy fails : Prop} {recd : List (Nat × α)} {s : St α β ε} {R T E L}
    (h : Inv op bad lossy fails recd s R T E L) (he : s.ended = true) :
    s.inflight = [] ∧ s.tasks = [] ∧ s.results = [] ∧ R = [] ∧ L = [] ∧
    ((T.map fun t => (t.1, t.2.1)) ++ E).Perm recd := by
  have hp := (h.rend (h.fin he)).1
  have h6 := h.pend
  have e1 : s.inflight = [] := List.eq_nil_of_length_eq_zero (by omega)
  have e2 : s.tasks = [] := List.eq_nil_of_length_eq_zero (by omega)
  have e3 : R = [] := List.eq_nil_of_length_eq_zero (by omega)
  have e4 : L = [] := List.eq_nil_of_length_eq_zero (by omega)
  have := h.part
  rw [e1, e2, e3, e4] at this
  exact ⟨e1, e2, by rw [h.res, e3]; rfl, e3, e4, by simpa using this⟩

end
end MapS
end Paladin
