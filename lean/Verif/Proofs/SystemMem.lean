import Verif.Spec.SystemMem
import Verif.Proofs.InMem
import Verif.Proofs.SystemLive
import Verif.Proofs.SystemEnds
import Mathlib.Algebra.Order.BigOperators.Group.Finset
/-! # The whole system over the in-memory queue: refinement and progress -/
namespace Paladin
namespace InMem

/-- The consumers the semaphore knows. -/
def Chan.books (c : Chan M) : List Nat := c.waiters ++ (c.granted ++ c.holding)

theorem Chan.foldl_push (ms : List M) (c : Chan M) : ms.foldl Chan.push c = { c with msgs := c.msgs ++ ms, owed := c.owed + ms.length } := by
  induction ms generalizing c with
  | nil => simp
  | cons m ms ih => rw [List.foldl_cons, ih]; simp [Chan.push]; omega

theorem Chan.inv_foldl_push {c : Chan M} (hi : c.Inv) (ms : List M) : (ms.foldl Chan.push c).Inv := by
  induction ms generalizing c with
  | nil => exact hi
  | cons m ms ih => exact ih (Chan.inv_push hi m)

theorem Chan.books_push (ms : List M) (c : Chan M) : (ms.foldl Chan.push c).books = c.books := by rw [Chan.foldl_push]; rfl

theorem Chan.books_release {c c' : Chan M} (h : c.release = some c') : c'.books.Perm c.books := by
  unfold Chan.release at h
  split at h <;> simp only [Option.some.injEq, reduceCtorEq] at h
  subst h
  exact (Chan.books_addPermit _)

theorem Chan.books_poll {c c' : Chan M} {k : Nat} (hn : c.books.Nodup) (h : c.poll k = some c') : c'.books.Nodup ∧ ∀ x ∈ c'.books, x = k ∨ x ∈ c.books := by
  unfold Chan.poll at h
  split at h
  · simp at h
  split at h
  · rename_i h1 hg
    simp only [Option.some.injEq] at h; subst h
    have hp : (c.waiters ++ (c.granted.erase k ++ k :: c.holding)).Perm c.books := by
      refine List.Perm.append_left _ ?_
      refine List.perm_middle.trans ?_
      rw [← List.cons_append]
      exact List.Perm.append_right _ (List.perm_cons_erase hg).symm
    exact ⟨hp.nodup_iff.2 hn, fun x hx => .inr (hp.mem_iff.1 hx)⟩
  split at h
  · simp only [Option.some.injEq] at h; subst h; exact ⟨hn, fun x hx => .inr hx⟩
  rename_i h1 h2 h3
  have hk : k ∉ c.books := by simp [Chan.books, h1, h2, h3]
  split at h <;> simp only [Option.some.injEq] at h <;> subst h
  · have hp : (c.waiters ++ [k] ++ (c.granted ++ c.holding)).Perm (k :: c.books) := by
      rw [List.append_assoc, List.singleton_append]; exact List.perm_middle
    refine ⟨hp.nodup_iff.2 (List.nodup_cons.2 ⟨hk, hn⟩), fun x hx => ?_⟩
    simpa using hp.mem_iff.1 hx
  · have hp : (c.waiters ++ (c.granted ++ k :: c.holding)).Perm (k :: c.books) := by
      rw [← List.append_assoc]
      refine List.perm_middle.trans ?_
      rw [List.append_assoc]; exact List.Perm.refl _
    refine ⟨hp.nodup_iff.2 (List.nodup_cons.2 ⟨hk, hn⟩), fun x hx => ?_⟩
    simpa using hp.mem_iff.1 hx

theorem Chan.books_pop {c c' : Chan M} {k : Nat} (hn : c.books.Nodup) (h : c.pop k = some c') : c'.books.Nodup ∧ k ∉ c'.books ∧ ∀ x ∈ c'.books, x ∈ c.books := by
  have key : k ∈ c.holding → (c.waiters ++ (c.granted ++ c.holding.erase k)).Nodup ∧ k ∉ c.waiters ++ (c.granted ++ c.holding.erase k) ∧
      ∀ x ∈ c.waiters ++ (c.granted ++ c.holding.erase k), x ∈ c.books := by
    intro hk
    have hp : (k :: (c.waiters ++ (c.granted ++ c.holding.erase k))).Perm c.books := by
      unfold Chan.books
      rw [← List.append_assoc, ← List.append_assoc]
      refine List.perm_middle.symm.trans ?_
      exact List.Perm.append_left _ (List.perm_cons_erase hk).symm
    have := List.nodup_cons.1 (hp.nodup_iff.2 hn)
    exact ⟨this.2, this.1, fun x hx => hp.mem_iff.1 (List.mem_cons_of_mem _ hx)⟩
  unfold Chan.pop at h
  split at h <;> try simp only [reduceCtorEq] at h
  rename_i hk
  split at h <;> simp only [Option.some.injEq] at h <;> subst h <;> exact key hk

theorem Chan.books_drop {c c' : Chan M} {k : Nat} (hn : c.books.Nodup) (h : c.drop k = some c') : c'.books.Nodup ∧ k ∉ c'.books ∧ ∀ x ∈ c'.books, x ∈ c.books := by
  unfold Chan.drop at h
  split at h
  · simp at h
  rename_i h1
  split at h
  · rename_i hg
    simp only [Option.some.injEq] at h; subst h
    have hp : (k :: (c.waiters ++ (c.granted.erase k ++ c.holding))).Perm c.books := by
      refine List.perm_middle.symm.trans (List.Perm.append_left _ ?_)
      rw [← List.cons_append]
      exact List.Perm.append_right _ (List.perm_cons_erase hg).symm
    have hb := Chan.books_addPermit { c with granted := c.granted.erase k }
    have := List.nodup_cons.1 (hp.nodup_iff.2 hn)
    exact ⟨hb.nodup_iff.2 this.2, fun hk => this.1 (hb.mem_iff.1 hk), fun x hx => hp.mem_iff.1 (List.mem_cons_of_mem _ (hb.mem_iff.1 hx))⟩
  · rename_i h2
    simp only [Option.some.injEq] at h; subst h
    have hs : (c.waiters.erase k ++ (c.granted ++ c.holding)).Sublist c.books := List.Sublist.append_right List.erase_sublist _
    refine ⟨hn.sublist hs, ?_, fun x hx => hs.subset hx⟩
    have hw : c.waiters.Nodup := (List.nodup_append.1 hn).1
    simp only [Chan.books, List.mem_append, not_or]
    exact ⟨hw.not_mem_erase, h2, h1⟩

/-- A consumer not known to the semaphore can poll; one given a permit too. -/
theorem Chan.poll_some {c : Chan M} {k : Nat} (h : k ∉ c.holding) : ∃ c', c.poll k = some c' := by
  unfold Chan.poll
  rw [if_neg h]
  repeat' split
  all_goals exact ⟨_, rfl⟩

theorem Chan.pop_some {c : Chan M} {k : Nat} (h : k ∈ c.holding) : ∃ c', c.pop k = some c' := by
  unfold Chan.pop
  rw [if_pos h]
  split
  all_goals exact ⟨_, rfl⟩

/-- If nobody is about to add a permit, nobody has been woken without polling since, and nobody is about to pop, while someone waits, the queue is empty. -/
theorem Chan.quiet {c : Chan M} (hi : c.Inv) (ho : c.owed = 0) (hg : c.granted = []) (hh : c.holding = []) (hw : c.waiters ≠ []) : c.msgs = [] := by
  have h1 := hi.count
  have h2 : c.permits = 0 := hi.free.resolve_right hw
  rw [ho, hg, hh, h2] at h1
  exact List.length_eq_zero_iff.1 (by simpa using h1)

end InMem

namespace SystemMem
open Retry System InMem

/-- A step of the directive that receives nothing does not depend on the results waiting, and one that receives a result depends on no other. -/
structure Local {σ ℓ T R : Type} (cl : Client σ ℓ T R) : Prop where
  none : ∀ {s l x ts rs}, cl.step s l [] = some (x, ts, rs) → rs = [] ∧ ∀ R, cl.step s l R = some (x, ts, R)
  one : ∀ {s l x ts} {r : R}, cl.step s l [r] = some (x, ts, []) → ∀ R, cl.step s l (r :: R) = some (x, ts, R)

/-- Directives that can take any result are listening. -/
def Responsive {σ ℓ T R : Type} (cl : Client σ ℓ T R) (listens : σ → Bool) (int : ℓ → Bool) : Prop :=
  ∀ s l R y, int l = true → cl.step s l R = some y → (∃ y, cl.step s l [] = some y) ∨ R ≠ [] ∧ listens s = true ∧ ∀ r, ∃ l' x ts, int l' = true ∧ cl.step s l' [r] = some (x, ts, [])

/-- Steps of map that receive nothing leave the results alone. -/
theorem map_frame {α β ε ω : Type} {op : ω → α → Except ε β} {s : MapS.St α β ε} {l : MapS.Label α ε ω} (hl : mapLead l = true) (hr : ∀ k, l ≠ .recv k) (hr' : ∀ k e, l ≠ .recvAckErr k e)
    (R R' : List (MapS.Item β ε)) : MapS.step op { s with results := R' } l = (MapS.step op { s with results := R } l).map fun x => { x with results := R' } := by
  cases l <;> simp only [mapLead, Bool.false_eq_true] at hl <;> simp only [MapS.step, MapS.sendFail]
  case recv k => exact absurd rfl (hr k)
  case recvAckErr k e => exact absurd rfl (hr' k e)
  all_goals (repeat' split) <;> simp_all

/-- Steps of fold that receive nothing leave the results alone. -/
theorem fold_frame {α ε ω : Type} {comb : ω → α → α → Except ε α} {empty : α} {dupErr : ε} {s : Fold.St α ε} {l : Fold.Label α ε ω} (hl : foldLead l = true) (hr : ∀ k, l ≠ .recv k)
    (R R' : List (Fold.Res α ε)) :
    Fold.step comb empty dupErr { s with results := R' } l = (Fold.step comb empty dupErr { s with results := R } l).map fun x => { x with results := R' } := by
  cases l <;> simp only [foldLead, Bool.false_eq_true] at hl <;> simp only [Fold.step, Fold.onItem, Fold.onInputEnd, Fold.tryDispatch]
  case recv k => exact absurd rfl (hr k)
  all_goals (repeat' split) <;> simp_all

theorem fold_result {α ε : Type} {dupErr : ε} {s : Fold.St α ε} (r : Fold.Res α ε) (R : List (Fold.Res α ε)) :
    Fold.onResult dupErr { s with results := R } r = { Fold.onResult dupErr s r with results := R } := by
  simp only [Fold.onResult, Fold.tryDispatch]
  (repeat' split) <;> simp_all

theorem local_map {α β ε ω T O : Type} (op : ω → α → Except ε β) (enc : Nat × α → Option T) (dec : O → Except ε (Nat × β)) : Local (mapClient op enc dec) := by
  have other : ∀ {s : MapS.St α β ε} {l : MapS.Label α ε ω}, mapLead l = true → (∀ k, l ≠ .recv k) → (∀ k e, l ≠ .recvAckErr k e) → ∀ R R' : List (Except ε O),
      (mapClient op enc dec).step s l R' = ((mapClient op enc dec).step s l R).map fun y => (y.1, y.2.1, R') := by
    intro s l hl hr hr' R R'
    have hf := map_frame (op := op) (s := { s with tasks := [] }) hl hr hr' (R.map fun r => r.bind dec) (R'.map fun r => r.bind dec)
    have hleft : ∀ R : List (Except ε O), mapLeft l R = R := by intro R; unfold mapLeft; split <;> simp_all
    simp only [mapClient, hl, if_true, hleft]
    simp only at hf
    rw [hf]
    cases MapS.step op { s with tasks := [], results := R.map fun r => r.bind dec } l with
    | none => rfl
    | some x => simp only [Option.map_some]; cases x.tasks.mapM enc <;> rfl
  constructor
  · intro s l x ts rs h
    by_cases hl : mapLead l = true
    · by_cases hr : (∀ k, l ≠ .recv k) ∧ ∀ k e, l ≠ .recvAckErr k e
      · have h0 := other (s := s) hl hr.1 hr.2 [] []
        rw [h] at h0
        simp only [Option.map_some, Option.some.injEq, Prod.mk.injEq, true_and] at h0
        refine ⟨h0, fun R => ?_⟩
        rw [other (s := s) hl hr.1 hr.2 [] R, h]; rfl
      · exfalso
        cases l <;> simp at hr <;> simp [mapClient, mapLead, MapS.step, Fold.takeAt] at h <;> split at h <;> simp_all
    · simp [mapClient, hl] at h
  · intro s l x ts r h R
    by_cases hl : mapLead l = true
    · by_cases hr : (∀ k, l ≠ .recv k) ∧ ∀ k e, l ≠ .recvAckErr k e
      · have h0 := other (s := s) hl hr.1 hr.2 [r] [r]
        rw [h] at h0
        simp at h0
      · cases l <;> simp at hr
        case recv k =>
          cases k with
          | succ k => simp [mapClient, mapLead, MapS.step, Fold.takeAt] at h
          | zero =>
            cases h1 : s.ended <;> cases h2 : s.recvEnded <;> cases h3 : s.innerEnded <;> simp [mapClient, mapLead, MapS.step, mapLeft, Fold.takeAt, h1, h2, h3] at h ⊢
            exact h
        case recvAckErr k e =>
          cases k with
          | succ k => simp [mapClient, mapLead, MapS.step, Fold.takeAt] at h
          | zero =>
            cases h1 : s.ended <;> cases h2 : s.recvEnded <;> cases h3 : s.innerEnded <;> simp [mapClient, mapLead, MapS.step, mapLeft, Fold.takeAt, h1, h2, h3] at h ⊢
            exact h
    · simp [mapClient, hl] at h

theorem responsive_map {α β ε ω T O : Type} (op : ω → α → Except ε β) (enc : Nat × α → Option T) (dec : O → Except ε (Nat × β)) :
    Responsive (mapClient op enc dec) (fun s => !(s.ended || s.recvEnded || s.innerEnded)) MapS.Label.internal := by
  intro s l R y hi h
  by_cases hr : (∀ k, l ≠ .recv k) ∧ ∀ k e, l ≠ .recvAckErr k e
  · left
    by_cases hl : mapLead l = true
    · have hf := map_frame (op := op) (s := { s with tasks := [] }) hl hr.1 hr.2 (R.map fun r => r.bind dec) []
      simp only [mapClient, hl, if_true] at h ⊢
      simp only at hf
      simp only [List.map_nil, hf]
      cases hs : MapS.step op { s with tasks := [], results := R.map fun r => r.bind dec } l with
      | none => rw [hs] at h; simp at h
      | some x =>
        rw [hs] at h
        simp only [Option.map_eq_some_iff] at h
        obtain ⟨ts, h1, -⟩ := h
        exact ⟨_, by simp only [Option.map_some, h1]; rfl⟩
    · simp [mapClient, hl] at h
  · right
    cases l <;> simp [MapS.Label.internal] at hi hr
    rename_i k
    have hR : R ≠ [] := by
      rintro rfl
      simp [mapClient, mapLead, MapS.step, Fold.takeAt] at h
    have hon : s.ended = false ∧ s.recvEnded = false ∧ s.innerEnded = false := by
      simp only [mapClient, mapLead, MapS.step, Fold.takeAt, if_true] at h
      (repeat' split at h) <;> simp_all
    refine ⟨hR, by simp [hon], fun r => ⟨.recv 0, ?_⟩⟩
    simp [mapClient, mapLead, MapS.step, Fold.takeAt, mapLeft, hon, MapS.Label.internal]

theorem local_fold {α ε ω T O : Type} (comb : ω → α → α → Except ε α) (empty : α) (dupErr : ε) (enc : Fold.CTask α → Option T) (dec : O → Except ε (Seg α)) :
    Local (foldClient comb empty dupErr enc dec) := by
  have other : ∀ {s : Fold.St α ε} {l : Fold.Label α ε ω}, foldLead l = true → (∀ k, l ≠ .recv k) → ∀ R R' : List (Except ε O),
      (foldClient comb empty dupErr enc dec).step s l R' = ((foldClient comb empty dupErr enc dec).step s l R).map fun y => (y.1, y.2.1, R') := by
    intro s l hl hr R R'
    have hf := fold_frame (comb := comb) (empty := empty) (dupErr := dupErr) (s := { s with tasks := [] }) hl hr (R.map fun r => toRes (r.bind dec)) (R'.map fun r => toRes (r.bind dec))
    have hleft : ∀ R : List (Except ε O), foldLeft l R = R := by intro R; unfold foldLeft; split <;> simp_all
    simp only [foldClient, hl, if_true, hleft]
    simp only at hf
    rw [hf]
    cases Fold.step comb empty dupErr { s with tasks := [], results := R.map fun r => toRes (r.bind dec) } l with
    | none => rfl
    | some x => simp only [Option.map_some]; cases x.tasks.mapM enc <;> rfl
  constructor
  · intro s l x ts rs h
    by_cases hl : foldLead l = true
    · by_cases hr : ∀ k, l ≠ .recv k
      · have h0 := other (s := s) hl hr [] []
        rw [h] at h0
        simp only [Option.map_some, Option.some.injEq, Prod.mk.injEq, true_and] at h0
        refine ⟨h0, fun R => ?_⟩
        rw [other (s := s) hl hr [] R, h]; rfl
      · exfalso
        cases l <;> simp at hr <;> simp [foldClient, foldLead, Fold.step, Fold.takeAt] at h <;> split at h <;> simp_all
    · simp [foldClient, hl] at h
  · intro s l x ts r h R
    by_cases hl : foldLead l = true
    · by_cases hr : ∀ k, l ≠ .recv k
      · have h0 := other (s := s) hl hr [r] [r]
        rw [h] at h0
        simp at h0
      · cases l <;> simp at hr
        case recv k =>
          cases k with
          | succ k => simp [foldClient, foldLead, Fold.step, Fold.takeAt] at h
          | zero =>
            have hres := fold_result (dupErr := dupErr) (s := { s with tasks := [] }) (toRes (r.bind dec)) (R.map fun r => toRes (r.bind dec))
            have hres0 := fold_result (dupErr := dupErr) (s := { s with tasks := [] }) (toRes (r.bind dec)) []
            simp only at hres hres0
            cases h1 : s.outcome with
            | some o => simp [foldClient, foldLead, Fold.step, h1] at h
            | none =>
              cases h2 : s.notified with
              | false => simp [foldClient, foldLead, Fold.step, h1, h2] at h
              | true =>
                rw [h1, h2] at hres hres0
                simp only [foldClient, foldLead, Fold.step, foldLeft, Fold.takeAt, List.map_cons, List.map_nil, List.getElem?_cons_zero, List.eraseIdx_zero, List.tail_cons, h1, h2, hres, hres0,
                  if_true, Option.isSome_none, Bool.false_eq_true, if_false, Bool.not_true, Option.map_eq_some_iff, Prod.mk.injEq, and_true] at h ⊢
                exact h
    · simp [foldClient, hl] at h

theorem responsive_fold {α ε ω T O : Type} (comb : ω → α → α → Except ε α) (empty : α) (dupErr : ε) (enc : Fold.CTask α → Option T) (dec : O → Except ε (Seg α)) :
    Responsive (foldClient comb empty dupErr enc dec) (fun s => s.notified && s.outcome.isNone) Fold.Label.internal := by
  intro s l R y hi h
  by_cases hr : ∀ k, l ≠ .recv k
  · left
    by_cases hl : foldLead l = true
    · have hf := fold_frame (comb := comb) (empty := empty) (dupErr := dupErr) (s := { s with tasks := [] }) hl hr (R.map fun r => toRes (r.bind dec)) []
      simp only [foldClient, hl, if_true] at h ⊢
      simp only at hf
      simp only [List.map_nil, hf]
      cases hs : Fold.step comb empty dupErr { s with tasks := [], results := R.map fun r => toRes (r.bind dec) } l with
      | none => rw [hs] at h; simp at h
      | some x =>
        rw [hs] at h
        simp only [Option.map_eq_some_iff] at h
        obtain ⟨ts, h1, -⟩ := h
        exact ⟨_, by simp only [Option.map_some, h1]; rfl⟩
    · simp [foldClient, hl] at h
  · right
    cases l <;> simp [Fold.Label.internal] at hi hr
    rename_i k
    have hR : R ≠ [] := by
      rintro rfl
      simp [foldClient, foldLead, Fold.step, Fold.takeAt] at h
    have hon : s.notified = true ∧ s.outcome = none := by
      simp only [foldClient, foldLead, Fold.step, Fold.takeAt, if_true] at h
      (repeat' split at h) <;> simp_all
    refine ⟨hR, by simp [hon], fun r => ⟨.recv 0, ?_⟩⟩
    have ht : (Fold.onResult dupErr { s with tasks := [], results := [] } (toRes (r.bind dec))).tasks = [] := by
      simp only [Fold.onResult, Fold.tryDispatch]
      (repeat' split) <;> rfl
    rw [hon.1, hon.2] at ht
    simp [foldClient, foldLead, Fold.step, Fold.takeAt, foldLeft, hon, Fold.Label.internal, ht]

section
variable {κ : Type} {σ ℓ : κ → Type} {T O ε χ ω : Type} [DecidableEq κ] {cl : (j : κ) → Client (σ j) (ℓ j) T (Except ε O)} {listens : (j : κ) → σ j → Bool} {cfg : Worker.Cfg κ}
  {exec : ω → T → Except (OpError χ) O} {text : OpError χ → ε}

theorem update_append (R : κ → List (Except ε O)) (k : κ) (r : Except ε O) :
    Function.update R k (R k ++ [r]) = fun j => R j ++ Function.update (fun _ => []) k [r] j := by
  funext j
  by_cases hj : j = k
  · subst hj; simp
  · simp [Function.update_of_ne hj]

/-- What is published in a step of a worker does not depend on what is in the queues. -/
theorem frame_work {u v : System.St κ σ T O ε χ} {w : Nat} {l : Worker.Label κ O χ} (hq : u.queue = []) (hr : ∀ j, u.results j = [])
    (h : System.step (ω := ω) cl cfg exec text u (.work w l) = some v) (Q : List (Msg κ T)) (R : κ → List (Except ε O)) :
    v.queue = [] ∧ (∀ w', w' ≠ w → v.worker w' = u.worker w') ∧
      System.step (ω := ω) cl cfg exec text { u with queue := Q, results := R } (.work w l) = some { v with queue := Q, results := fun j => R j ++ v.results j } := by
  obtain ⟨x, hx, hd, rfl⟩ : ∃ x, Worker.step cfg (u.worker w) l = some x ∧ ((∀ k, l ≠ .deliver k) ∧ ∀ y, l ≠ .finish y) ∧
      v = { effect text u w l with worker := Function.update u.worker w x } := by
    simp only [System.step] at h
    split at h <;> try simp only [reduceCtorEq] at h
    rename_i h1 h2
    split at h <;> simp only [Option.some.injEq, reduceCtorEq] at h
    exact ⟨_, by assumption, ⟨fun k e => h1 k e, fun y e => h2 y e⟩, h.symm⟩
  have hs : System.step (ω := ω) cl cfg exec text { u with queue := Q, results := R } (.work w l) =
      some { effect text { u with queue := Q, results := R } w l with worker := Function.update u.worker w x } := by
    simp only [System.step]
    split
    · exact absurd rfl (hd.1 _)
    · exact absurd rfl (hd.2 _)
    · rw [hx]
  have hr' : u.results = fun _ => [] := funext hr
  refine ⟨?_, fun w' hw => by simp [hw], ?_⟩
  · unfold effect; split <;> exact hq
  · rw [hs]
    unfold effect
    simp only
    split <;> simp only [Option.some.injEq, System.St.mk.injEq, true_and, hr', List.append_nil, List.nil_append]
    all_goals exact ⟨update_append _ _ _, trivial⟩

theorem frame_finish {u v : System.St κ σ T O ε χ} {w : Nat} {x : ω} (h : System.step (ω := ω) cl cfg exec text u (.finish w x) = some v) (Q : List (Msg κ T)) (R : κ → List (Except ε O)) :
    v.queue = u.queue ∧ v.results = u.results ∧ (∀ w', w' ≠ w → v.worker w' = u.worker w') ∧ idle (u.worker w).pc = false ∧ 
      System.step (ω := ω) cl cfg exec text { u with queue := Q, results := R } (.finish w x) = some { v with queue := Q, results := R } := by
  simp only [System.step] at h ⊢
  split at h <;> try simp only [reduceCtorEq] at h
  rename_i d hd
  split at h <;> simp only [Option.some.injEq, reduceCtorEq] at h
  rename_i y hy
  subst h
  refine ⟨rfl, rfl, fun w' hw => by simp [hw], ?_, by simp [hd, hy]⟩
  simp only [Worker.step] at hy
  split at hy <;> simp_all [idle]

theorem frame_lead (hc : ∀ j, Local (cl j)) {u v : System.St κ σ T O ε χ} {j : κ} {l : ℓ j} (hq : u.queue = []) (hr : ∀ j, u.results j = [])
    (h : System.step (ω := ω) cl cfg exec text u (.lead j l) = some v) (Q : List (Msg κ T)) (R : κ → List (Except ε O)) :
    v.worker = u.worker ∧ (∀ k, v.results k = []) ∧
      System.step (ω := ω) cl cfg exec text { u with queue := Q, results := R } (.lead j l) = some { v with queue := Q ++ v.queue, results := R } := by
  simp only [System.step] at h ⊢
  rw [hr j] at h
  split at h <;> simp only [Option.some.injEq, reduceCtorEq] at h
  rename_i x ts rs hs
  subst h
  obtain ⟨rfl, h2⟩ := (hc j).none hs
  refine ⟨rfl, fun k => ?_, ?_⟩
  · by_cases hk : k = j
    · subst hk; simp
    · simp [Function.update_of_ne hk, hr k]
  · simp [h2, hq]

theorem frame_recv (hc : ∀ j, Local (cl j)) {u v : System.St κ σ T O ε χ} {j : κ} {l : ℓ j} {m : Except ε O} (hq : u.queue = []) (hr : ∀ j, u.results j = [])
    (h : System.step (ω := ω) cl cfg exec text { u with results := Function.update u.results j [m] } (.lead j l) = some v) (hv : v.results j = [])
    (Q : List (Msg κ T)) (R : κ → List (Except ε O)) (rs : List (Except ε O)) (hR : R j = m :: rs) :
    v.worker = u.worker ∧ (∀ k, v.results k = []) ∧
      System.step (ω := ω) cl cfg exec text { u with queue := Q, results := R } (.lead j l) = some { v with queue := Q ++ v.queue, results := Function.update R j rs } := by
  simp only [System.step] at h ⊢
  rw [Function.update_self] at h
  split at h <;> simp only [Option.some.injEq, reduceCtorEq] at h
  rename_i x ts rs' hs
  subst h
  simp only [Function.update_self] at hv
  subst hv
  refine ⟨rfl, fun k => ?_, ?_⟩
  · by_cases hk : k = j
    · subst hk; simp
    · simp [Function.update_of_ne hk, hr k]
  · simp [hR, (hc j).one hs, hq]

theorem frame_deliver {u v : System.St κ σ T O ε χ} {w : Nat} {m : Msg κ T} 
    (h : System.step (ω := ω) cl cfg exec text { u with queue := [m] } (.deliver w 0) = some v) (Q : List (Msg κ T)) (R : κ → List (Except ε O)) :
    v.queue = [] ∧ v.results = u.results ∧ (∀ w', w' ≠ w → v.worker w' = u.worker w') ∧
      System.step (ω := ω) cl cfg exec text { u with queue := m :: Q, results := R } (.deliver w 0) = some { v with queue := Q, results := R } := by
  simp only [System.step, Fold.takeAt, List.getElem?_cons_zero] at h ⊢
  split at h <;> simp only [Option.some.injEq, reduceCtorEq] at h
  rename_i y hy
  subst h
  exact ⟨rfl, rfl, fun w' hw => by simp [hw], by simp [hy]⟩

/-- Queues and semaphores agree; the semaphore of the task queue knows only workers waiting for a task, that of a result queue only the leader. -/
structure Inv (s : St κ σ T O ε χ) : Prop where
  q : s.sys.queue = []
  r : ∀ j, s.sys.results j = []
  tq : s.tq.Inv
  rq : ∀ j, (s.rq j).Inv
  tb : s.tq.books.Nodup
  ti : ∀ w ∈ s.tq.books, idle (s.sys.worker w).pc = true
  rb : ∀ j, (s.rq j).books.Nodup
  ri : ∀ j, ∀ k ∈ (s.rq j).books, k = 0

theorem inv_init : Inv (init cl : St κ σ T O ε χ) :=
  ⟨rfl, fun _ => rfl, Chan.inv_fresh [], fun _ => Chan.inv_fresh [], by simp [init, Chan.fresh, Chan.books], by simp [init, Chan.fresh, Chan.books], by simp [init, Chan.fresh, Chan.books],
    by simp [init, Chan.fresh, Chan.books]⟩

theorem Inv.flush {s : St κ σ T O ε χ} (hi : Inv s) {v : System.St κ σ T O ε χ} (hw : ∀ w ∈ s.tq.books, idle (v.worker w).pc = true) : Inv (s.flush v) where
  q := rfl
  r _ := rfl
  tq := Chan.inv_foldl_push hi.tq _
  rq j := Chan.inv_foldl_push (hi.rq j) _
  tb := by simp only [St.flush, Chan.books_push]; exact hi.tb
  ti := by simp only [St.flush, Chan.books_push]; exact hw
  rb j := by simp only [St.flush, Chan.books_push]; exact hi.rb j
  ri j := by simp only [St.flush, Chan.books_push]; exact hi.ri j

theorem Inv.setRq {s : St κ σ T O ε χ} (hi : Inv s) {j : κ} {c : Chan (Except ε O)} (h1 : c.Inv) (h2 : c.books.Nodup) (h3 : ∀ k ∈ c.books, k = 0) :
    Inv { s with rq := Function.update s.rq j c } where
  q := hi.q
  r := hi.r
  tq := hi.tq
  rq k := by by_cases hk : k = j <;> [(subst hk; simpa using h1); simpa [Function.update_of_ne hk] using hi.rq k]
  tb := hi.tb
  ti := hi.ti
  rb k := by by_cases hk : k = j <;> [(subst hk; simpa using h2); simpa [Function.update_of_ne hk] using hi.rb k]
  ri k := by by_cases hk : k = j <;> [(subst hk; simpa using h3); simpa [Function.update_of_ne hk] using hi.ri k]

theorem Inv.setTq {s : St κ σ T O ε χ} (hi : Inv s) {c : Chan (Msg κ T)} (h1 : c.Inv) (h2 : c.books.Nodup) (h3 : ∀ w ∈ c.books, idle (s.sys.worker w).pc = true) :
    Inv { s with tq := c } := ⟨hi.q, hi.r, h1, hi.rq, h2, h3, hi.rb, hi.ri⟩

theorem view_flush (s : St κ σ T O ε χ) (v : System.St κ σ T O ε χ) :
    (s.flush v).view = { v with queue := s.tq.msgs ++ v.queue, results := fun j => (s.rq j).msgs ++ v.results j } := by
  simp [St.view, St.flush, Chan.foldl_push]

theorem view_setRq (s : St κ σ T O ε χ) {j : κ} {c : Chan (Except ε O)} (h : c.msgs = (s.rq j).msgs) : ({ s with rq := Function.update s.rq j c } : St κ σ T O ε χ).view = s.view := by
  simp only [St.view, System.St.mk.injEq, true_and, and_true]
  funext k
  by_cases hk : k = j
  · subst hk; simpa using h
  · simp [Function.update_of_ne hk]

/-- A step of the system in memory is a step of the system, or none. -/
def Matches (cl : (j : κ) → Client (σ j) (ℓ j) T (Except ε O)) (cfg : Worker.Cfg κ) (exec : ω → T → Except (OpError χ) O) (text : OpError χ → ε) (s s' : St κ σ T O ε χ)
    (l : Label κ ℓ O χ ω) : Prop :=
  match l.sys with
  | some l' => System.step cl cfg exec text s.view l' = some s'.view
  | none => s'.view = s.view

theorem step_inv (hc : ∀ j, Local (cl j)) {s s' : St κ σ T O ε χ} {l : Label κ ℓ O χ ω} (hi : Inv s) (h : step cl listens cfg exec text s l = some s') :
    Inv s' ∧ Matches cl cfg exec text s s' l := by
  cases l with
  | lead j l =>
    simp only [step, Option.map_eq_some_iff] at h
    obtain ⟨v, hv, rfl⟩ := h
    obtain ⟨h1, h2, h3⟩ := frame_lead hc hi.q hi.r hv s.tq.msgs fun j => (s.rq j).msgs
    refine ⟨hi.flush (by rw [h1]; exact hi.ti), ?_⟩
    rw [Matches, Label.sys, view_flush]
    simp only [h2, List.append_nil]
    exact h3
  | recv j l =>
    simp only [step] at h
    split at h <;> try simp only [reduceCtorEq] at h
    · rename_i c hp hm
      obtain ⟨-, m, hm', -⟩ := Chan.inv_pop (hi.rq j) hp
      rw [hm] at hm'; simp at hm'
    · rename_i c m ms hp hm
      split at h <;> try simp only [reduceCtorEq] at h
      rename_i v hv
      split at h <;> simp only [Option.some.injEq, reduceCtorEq] at h
      rename_i he
      subst h
      have he : v.results j = [] := by simpa using he
      obtain ⟨p1, m', hm', -⟩ := Chan.inv_pop (hi.rq j) hp
      obtain ⟨p2, p3, p4⟩ := Chan.books_pop (hi.rb j) hp
      obtain ⟨h1, h2, h3⟩ := frame_recv hc hi.q hi.r hv he s.tq.msgs (fun j => (s.rq j).msgs) ms hm
      refine ⟨(hi.setRq p1 p2 fun k hk => hi.ri j k (p4 k hk)).flush (by rw [h1]; exact hi.ti), ?_⟩
      rw [Matches, Label.sys, view_flush]
      simp only [h2, List.append_nil]
      have hcm : c.msgs = ms := by rw [hm] at hm'; exact (List.cons.inj hm').2.symm
      refine h3.trans ?_
      simp only [Option.some.injEq, System.St.mk.injEq, true_and, and_true]
      funext k
      by_cases hk : k = j
      · subst hk; simp [hcm]
      · simp [Function.update_of_ne hk]
  | resPoll j =>
    simp only [step] at h
    split at h <;> try simp only [reduceCtorEq] at h
    simp only [Option.map_eq_some_iff] at h
    obtain ⟨c, hp, rfl⟩ := h
    obtain ⟨h1, h2⟩ := Chan.books_poll (hi.rb j) hp
    exact ⟨hi.setRq (Chan.inv_poll (hi.rq j) hp) h1 fun k hk => (h2 k hk).elim id (hi.ri j k), view_setRq s (Chan.log_poll hp).1⟩
  | resRelease j =>
    simp only [step, Option.map_eq_some_iff] at h
    obtain ⟨c, hp, rfl⟩ := h
    have h1 := Chan.books_release hp
    exact ⟨hi.setRq (Chan.inv_release (hi.rq j) hp) (h1.nodup_iff.2 (hi.rb j)) fun k hk => hi.ri j k (h1.mem_iff.1 hk), view_setRq s (Chan.log_release hp).1⟩
  | taskPoll w =>
    simp only [step] at h
    split at h <;> try simp only [reduceCtorEq] at h
    rename_i hw
    simp only [Bool.and_eq_true] at hw
    simp only [Option.map_eq_some_iff] at h
    obtain ⟨c, hp, rfl⟩ := h
    obtain ⟨h1, h2⟩ := Chan.books_poll hi.tb hp
    refine ⟨hi.setTq (Chan.inv_poll hi.tq hp) h1 fun k hk => (h2 k hk).elim (fun e => e ▸ hw.1) (hi.ti k), ?_⟩
    simp only [Matches, Label.sys, St.view, (Chan.log_poll hp).1]
  | taskRelease =>
    simp only [step, Option.map_eq_some_iff] at h
    obtain ⟨c, hp, rfl⟩ := h
    have h1 := Chan.books_release hp
    refine ⟨hi.setTq (Chan.inv_release hi.tq hp) (h1.nodup_iff.2 hi.tb) fun k hk => hi.ti k (h1.mem_iff.1 hk), ?_⟩
    simp only [Matches, Label.sys, St.view, (Chan.log_release hp).1]
  | deliver w =>
    simp only [step] at h
    split at h <;> try simp only [reduceCtorEq] at h
    · rename_i c hp hm
      obtain ⟨-, m, hm', -⟩ := Chan.inv_pop hi.tq hp
      rw [hm] at hm'; simp at hm'
    · rename_i c m ms hp hm
      split at h <;> simp only [Option.some.injEq, reduceCtorEq] at h
      rename_i v hv
      subst h
      obtain ⟨p1, m', hm', -⟩ := Chan.inv_pop hi.tq hp
      obtain ⟨p2, p3, p4⟩ := Chan.books_pop hi.tb hp
      have hcm : c.msgs = ms := by rw [hm] at hm'; exact (List.cons.inj hm').2.symm
      obtain ⟨h1, h2, h3, h4⟩ := frame_deliver hv ms fun j => (s.rq j).msgs
      refine ⟨(hi.setTq p1 p2 fun k hk => hi.ti k (p4 k hk)).flush fun k hk => ?_, ?_⟩
      · rw [h3 k fun e => p3 (e ▸ hk)]
        exact hi.ti k (p4 k hk)
      · rw [Matches, Label.sys, view_flush, St.view, hm]
        simp only [h1, h2, hi.r, List.append_nil, hcm]
        exact h4
  | finish w x =>
    simp only [step, Option.map_eq_some_iff] at h
    obtain ⟨v, hv, rfl⟩ := h
    obtain ⟨h1, h2, h3, h4, h5⟩ := frame_finish hv s.tq.msgs fun j => (s.rq j).msgs
    refine ⟨hi.flush fun k hk => ?_, ?_⟩
    · rw [h3 k ?_]
      · exact hi.ti k hk
      · rintro rfl; rw [hi.ti k hk] at h4; simp at h4
    · rw [Matches, Label.sys, view_flush]
      simp only [h1, h2, hi.r, hi.q, List.append_nil]
      exact h5
  | work w l =>
    simp only [step] at h
    split at h <;> try simp only [reduceCtorEq] at h
    rename_i v hv
    obtain ⟨h1, h2, h3⟩ := frame_work hi.q hi.r hv s.tq.msgs fun j => (s.rq j).msgs
    have hview : System.step cl cfg exec text s.view (.work w l) = some (s.flush v).view := by
      rw [view_flush, h1, List.append_nil]; exact h3
    split at h
    · simp only [Option.map_eq_some_iff] at h
      obtain ⟨c, hp, rfl⟩ := h
      have hp' : (s.tq.drop w) = some c := by simpa [St.flush, h1] using hp
      obtain ⟨p2, p3, p4⟩ := Chan.books_drop hi.tb hp'
      have hi' : Inv ({ s with tq := c } : St κ σ T O ε χ) := hi.setTq (Chan.inv_drop hi.tq hp') p2 fun k hk => hi.ti k (p4 k hk)
      have e : ({ s.flush v with tq := c } : St κ σ T O ε χ) = St.flush { s with tq := c } v := by simp [St.flush, h1]
      refine ⟨?_, ?_⟩
      · rw [e]
        refine hi'.flush fun k hk => ?_
        rw [h2 k fun e => p3 (e ▸ hk)]
        exact hi.ti k (p4 k hk)
      · rw [Matches, Label.sys]
        refine hview.trans ?_
        simp only [St.view, (Chan.log_drop hp).1]
    · rename_i hn
      simp only [Option.some.injEq] at h
      subst h
      refine ⟨hi.flush fun k hk => ?_, hview⟩
      by_cases hk' : k = w
      · subst hk'
        have := hi.ti k hk
        simpa [this] using hn
      · rw [h2 k hk']; exact hi.ti k hk

theorem inv_run (hc : ∀ j, Local (cl j)) {s : St κ σ T O ε χ} {ls : List (Label κ ℓ O χ ω)} (h : run cl listens cfg exec text (init cl) ls = some s) :
    Inv s ∧ System.run cl cfg exec text (System.init cl) (actions ls) = some s.view := by
  refine Lts.run_induction (P := fun ls s => Inv s ∧ System.run cl cfg exec text (System.init cl) (actions ls) = some s.view) ⟨inv_init, rfl⟩ ?_ ls s h
  intro ls l s s' _ ⟨hi, hr⟩ hs
  obtain ⟨h1, h2⟩ := step_inv hc hi hs
  refine ⟨h1, ?_⟩
  rw [Matches] at h2
  cases hl : l.sys with
  | none => simp only [hl] at h2; simpa [actions, hl, h2] using hr
  | some l' =>
    simp only [hl] at h2
    rw [actions, List.filterMap_append]
    simp only [List.filterMap_cons, hl, List.filterMap_nil]
    exact Lts.run_snoc.2 ⟨_, hr, h2⟩

/-- With workers `W` only, the semaphore of the task queue knows only those. -/
theorem books_run {W : Nat → Bool} (hc : ∀ j, Local (cl j)) {s : St κ σ T O ε χ} {ls : List (Label κ ℓ O χ ω)} (h : run cl listens cfg exec text (init cl) ls = some s) :
    (∀ l ∈ ls, l.steady W = true) → ∀ w ∈ s.tq.books, W w = true := by
  refine (Lts.run_induction (P := fun ls s => Inv s ∧ ((∀ l ∈ ls, l.steady W = true) → ∀ w ∈ s.tq.books, W w = true)) ⟨inv_init, by simp [init, Chan.fresh, Chan.books]⟩ ?_ ls s h).2
  intro ls l s s' _ ⟨hi, ih⟩ hs
  refine ⟨(step_inv hc hi hs).1, fun hl => ?_⟩
  have ih := ih fun l hm => hl l (by simp [hm])
  have hl := hl l (by simp)
  cases l with
  | lead j l =>
    simp only [step, Option.map_eq_some_iff] at hs
    obtain ⟨v, hv, rfl⟩ := hs
    simpa [St.flush, Chan.books_push] using ih
  | recv j l =>
    simp only [step] at hs
    split at hs <;> try simp only [reduceCtorEq] at hs
    · simp only [Option.some.injEq] at hs; subst hs; exact ih
    · split at hs <;> try simp only [reduceCtorEq] at hs
      split at hs <;> simp only [Option.some.injEq, reduceCtorEq] at hs
      subst hs
      simpa [St.flush, Chan.books_push] using ih
  | resPoll j =>
    simp only [step] at hs
    split at hs <;> try simp only [reduceCtorEq] at hs
    simp only [Option.map_eq_some_iff] at hs
    obtain ⟨c, hp, rfl⟩ := hs
    exact ih
  | resRelease j =>
    simp only [step, Option.map_eq_some_iff] at hs
    obtain ⟨c, hp, rfl⟩ := hs
    exact ih
  | taskPoll w =>
    simp only [step] at hs
    split at hs <;> try simp only [reduceCtorEq] at hs
    simp only [Option.map_eq_some_iff] at hs
    obtain ⟨c, hp, rfl⟩ := hs
    intro k hk
    rcases (Chan.books_poll hi.tb hp).2 k hk with rfl | h
    · exact hl
    · exact ih k h
  | taskRelease =>
    simp only [step, Option.map_eq_some_iff] at hs
    obtain ⟨c, hp, rfl⟩ := hs
    exact fun k hk => ih k ((Chan.books_release hp).mem_iff.1 hk)
  | deliver w =>
    simp only [step] at hs
    split at hs <;> try simp only [reduceCtorEq] at hs
    · rename_i hp hm
      simp only [Option.some.injEq] at hs; subst hs
      exact fun k hk => ih k ((Chan.books_pop hi.tb hp).2.2 k hk)
    · rename_i hp hm
      split at hs <;> simp only [Option.some.injEq, reduceCtorEq] at hs
      subst hs
      intro k hk
      simp only [St.flush, Chan.books_push] at hk
      exact ih k ((Chan.books_pop hi.tb hp).2.2 k hk)
  | finish w x =>
    simp only [step, Option.map_eq_some_iff] at hs
    obtain ⟨v, hv, rfl⟩ := hs
    simpa [St.flush, Chan.books_push] using ih
  | work w l =>
    simp only [step] at hs
    split at hs <;> try simp only [reduceCtorEq] at hs
    rename_i v hv
    have hb : (s.flush v).tq.books = s.tq.books := by simp [St.flush, Chan.books_push]
    split at hs
    · simp only [Option.map_eq_some_iff] at hs
      obtain ⟨c, hp, rfl⟩ := hs
      exact fun k hk => ih k (hb ▸ (Chan.books_drop (hb ▸ hi.tb) hp).2.2 k hk)
    · simp only [Option.some.injEq] at hs
      subst hs
      rw [hb]; exact ih

theorem steady_sys {W : Nat → Bool} {ls : List (Label κ ℓ O χ ω)} (h : ∀ l ∈ ls, l.steady W = true) : ∀ l ∈ actions ls, l.steady W = true := by
  intro l hl
  obtain ⟨m, hm, hs⟩ := List.mem_filterMap.1 hl
  have := h m hm
  cases m <;> simp only [Label.sys, Option.some.injEq, reduceCtorEq] at hs <;> subst hs <;> first | rfl | exact this

/-- When the workers `W` and the publishers of tasks can do nothing more, the task queue is empty and the workers have nothing to do. -/
theorem work_quiet [Inhabited ω] (hc : ∀ j, Local (cl j)) {W : Nat → Bool} {K : κ → Bool} {int : (j : κ) → ℓ j → Bool} {s : St κ σ T O ε χ} {ls : List (Label κ ℓ O χ ω)}
    (h : run cl listens cfg exec text (init cl) ls = some s) (hW : ∃ w, W w = true) (hl : ∀ l ∈ ls, l.steady W = true)
    (hstuck : ∀ l : Label κ ℓ O χ ω, l.moves W K int = true → step cl listens cfg exec text s l = none) :
    ∀ l : System.Label κ ℓ O χ ω, l.serves W = true → System.step cl cfg exec text s.view l = none := by
  obtain ⟨hi, hr⟩ := inv_run hc h
  have hb := books_run hc h hl
  have hst := steady_run hr (steady_sys hl)
  have hwork : ∀ l : System.Label κ ℓ O χ ω, l.serves W = true → (∀ w k, l ≠ .deliver w k) → System.step cl cfg exec text s.view l = none := by
    intro l hl hd
    cases l with
    | lead j l => simp [System.Label.serves] at hl
    | requeue n => simp [System.Label.serves] at hl
    | deliver w k => exact absurd rfl (hd w k)
    | finish w x =>
      have := hstuck (.finish w x) (by simpa [System.Label.serves, Label.moves] using hl)
      simp only [step, Option.map_eq_none_iff] at this
      simp only [System.step, St.view] at this ⊢
      split at this
      · split at this <;> first | (simp only [reduceCtorEq] at this; done) | rfl
      · rfl
    | work w l =>
      obtain ⟨h1, h2⟩ : W w = true ∧ routine l = true := by simpa [System.Label.serves] using hl
      have := hstuck (.work w l) (by simp [Label.moves, h1, h2])
      have hv : Worker.step cfg (s.sys.worker w) l = none := by
        cases hx : Worker.step cfg (s.sys.worker w) l with
        | none => rfl
        | some v =>
          have hid : idle (s.sys.worker w).pc = false := by
            cases hp : (s.sys.worker w).pc <;> try rfl
            cases l <;> simp [routine] at h2 <;> simp [Worker.step, hp] at hx
          have hs : ∃ u, System.step (ω := ω) cl cfg exec text s.sys (.work w l) = some u := by
            cases l <;> simp [routine] at h2 <;> simp [System.step, hx]
          obtain ⟨u, hu⟩ := hs
          simp [step, hu, hid] at this
      cases l <;> simp [routine] at h2 <;> simp [System.step, St.view, hv]
  have hpc : ∀ w, W w = true → (s.sys.worker w).pc = .waiting := fun w hw => healthy_progress (s := s.view) (System.inv_run hr) (hst.healthy w) hw hwork
  have hid : ∀ w, W w = true → idle (s.sys.worker w).pc = true := fun w hw => by rw [hpc w hw]; rfl
  have ho : s.tq.owed = 0 := by
    have := hstuck .taskRelease rfl
    simp only [step, Option.map_eq_none_iff, Chan.release] at this
    split at this <;> simp_all
  have hh : s.tq.holding = [] := by
    refine List.eq_nil_iff_forall_not_mem.2 fun w hw => ?_
    have hWw := hb w (by simp [Chan.books, hw])
    have := hstuck (.deliver w) hWw
    obtain ⟨c, hp⟩ := Chan.pop_some hw
    obtain ⟨-, m, hm, -⟩ := Chan.inv_pop hi.tq hp
    simp [step, hp, hm, System.step, Fold.takeAt, Worker.step, hpc w hWw] at this
  have hpoll : ∀ w, W w = true → w ∈ s.tq.waiters := by
    intro w hw
    by_contra hn
    have := hstuck (.taskPoll w) hw
    obtain ⟨c, hp⟩ := Chan.poll_some (c := s.tq) (k := w) (by simp [hh])
    simp [step, hid w hw, hn, hp] at this
  have hg : s.tq.granted = [] := by
    refine List.eq_nil_iff_forall_not_mem.2 fun w hw => ?_
    have hWw := hb w (by simp [Chan.books, hw])
    exact (List.nodup_append.1 hi.tb).2.2 w (hpoll w hWw) w (by simp [hw]) rfl
  have hq : s.tq.msgs = [] := by
    obtain ⟨w, hw⟩ := hW
    exact Chan.quiet hi.tq ho hg hh (List.ne_nil_of_mem (hpoll w hw))
  intro l hl
  cases l with
  | deliver w k => simp [System.step, St.view, hq, Fold.takeAt]
  | _ => exact hwork _ hl nofun

/-- When the leader of a job and the publishers of its results can do nothing more, the leader has nothing to do. -/
theorem lead_quiet (j : κ) {int : ℓ j → Bool} (hr : Responsive (cl j) (listens j) int) {s : St κ σ T O ε χ} (hi : Inv s)
    (h1 : ∀ l, int l = true → step (ω := ω) cl listens cfg exec text s (.lead j l) = none) (h2 : ∀ l, int l = true → step (ω := ω) cl listens cfg exec text s (.recv j l) = none)
    (h3 : step (ω := ω) cl listens cfg exec text s (.resPoll j) = none) (h4 : step (ω := ω) cl listens cfg exec text s (.resRelease j) = none) (l : ℓ j) (hl : int l = true) :
    System.step (ω := ω) cl cfg exec text s.view (.lead j l) = none := by
  cases hs : (cl j).step (s.sys.lead j) l (s.rq j).msgs with
  | none => simp [System.step, St.view, hs]
  | some y =>
    exfalso
    rcases hr _ _ _ _ hl hs with ⟨⟨x, ts, rs⟩, hy⟩ | ⟨hne, hon, hany⟩
    · have := h1 l hl
      simp [step, System.step, hi.r j, hy] at this
    · have hnh : 0 ∉ (s.rq j).holding := by
        intro hh
        obtain ⟨c, hp⟩ := Chan.pop_some hh
        obtain ⟨-, m, hm, -⟩ := Chan.inv_pop (hi.rq j) hp
        obtain ⟨l', x, ts, hl', hx⟩ := hany m
        have := h2 l' hl'
        simp [step, hp, hm, System.step, hx] at this
      have hw : 0 ∈ (s.rq j).waiters := by
        by_contra hn
        obtain ⟨c, hp⟩ := Chan.poll_some hnh
        simp [step, hon, hn, hp] at h3
      have hout : ∀ k, k ∈ (s.rq j).granted ++ (s.rq j).holding → False := by
        intro k hk
        have : k = 0 := hi.ri j k (by simp only [Chan.books, List.mem_append] at hk ⊢; exact .inr hk)
        exact (List.nodup_append.1 (hi.rb j)).2.2 0 hw k hk this.symm
      have ho : (s.rq j).owed = 0 := by
        simp only [step, Option.map_eq_none_iff, Chan.release] at h4
        split at h4 <;> simp_all
      exact hne (Chan.quiet (hi.rq j) ho (List.eq_nil_iff_forall_not_mem.2 fun k hk => hout k (by simp [hk]))
        (List.eq_nil_iff_forall_not_mem.2 fun k hk => hout k (by simp [hk])) (List.ne_nil_of_mem hw))

/-! ### The number of steps is bounded -/

/-- Publishes of which the second half is still to come. -/
def owedAll (K : Finset κ) (s : St κ σ T O ε χ) : Nat := s.tq.owed + ∑ j ∈ K, (s.rq j).owed

/-- Consumers which may poll. -/
def askers (W : Finset Nat) (s : St κ σ T O ε χ) : Finset Nat := W.filter fun w => idle (s.sys.worker w).pc = true ∧ w ∉ s.tq.waiters ∧ w ∉ s.tq.holding

def readers (K : Finset κ) (s : St κ σ T O ε χ) : Finset κ := K.filter fun j => 0 ∉ (s.rq j).waiters ∧ 0 ∉ (s.rq j).holding

def toDo (W : Finset Nat) (K : Finset κ) (s : St κ σ T O ε χ) : Nat := 2 * owedAll K s + (askers W s).card + (readers K s).card

theorem Chan.owed_poll {M : Type} {c c' : Chan M} {k : Nat} (h : c.poll k = some c') : c'.owed = c.owed := by
  unfold Chan.poll at h
  (repeat' split at h) <;> simp only [Option.some.injEq, reduceCtorEq] at h <;> subst h <;> rfl

theorem Chan.owed_pop {M : Type} {c c' : Chan M} {k : Nat} (h : c.pop k = some c') : c'.owed = c.owed := by
  unfold Chan.pop at h
  (repeat' split at h) <;> simp only [Option.some.injEq, reduceCtorEq] at h <;> subst h <;> rfl

theorem Chan.owed_drop {M : Type} {c c' : Chan M} {k : Nat} (h : c.drop k = some c') : c'.owed = c.owed := by
  unfold Chan.drop at h
  (repeat' split at h) <;> simp only [Option.some.injEq, reduceCtorEq] at h <;> subst h <;> try rfl
  unfold Chan.addPermit; split <;> rfl

theorem Chan.release_spec {M : Type} {c c' : Chan M} (h : c.release = some c') :
    c'.owed + 1 = c.owed ∧ c'.holding = c.holding ∧ (c'.waiters = c.waiters ∨ ∃ w, c.waiters = w :: c'.waiters) := by
  unfold Chan.release Chan.releaseOne at h
  split at h <;> simp only [Option.some.injEq, reduceCtorEq] at h
  subst h
  unfold Chan.addPermit
  split
  · exact ⟨by simp only; omega, rfl, .inl rfl⟩
  · rename_i hw
    exact ⟨by simp only; omega, rfl, .inr ⟨_, hw⟩⟩

theorem Chan.poll_spec {M : Type} {c c' : Chan M} {k : Nat} (h : c.poll k = some c') (hk : k ∉ c.waiters) :
    k ∉ c.holding ∧ (k ∈ c'.waiters ∨ k ∈ c'.holding) ∧ (∀ x ∈ c.waiters, x ∈ c'.waiters) ∧ ∀ x ∈ c.holding, x ∈ c'.holding := by
  unfold Chan.poll at h
  (repeat' split at h) <;> simp only [Option.some.injEq, reduceCtorEq] at h <;> subst h <;> simp_all <;> grind

theorem sum_owed_update (K : Finset κ) (f : κ → Chan (Except ε O)) (j : κ) (c : Chan (Except ε O)) (h : c.owed = (f j).owed) :
    ∑ k ∈ K, (Function.update f j c k).owed = ∑ k ∈ K, (f k).owed := by
  refine Finset.sum_congr rfl fun k _ => ?_
  by_cases hk : k = j
  · subst hk; simpa using h
  · simp [Function.update_of_ne hk]

theorem owed_flush (K : Finset κ) (s : St κ σ T O ε χ) (v : System.St κ σ T O ε χ) : owedAll K (s.flush v) = owedAll K s + v.queue.length + ∑ j ∈ K, (v.results j).length := by
  simp only [owedAll, St.flush, Chan.foldl_push, Finset.sum_add_distrib]
  omega

theorem flush_total {W : Finset Nat} {K : Finset κ} {f : (j : κ) → σ j → Nat} (s : St κ σ T O ε χ) (v : System.St κ σ T O ε χ) :
    v.queue.length + ∑ j ∈ K, (v.results j).length ≤ total W K f (s.flush v).view := by
  rw [view_flush]
  unfold total jobWork
  simp only [List.length_append]
  have : ∑ j ∈ K, (v.results j).length ≤ ∑ j ∈ K, (f j (v.lead j) + 31 * ((s.rq j).msgs.length + (v.results j).length)) := Finset.sum_le_sum fun j _ => by omega
  omega

/-- A step of a leader or worker adds at most as many second halves of publishes as there is work. -/
theorem owed_sys (hc : ∀ j, Local (cl j)) {W : Finset Nat} {K : Finset κ} {f : (j : κ) → σ j → Nat} {s s' : St κ σ T O ε χ} {l : Label κ ℓ O χ ω} (hi : Inv s)
    (h : step cl listens cfg exec text s l = some s') (hl : l.sys.isSome = true) : owedAll K s' ≤ owedAll K s + total W K f s'.view := by
  have fl : ∀ (s0 : St κ σ T O ε χ) v, owedAll K s0 = owedAll K s → owedAll K (s0.flush v) ≤ owedAll K s + total W K f (s0.flush v).view := by
    intro s0 v h0
    rw [owed_flush, h0]
    have := flush_total (W := W) (K := K) (f := f) s0 v
    omega
  cases l with
  | lead j l =>
    simp only [step, Option.map_eq_some_iff] at h
    obtain ⟨v, hv, rfl⟩ := h
    exact fl s v rfl
  | recv j l =>
    simp only [step] at h
    split at h <;> try simp only [reduceCtorEq] at h
    · rename_i c hp hm
      obtain ⟨-, m, hm', -⟩ := Chan.inv_pop (hi.rq j) hp
      rw [hm] at hm'; simp at hm'
    · rename_i c m ms hp hm
      split at h <;> try simp only [reduceCtorEq] at h
      split at h <;> simp only [Option.some.injEq, reduceCtorEq] at h
      subst h
      exact fl _ _ (by simp only [owedAll, sum_owed_update K s.rq j c (Chan.owed_pop hp)])
  | deliver w =>
    simp only [step] at h
    split at h <;> try simp only [reduceCtorEq] at h
    · rename_i c hp hm
      obtain ⟨-, m, hm', -⟩ := Chan.inv_pop hi.tq hp
      rw [hm] at hm'; simp at hm'
    · rename_i c m ms hp hm
      split at h <;> simp only [Option.some.injEq, reduceCtorEq] at h
      subst h
      exact fl _ _ (by simp only [owedAll, Chan.owed_pop hp])
  | finish w x =>
    simp only [step, Option.map_eq_some_iff] at h
    obtain ⟨v, hv, rfl⟩ := h
    exact fl s v rfl
  | work w l =>
    simp only [step] at h
    split at h <;> try simp only [reduceCtorEq] at h
    rename_i v hv
    split at h
    · simp only [Option.map_eq_some_iff] at h
      obtain ⟨c, hp, rfl⟩ := h
      have := fl s v rfl
      have e : ({ s.flush v with tq := c } : St κ σ T O ε χ).view = (s.flush v).view := by simp only [St.view, (Chan.log_drop hp).1]
      rw [e]
      refine Nat.le_trans (Nat.le_of_eq ?_) this
      simp only [owedAll, Chan.owed_drop hp]
    · simp only [Option.some.injEq] at h
      subst h
      exact fl s v rfl
  | _ => simp [Label.sys] at hl

theorem sys_moves {W : Nat → Bool} {K : κ → Bool} {int : (j : κ) → ℓ j → Bool} {l : Label κ ℓ O χ ω} {l' : System.Label κ ℓ O χ ω} (h : l.sys = some l') (hm : l.moves W K int = true) :
    l'.moves W int = true := by
  cases l <;> simp only [Label.sys, Option.some.injEq, reduceCtorEq] at h <;> subst h <;> exact hm

/-- Steps that concern only a semaphore make less to do. -/
theorem toDo_step {W : Finset Nat} {K : Finset κ} {int : (j : κ) → ℓ j → Bool} {s s' : St κ σ T O ε χ} {l : Label κ ℓ O χ ω} 
    (h : step cl listens cfg exec text s l = some s') (hl : l.sys = none) (hm : l.moves (fun w => decide (w ∈ W)) (fun j => decide (j ∈ K)) int = true) :
    toDo W K s' < toDo W K s := by
  cases l with
  | resPoll j =>
    have hj : j ∈ K := by simpa [Label.moves] using hm
    simp only [step] at h
    split at h <;> try simp only [reduceCtorEq] at h
    rename_i hw
    simp only [Bool.and_eq_true, decide_eq_true_eq] at hw
    simp only [Option.map_eq_some_iff] at h
    obtain ⟨c, hp, rfl⟩ := h
    obtain ⟨p1, p2, p3, p4⟩ := Chan.poll_spec hp hw.2
    have ho : owedAll K { s with rq := Function.update s.rq j c } = owedAll K s := by simp only [owedAll, sum_owed_update K s.rq j c (Chan.owed_poll hp)]
    have ha : askers W ({ s with rq := Function.update s.rq j c } : St κ σ T O ε χ) = askers W s := rfl
    have hr : (readers K ({ s with rq := Function.update s.rq j c } : St κ σ T O ε χ)).card < (readers K s).card := by
      refine Finset.card_lt_card (Finset.ssubset_iff_of_subset ?_ |>.2 ⟨j, ?_, ?_⟩)
      · intro k hk
        simp only [readers, Finset.mem_filter] at hk ⊢
        by_cases hkj : k = j
        · subst hkj; exact ⟨hk.1, hw.2, p1⟩
        · simpa [Function.update_of_ne hkj] using hk
      · simp only [readers, Finset.mem_filter]; exact ⟨hj, hw.2, p1⟩
      · simp only [readers, Finset.mem_filter, Function.update_self]; tauto
    unfold toDo
    rw [ho, ha]; omega
  | resRelease j =>
    have hj : j ∈ K := by simpa [Label.moves] using hm
    simp only [step, Option.map_eq_some_iff] at h
    obtain ⟨c, hp, rfl⟩ := h
    obtain ⟨p1, p2, p3⟩ := Chan.release_spec hp
    have ho : owedAll K { s with rq := Function.update s.rq j c } + 1 = owedAll K s := by
      have := System.sum_update_lt (S := K) (f := fun k => (s.rq k).owed) (g := fun k => (Function.update s.rq j c k).owed) hj (fun k hk => by simp only [Function.update_of_ne hk])
      simp only [Function.update_self] at this
      simp only [owedAll]; omega
    have ha : askers W ({ s with rq := Function.update s.rq j c } : St κ σ T O ε χ) = askers W s := rfl
    have hr : (readers K ({ s with rq := Function.update s.rq j c } : St κ σ T O ε χ)).card ≤ (readers K s).card + 1 := by
      refine Nat.le_trans (Finset.card_le_card (t := insert j (readers K s)) ?_) (Finset.card_insert_le _ _)
      intro k hk
      simp only [readers, Finset.mem_filter, Finset.mem_insert] at hk ⊢
      by_cases hkj : k = j
      · exact .inl hkj
      · right; simpa [Function.update_of_ne hkj] using hk
    unfold toDo
    rw [ha]; omega
  | taskPoll w =>
    have hw' : w ∈ W := by simpa [Label.moves] using hm
    simp only [step] at h
    split at h <;> try simp only [reduceCtorEq] at h
    rename_i hw
    simp only [Bool.and_eq_true, decide_eq_true_eq] at hw
    simp only [Option.map_eq_some_iff] at h
    obtain ⟨c, hp, rfl⟩ := h
    obtain ⟨p1, p2, p3, p4⟩ := Chan.poll_spec hp hw.2
    have ho : owedAll K { s with tq := c } = owedAll K s := by simp only [owedAll, Chan.owed_poll hp]
    have hr : readers K ({ s with tq := c } : St κ σ T O ε χ) = readers K s := rfl
    have ha : (askers W ({ s with tq := c } : St κ σ T O ε χ)).card < (askers W s).card := by
      refine Finset.card_lt_card (Finset.ssubset_iff_of_subset ?_ |>.2 ⟨w, ?_, ?_⟩)
      · intro k hk
        simp only [askers, Finset.mem_filter] at hk ⊢
        exact ⟨hk.1, hk.2.1, fun hh => hk.2.2.1 (p3 k hh), fun hh => hk.2.2.2 (p4 k hh)⟩
      · simp only [askers, Finset.mem_filter]; exact ⟨hw', hw.1, hw.2, p1⟩
      · simp only [askers, Finset.mem_filter]; tauto
    unfold toDo
    rw [ho, hr]; omega
  | taskRelease =>
    simp only [step, Option.map_eq_some_iff] at h
    obtain ⟨c, hp, rfl⟩ := h
    obtain ⟨p1, p2, p3⟩ := Chan.release_spec hp
    have ho : owedAll K { s with tq := c } + 1 = owedAll K s := by simp only [owedAll]; omega
    have hr : readers K ({ s with tq := c } : St κ σ T O ε χ) = readers K s := rfl
    have ha : (askers W ({ s with tq := c } : St κ σ T O ε χ)).card ≤ (askers W s).card + 1 := by
      rcases p3 with p3 | ⟨w, p3⟩
      · refine Nat.le_succ_of_le (Nat.le_of_eq ?_)
        simp only [askers, p2, p3]
      · refine Nat.le_trans (Finset.card_le_card (t := insert w (askers W s)) ?_) (Finset.card_insert_le _ _)
        intro k hk
        simp only [askers, Finset.mem_filter, Finset.mem_insert, p2, p3, List.mem_cons, not_or] at hk ⊢
        by_cases hkw : k = w
        · exact .inl hkw
        · exact .inr ⟨hk.1, hk.2.1, ⟨hkw, hk.2.2.1⟩, hk.2.2.2⟩
    unfold toDo
    rw [hr]; omega
  | _ => simp [Label.sys] at hl

/-- Idle steps change nothing that matters. -/
theorem idle_step {W : Finset Nat} {K : Finset κ} {s s' : St κ σ T O ε χ} {l : Label κ ℓ O χ ω} (h : step cl listens cfg exec text s l = some s') (hi : Inv s) (hl : l.idles = true) :
    toDo W K s' = toDo W K s := by
  have key : ∀ w (l : Worker.Label κ O χ), (∃ t, l = .tick t) ∨ l = .reap → step (ω := ω) cl listens cfg exec text s (.work w l) = some s' → toDo W K s' = toDo W K s := by
    intro w l hl h
    simp only [step] at h
    split at h <;> try simp only [reduceCtorEq] at h
    rename_i v hv
    obtain ⟨x, hx, rfl, hpc⟩ : ∃ x, Worker.step cfg (s.sys.worker w) l = some x ∧ v = { s.sys with worker := Function.update s.sys.worker w x } ∧ x.pc = (s.sys.worker w).pc := by
      rcases hl with ⟨t, rfl⟩ | rfl
      all_goals
        simp only [System.step] at hv
        split at hv <;> simp only [Option.some.injEq, reduceCtorEq] at hv
        rename_i x hx
        refine ⟨x, hx, hv.symm, ?_⟩
        simp only [Worker.step] at hx
        (repeat' split at hx) <;> simp only [Option.some.injEq, reduceCtorEq] at hx <;> subst hx <;> rfl
    have hfl : toDo W K (s.flush { s.sys with worker := Function.update s.sys.worker w x }) = toDo W K s := by
      have e : s.flush { s.sys with worker := Function.update s.sys.worker w x } = { s with sys := { s.sys with worker := Function.update s.sys.worker w x } } := by
        simp only [St.flush, hi.q, hi.r, List.foldl_nil, St.mk.injEq, System.St.mk.injEq, true_and, and_true]
        exact (funext hi.r).symm
      rw [e]
      simp only [toDo, owedAll, askers, readers, pc_update hpc]
    simp only [Function.update_self, hpc] at h
    cases hid : idle (s.sys.worker w).pc <;> simp [hid] at h <;> subst h <;> exact hfl
  unfold Label.idles at hl
  split at hl <;> simp only [Bool.false_eq_true] at hl
  · exact key _ _ (.inl ⟨_, rfl⟩) h
  · exact key _ _ (.inr rfl) h

theorem toDo_le {W : Finset Nat} {K : Finset κ} (s : St κ σ T O ε χ) : toDo W K s ≤ 2 * owedAll K s + W.card + K.card := by
  have h1 : (askers W s).card ≤ W.card := Finset.card_filter_le _ _
  have h2 : (readers K s).card ≤ K.card := Finset.card_filter_le _ _
  unfold toDo; omega

/-- The number of moves is bounded. -/
theorem bound_run (hc : ∀ j, Local (cl j)) {W : Finset Nat} {K : Finset κ} {f : (j : κ) → σ j → Nat} {int : (j : κ) → ℓ j → Bool} (hm : ∀ j, Measured (cl j) (int j) (f j))
    (hK : ∀ j l, int j l = true → j ∈ K) {N : Nat} {s s' : St κ σ T O ε χ} {ls : List (Label κ ℓ O χ ω)} (hi : Inv s) (hN : total W K f s.view ≤ N)
    (h : run cl listens cfg exec text s ls = some s')
    (hl : ∀ l ∈ ls, l.moves (fun w => decide (w ∈ W)) (fun j => decide (j ∈ K)) int = true ∨ l.idles = true) :
    (ls.filter fun l => l.moves (fun w => decide (w ∈ W)) (fun j => decide (j ∈ K)) int).length ≤ (2 * N + W.card + K.card + 1) * total W K f s.view + toDo W K s := by
  induction ls generalizing s with
  | nil => simp
  | cons l ls ih =>
    obtain ⟨s1, h1, h2⟩ := Lts.run_cons.1 h
    obtain ⟨hi1, hmt⟩ := step_inv hc hi h1
    have hlt := hl l (by simp)
    have hrest := fun l hm => hl l (List.mem_cons_of_mem _ hm)
    rw [Matches] at hmt
    by_cases hmv : l.moves (fun w => decide (w ∈ W)) (fun j => decide (j ∈ K)) int = true
    · simp only [List.filter_cons, hmv, if_true, List.length_cons]
      cases hs : l.sys with
      | none =>
        rw [hs] at hmt
        simp only at hmt
        have htd := toDo_step h1 hs hmv
        have := ih hi1 (by rw [hmt]; exact hN) h2 hrest
        rw [hmt] at this
        omega
      | some l' =>
        rw [hs] at hmt
        simp only at hmt
        have ht := total_step hm hK hmt (sys_moves hs hmv)
        have ho := owed_sys (W := W) (K := K) (f := f) hc hi h1 (by simp [hs])
        have := ih hi1 (by omega) h2 hrest
        have h3 := toDo_le (W := W) (K := K) s1
        have h4 : 2 * owedAll K s ≤ toDo W K s := by unfold toDo; omega
        have h5 : (2 * N + W.card + K.card + 1) * (total W K f s1.view + 1) ≤ (2 * N + W.card + K.card + 1) * total W K f s.view := Nat.mul_le_mul_left _ ht
        rw [Nat.mul_add, Nat.mul_one] at h5
        omega
    · rw [List.filter_cons_of_neg hmv]
      have hid := hlt.resolve_left hmv
      have htd := idle_step (W := W) (K := K) h1 hi hid
      have ht : total W K f s1.view = total W K f s.view := by
        unfold Label.idles at hid
        split at hid <;> simp only [Bool.false_eq_true] at hid <;> exact total_idle hmt rfl
      have := ih hi1 (by omega) h2 hrest
      rw [ht, htd] at this
      exact this

/-! ### Returned deliveries, order of deliveries -/

theorem modify_map {β γ : Type} (f : β → γ) (g : β → β) (hg : ∀ x, f (g x) = f x) (l : List β) (n : Nat) : (l.modify n g).map f = l.map f := by
  induction l generalizing n with
  | nil => simp
  | cons x l ih => cases n <;> simp [hg, ih]

theorem modify_all {β : Type} {P : β → Prop} (g : β → β) (hg : ∀ x, P x → P (g x)) {l : List β} (h : ∀ x ∈ l, P x) (n : Nat) : ∀ x ∈ l.modify n g, P x := by
  induction l generalizing n with
  | nil => simp
  | cons x l ih =>
    have hx := h x (by simp)
    have hl : ∀ y ∈ l, P y := fun y hy => h y (by simp [hy])
    cases n with
    | zero => simp only [List.modify_zero_cons, List.mem_cons, forall_eq_or_imp]; exact ⟨hg x hx, hl⟩
    | succ n => simp only [List.modify_succ_cons, List.mem_cons, forall_eq_or_imp]; exact ⟨hx, ih hl n⟩

theorem sys_dels {u v : System.St κ σ T O ε χ} {l : System.Label κ ℓ O χ ω} (h : System.step cl cfg exec text u l = some v) (hl : l.requeues = false) :
    ((∀ d ∈ u.dels, d.fate ≠ .returned) → ∀ d ∈ v.dels, d.fate ≠ .returned) ∧
      ((∀ k w, l ≠ .deliver k w) → v.dels.map Del.msg = u.dels.map Del.msg) := by
  cases l with
  | lead j l =>
    simp only [System.step] at h
    split at h <;> simp only [Option.some.injEq, reduceCtorEq] at h
    subst h
    exact ⟨id, fun _ => rfl⟩
  | deliver w k =>
    simp only [System.step] at h
    split at h <;> try simp only [reduceCtorEq] at h
    split at h <;> simp only [Option.some.injEq, reduceCtorEq] at h
    subst h
    refine ⟨fun hd d hm => ?_, fun hn => absurd rfl (hn w k)⟩
    rcases List.mem_append.1 hm with hm | hm
    · exact hd d hm
    · simp only [List.mem_singleton] at hm; subst hm; simp
  | finish w x =>
    simp only [System.step] at h
    split at h <;> try simp only [reduceCtorEq] at h
    split at h <;> simp only [Option.some.injEq, reduceCtorEq] at h
    subst h
    exact ⟨id, fun _ => rfl⟩
  | work w l =>
    obtain ⟨x, rfl⟩ : ∃ x, v = { effect text u w l with worker := x } := by
      simp only [System.step] at h
      split at h <;> try simp only [reduceCtorEq] at h
      split at h <;> simp only [Option.some.injEq, reduceCtorEq] at h
      exact ⟨_, h.symm⟩
    have h1 : ∀ n, (∀ d ∈ u.dels, d.fate ≠ .returned) → ∀ d ∈ settle u.dels n, d.fate ≠ .returned :=
      fun n hd => modify_all (P := fun d : Del κ T => d.fate ≠ .returned) _ (fun d hd => by cases hf : d.fate <;> simp_all [Fate.settle]) hd n
    have h2 : ∀ n, (∀ d ∈ u.dels, d.fate ≠ .returned) → ∀ d ∈ answer u.dels n, d.fate ≠ .returned :=
      fun n hd => modify_all (P := fun d : Del κ T => d.fate ≠ .returned) (fun d => { d with answered := true }) (fun d hd => hd) hd n
    have h3 : ∀ n, (settle u.dels n).map Del.msg = u.dels.map Del.msg := fun n => modify_map Del.msg (fun d : Del κ T => { d with fate := d.fate.settle }) (fun _ => rfl) _ _
    have h4 : ∀ n, (answer u.dels n).map Del.msg = u.dels.map Del.msg := fun n => modify_map Del.msg (fun d : Del κ T => { d with answered := true }) (fun _ => rfl) _ _
    unfold effect
    split
    all_goals first
      | exact ⟨h1 _, fun _ => h3 _⟩
      | exact ⟨h2 _, fun _ => h4 _⟩
      | exact ⟨id, fun _ => rfl⟩
  | requeue n => simp [System.Label.requeues] at hl

theorem sys_requeues {l : Label κ ℓ O χ ω} {l' : System.Label κ ℓ O χ ω} (h : l.sys = some l') : l'.requeues = false := by
  cases l <;> simp only [Label.sys, Option.some.injEq, reduceCtorEq] at h <;> subst h <;> rfl

theorem noReturn_run {s : System.St κ σ T O ε χ} {ls : List (System.Label κ ℓ O χ ω)} (h : System.run cl cfg exec text (System.init cl) ls = some s) :
    (∀ l ∈ ls, l.requeues = false) → ∀ j, NoReturn j s := by
  have : (∀ l ∈ ls, l.requeues = false) → ∀ d ∈ s.dels, d.fate ≠ .returned := by
    refine Lts.run_induction (P := fun ls s => (∀ l ∈ ls, l.requeues = false) → ∀ d ∈ s.dels, d.fate ≠ .returned) (by simp [System.init]) ?_ ls s h
    intro ls l s s' _ ih hs hl
    exact (sys_dels hs (hl l (by simp))).1 (ih fun l hm => hl l (by simp [hm]))
  exact fun hl j d hd _ => this hl d hd

/-- Tasks delivered, then tasks waiting. -/
def St.sent (s : St κ σ T O ε χ) : List (Msg κ T) := s.sys.dels.map Del.msg ++ s.tq.msgs

theorem sent_step (hc : ∀ j, Local (cl j)) {s s' : St κ σ T O ε χ} {l : Label κ ℓ O χ ω} (hi : Inv s) (h : step cl listens cfg exec text s l = some s') : s.sent <+: s'.sent := by
  obtain ⟨hi', hm⟩ := step_inv hc hi h
  rw [Matches] at hm
  cases hl : l.sys with
  | none =>
    rw [hl] at hm
    simp only at hm
    have h1 : s'.view.dels = s.view.dels := by rw [hm]
    have h2 : s'.view.queue = s.view.queue := by rw [hm]
    have h1 : s'.sys.dels = s.sys.dels := h1
    have h2 : s'.tq.msgs = s.tq.msgs := h2
    simp [St.sent, h1, h2]
  | some l' =>
    rw [hl] at hm
    simp only at hm
    by_cases hd : ∃ w k, l' = .deliver w k
    · obtain ⟨w, k, rfl⟩ := hd
      obtain rfl : k = 0 := by
        cases l <;> simp [Label.sys] at hl
        exact hl.2.symm
      have e1 : s'.view.dels = s'.sys.dels := rfl
      have e2 : s'.view.queue = s'.tq.msgs := rfl
      have e3 : s.view.dels = s.sys.dels := rfl
      have e4 : s.view.queue = s.tq.msgs := rfl
      simp only [System.step, Fold.takeAt] at hm
      rw [e4, e3] at hm
      cases hq : s.tq.msgs with
      | nil => rw [hq] at hm; simp at hm
      | cons m q =>
        rw [hq] at hm
        simp only [List.getElem?_cons_zero, List.eraseIdx_zero, List.tail_cons] at hm
        split at hm <;> simp only [Option.some.injEq, reduceCtorEq] at hm
        have h1 : s'.sys.dels = s.sys.dels ++ [⟨w, m, .held, false⟩] := by rw [← e1, ← hm]
        have h2 : s'.tq.msgs = q := by rw [← e2, ← hm]
        simp [St.sent, h1, h2, hq]
    · have h1 : s'.sys.dels.map Del.msg = s.sys.dels.map Del.msg := (sys_dels hm (sys_requeues hl)).2 fun w k e => hd ⟨w, k, e⟩
      have h2 : s.tq.msgs <+: s'.tq.msgs := by
        have e2 : s'.view.queue = s'.tq.msgs := rfl
        cases l' with
        | lead j l =>
          simp only [System.step] at hm
          split at hm <;> simp only [Option.some.injEq, reduceCtorEq] at hm
          rw [← e2, ← hm]
          exact List.prefix_append _ _
        | deliver w k => exact absurd ⟨w, k, rfl⟩ hd
        | finish w x =>
          simp only [System.step] at hm
          split at hm <;> try simp only [reduceCtorEq] at hm
          split at hm <;> simp only [Option.some.injEq, reduceCtorEq] at hm
          rw [← e2, ← hm]
          exact List.prefix_rfl
        | work w l =>
          obtain ⟨x, hx⟩ : ∃ x, s'.view = { effect text s.view w l with worker := x } := by
            simp only [System.step] at hm
            split at hm <;> try simp only [reduceCtorEq] at hm
            split at hm <;> simp only [Option.some.injEq, reduceCtorEq] at hm
            exact ⟨_, hm.symm⟩
          rw [← e2, hx]
          unfold effect
          split <;> exact List.prefix_rfl
        | requeue n => simpa [System.Label.requeues] using sys_requeues hl
      unfold St.sent
      rw [h1]
      exact (List.prefix_append_right_inj _).2 h2

theorem sent_run (hc : ∀ j, Local (cl j)) {s s' : St κ σ T O ε χ} {ls : List (Label κ ℓ O χ ω)} (hi : Inv s) (h : run cl listens cfg exec text s ls = some s') : s.sent <+: s'.sent := by
  induction ls generalizing s with
  | nil => cases h; exact List.prefix_rfl
  | cons l ls ih =>
    obtain ⟨s1, h1, h2⟩ := Lts.run_cons.1 h
    exact (sent_step hc hi h1).trans (ih (step_inv hc hi h1).1 h2)

end

end SystemMem
end Paladin
