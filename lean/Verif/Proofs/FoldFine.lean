import Verif.Spec.FoldFine
import Verif.Proofs.Lts
import Verif.Proofs.FoldSafe
/-! # Proofs about fold with bounded concurrency -/
namespace Paladin
namespace FoldFine
open Fold (CTask Res takeAt tryDispatch)
variable {comb : ω → α → α → Except ε α} {empty : α} {dupErr : ε}

/-! ## Lists -/

theorem takeAt_of_mem {l : List β} {x : β} (h : x ∈ l) : ∃ k l', takeAt l k = some (x, l') ∧ l.Perm (x :: l') := by
  obtain ⟨k, hk, rfl⟩ := List.getElem_of_mem h
  refine ⟨k, l.eraseIdx k, ?_, ?_⟩
  · simp [takeAt, hk]
  · exact Fold.takeAt_some (k := k) (by simp [takeAt, hk])

theorem takeAt_perm {l m : List β} {k : Nat} {x : β} {m' : List β} (h : takeAt m k = some (x, m')) (p : l.Perm (m ++ n)) :
    ∃ k' l', takeAt l k' = some (x, l') ∧ l'.Perm (m' ++ n) := by
  have hp := Fold.takeAt_some h
  have hp' : l.Perm (x :: (m' ++ n)) := p.trans (hp.append_right n)
  obtain ⟨k', l', h1, h2⟩ := takeAt_of_mem (hp'.symm.subset List.mem_cons_self)
  exact ⟨k', l', h1, (List.perm_cons x).1 (h2.symm.trans hp')⟩

/-! ## The channel and the closures -/

/-- The parked clones belong to closures that wait for them. -/
structure Tidy (parked : List Nat) (L : List (Closure α)) (next : Nat) : Prop where
  nodup : parked.Nodup
  mem : ∀ n ∈ parked, ∃ c ∈ L, c.id = n ∧ c.flush = true
  ids : (L.map (·.id)).Nodup
  lt : ∀ c ∈ L, c.id < next
  waits : ∀ c ∈ L, c.waiting = true

theorem Tidy.perm {parked : List Nat} {L L' : List (Closure α)} {next : Nat} (h : Tidy parked L next) (p : L'.Perm L) : Tidy parked L' next :=
  ⟨h.nodup, fun n hn => by obtain ⟨c, hc, h1⟩ := h.mem n hn; exact ⟨c, p.symm.subset hc, h1⟩, (p.map _).nodup_iff.2 h.ids, fun c hc => h.lt c (p.subset hc), fun c hc => h.waits c (p.subset hc)⟩

theorem Tidy.fresh {parked : List Nat} {L : List (Closure α)} {next : Nat} (h : Tidy parked L next) : next ∉ parked := fun hn => by
  obtain ⟨c, hc, hi, _⟩ := h.mem _ hn
  have := h.lt c hc; omega

theorem Tidy.add {parked : List Nat} {L : List (Closure α)} {next : Nat} (h : Tidy parked L next) (b a : Bool) (x : Option (Seg α)) (hw : (b || a) = true) :
    Tidy (if b then parked ++ [next] else parked) (⟨next, b, a, x⟩ :: L) (next + 1) := by
  have hfr := h.fresh
  constructor
  · split
    · exact List.nodup_append.2 ⟨h.nodup, by simp, by rintro a ha' b hb rfl; simp at hb; subst hb; exact hfr ha'⟩
    · exact h.nodup
  · intro n hn
    have : n ∈ parked ∨ (n = next ∧ b = true) := by
      split at hn
      · rename_i hb
        simp at hn; rcases hn with hn | rfl
        · exact .inl hn
        · exact .inr ⟨rfl, hb⟩
      · exact .inl hn
    rcases this with hn | ⟨rfl, hb⟩
    · obtain ⟨c, hc, h1⟩ := h.mem n hn
      exact ⟨c, List.mem_cons_of_mem _ hc, h1⟩
    · exact ⟨_, List.mem_cons_self, rfl, hb⟩
  · simp only [List.map_cons, List.nodup_cons]
    refine ⟨fun hm => ?_, h.ids⟩
    obtain ⟨c, hc, hi⟩ := List.mem_map.1 hm
    have := h.lt c hc; omega
  · intro c hc
    rcases List.mem_cons.1 hc with rfl | hc
    · simp
    · have := h.lt c hc; omega
  · intro c hc
    rcases List.mem_cons.1 hc with rfl | hc
    · exact hw
    · exact h.waits c hc

/-- A closure is changed, or gone. -/
theorem Tidy.update {parked : List Nat} {L : List (Closure α)} {next : Nat} (h : Tidy parked L next) {g : Closure α → Closure α} (hid : ∀ c, (g c).id = c.id)
    (hfl : ∀ c ∈ L, c.id ∈ parked → (g c).flush = c.flush) : Tidy parked ((L.map g).filter (·.waiting)) next := by
  constructor
  · exact h.nodup
  · intro n hn
    obtain ⟨c, hc, h1, h2⟩ := h.mem n hn
    have hf := hfl c hc (h1 ▸ hn)
    refine ⟨g c, List.mem_filter.2 ⟨List.mem_map_of_mem hc, ?_⟩, (hid c).trans h1, hf.trans h2⟩
    simp [Closure.waiting, hf, h2]
  · have : ((L.map g).map (·.id)) = L.map (·.id) := by simp [hid]
    refine List.Nodup.sublist (List.Sublist.map _ List.filter_sublist) ?_
    rw [this]; exact h.ids
  · intro c hc
    obtain ⟨c', hc', rfl⟩ := List.mem_map.1 (List.mem_filter.1 hc).1
    rw [hid]; exact h.lt c' hc'
  · intro c hc; exact (List.mem_filter.1 hc).2

theorem Tidy.tail {parked : List Nat} {L : List (Closure α)} {next : Nat} (h : Tidy parked L next) : Tidy parked.tail L next :=
  ⟨h.nodup.sublist (List.tail_sublist _), fun n hn => h.mem n (List.mem_of_mem_tail hn), h.ids, h.lt, h.waits⟩

theorem Tidy.length {parked : List Nat} {L : List (Closure α)} {next : Nat} (h : Tidy parked L next) : parked.length ≤ L.length := by
  have := (List.subperm_of_subset h.nodup (l₂ := L.map (·.id)) fun n hn => by
    obtain ⟨c, hc, h1, _⟩ := h.mem n hn
    exact List.mem_map.2 ⟨c, hc, h1⟩).length_le
  simpa using this

structure Inv (s : St α ε) : Prop where
  parked : s.parked.length = s.core.outbox.length - limit
  tidy : Tidy s.parked (s.inits ++ s.ress) s.next
  inits : s.inits.length ≤ limit
  initc : ∀ c ∈ s.inits, c.ack = false ∧ c.fin = none
  ress : s.ress.length ≤ limit
  sending : s.sending.length ≤ limit
  fin : ∀ c ∈ s.ress, c.fin.isSome → c.flush = false ∧ c.ack = true

theorem Inv.core {s : St α ε} (h : Inv s) {f : Fold.St α ε} (hf : f.outbox.length = s.core.outbox.length) : Inv { s with core := f } :=
  { h with parked := by simpa [hf] using h.parked }

theorem inv_init : Inv (init : St α ε) := by
  constructor <;> simp [init, Fold.init]
  constructor <;> simp

/-- What handling an item or a result may add to the channel. -/
theorem dispatch_outbox (f : Fold.St α ε) (x : Seg α) : ∃ add : List (CTask α), add.length ≤ 1 ∧ (tryDispatch f x).outbox = f.outbox ++ add ∧
    ∀ o r, tryDispatch { f with outbox := o, results := r } x = { tryDispatch f x with outbox := o ++ add, results := r } := by
  unfold tryDispatch
  split <;> rename_i h
  · exact ⟨[_], by simp, rfl, fun o r => by simp [h]⟩
  · exact ⟨[], by simp, by simp, fun o r => by simp [h]⟩

theorem item_outbox (f : Fold.St α ε) (i : Nat) (a : α) : ∃ add : List (CTask α), add.length ≤ 1 ∧ (Fold.onItem f i a).outbox = f.outbox ++ add ∧
    ∀ o r, Fold.onItem { f with outbox := o, results := r } i a = { Fold.onItem f i a with outbox := o ++ add, results := r } := by
  unfold Fold.onItem
  split <;> rename_i h
  · exact ⟨[], by simp, by simp, fun o r => by simp [h]⟩
  · obtain ⟨add, h1, h2, h3⟩ := dispatch_outbox { f with count := f.count + 1, notified := true } ⟨i, i, a⟩
    exact ⟨add, h1, h2, fun o r => by simp only [h, if_false]; exact h3 o r⟩

theorem Inv.add {s : St α ε} (h : Inv s) {f : Fold.St α ε} {add : List (CTask α)} (ha : add.length ≤ 1) (hf : f.outbox = s.core.outbox ++ add) :
    (park s (parks s f)).length = f.outbox.length - limit := by
  have hp := h.parked
  have hl : f.outbox.length = s.core.outbox.length + add.length := by simp [hf]
  cases h1 : parks s f <;> simp [parks, park] at h1 ⊢ <;> omega

theorem inv_item {s : St α ε} (h : Inv s) {f : Fold.St α ε} {add : List (CTask α)} (ha : add.length ≤ 1) (hf : f.outbox = s.core.outbox ++ add) (hl : s.inits.length < limit) :
    Inv (onItem s f) := by
  have h1 := h.add ha hf
  unfold onItem
  split
  · rename_i hp
    rw [hp] at h1
    refine { h with parked := h1, tidy := ?_, inits := by simp; omega, initc := ?_ }
    · refine (h.tidy.add true false none rfl).perm ?_
      simp only [List.append_assoc]
      exact List.perm_middle
    · intro c hc
      simp at hc
      rcases hc with hc | rfl
      · exact h.initc c hc
      · exact ⟨rfl, rfl⟩
  · rename_i hp
    simp only [Bool.not_eq_true] at hp
    rw [hp] at h1
    exact { h with parked := h1 }

theorem inv_result {s : St α ε} (h : Inv s) (x : Seg α) (hl : s.ress.length < limit) : Inv (onResult s x) := by
  unfold onResult
  split
  · refine { h with tidy := ?_, ress := by simp; omega, fin := ?_ }
    · refine (h.tidy.add false true (some x) rfl).perm ?_
      rw [← List.append_assoc]
      exact List.perm_append_comm
    · intro c hc hf
      simp at hc
      rcases hc with hc | rfl
      · exact h.fin c hc hf
      · exact ⟨rfl, rfl⟩
  · obtain ⟨add, ha, hf, _⟩ := dispatch_outbox s.core x
    refine { h with parked := h.add ha hf, tidy := ?_, ress := by simp; omega, fin := ?_ }
    · refine (h.tidy.add (parks s (tryDispatch s.core x)) true none (by simp)).perm ?_
      rw [← List.append_assoc]
      exact List.perm_append_comm
    · intro c hc hf
      simp at hc
      rcases hc with hc | rfl
      · exact h.fin c hc hf
      · simp at hf

theorem inv_flush {s : St α ε} (h : Inv s) {n : Nat} (hn : n ∉ s.parked) : Inv { s with inits := flush n s.inits, ress := flush n s.ress } := by
  have key : ∀ l : List (Closure α), ∀ c ∈ flush n l, ∃ c' ∈ l, c'.ack = c.ack ∧ c'.fin = c.fin ∧ (c'.flush = false → c.flush = false) := by
    intro l c hc
    obtain ⟨c', hc', rfl⟩ := List.mem_map.1 (List.mem_filter.1 hc).1
    refine ⟨c', hc', ?_⟩
    split <;> simp
  refine { h with tidy := ?_, inits := ?_, initc := ?_, ress := ?_, fin := ?_ }
  · have := h.tidy.update (g := fun c => if c.id = n then { c with flush := false } else c) (fun c => by split <;> rfl) (fun c _ hc => by
      rw [if_neg]; rintro rfl; exact hn hc)
    simpa [flush, List.map_append, List.filter_append] using this
  · exact Nat.le_trans (List.length_filter_le _ _) (by simpa using h.inits)
  · intro c hc
    obtain ⟨c', hc', h1, h2, _⟩ := key _ c hc
    rw [← h1, ← h2]; exact h.initc c' hc'
  · exact Nat.le_trans (List.length_filter_le _ _) (by simpa using h.ress)
  · intro c hc hf
    obtain ⟨c', hc', h1, h2, h3⟩ := key _ c hc
    have := h.fin c' hc' (by rw [h2]; exact hf)
    exact ⟨h3 this.1, h1 ▸ this.2⟩

theorem ack_noop {n : Nat} {l : List (Closure α)} (h : ∀ c ∈ l, c.ack = false) (hw : ∀ c ∈ l, c.waiting = true) : ack n l = l := by
  have : (l.map fun c => if c.id = n then { c with ack := false } else c) = l := by
    conv => rhs; rw [← List.map_id l]
    refine List.map_congr_left fun c hc => ?_
    have := h c hc
    cases c; simp at this; subst this; simp
  unfold ack; rw [this]
  exact List.filter_eq_self.2 hw

theorem inv_ack {s : St α ε} (h : Inv s) (n : Nat) : Inv { s with ress := ack n s.ress } := by
  have key : ∀ c ∈ ack n s.ress, ∃ c' ∈ s.ress, c'.id = c.id ∧ c'.flush = c.flush ∧ c'.fin = c.fin ∧ (c'.ack = c.ack ∨ c.flush = true) := by
    intro c hc
    have hw := (List.mem_filter.1 hc).2
    obtain ⟨c', hc', rfl⟩ := List.mem_map.1 (List.mem_filter.1 hc).1
    refine ⟨c', hc', ?_⟩
    split
    · rename_i he
      simp only [Closure.waiting, he, if_true, Bool.or_false] at hw
      exact ⟨rfl, rfl, rfl, .inr hw⟩
    · simp
  refine { h with tidy := ?_, ress := ?_, fin := ?_ }
  · have := h.tidy.update (g := fun c => if c.id = n then { c with ack := false } else c) (fun c => by split <;> rfl) (fun c _ hc => by split <;> rfl)
    rw [List.map_append, List.filter_append] at this
    have h2 : ack n s.inits = s.inits := ack_noop (fun c hc => (h.initc c hc).1) (fun c hc => h.tidy.waits c (by simp [hc]))
    unfold ack at h2
    rw [h2] at this
    exact this
  · exact Nat.le_trans (List.length_filter_le _ _) (by simpa using h.ress)
  · intro c hc hf
    obtain ⟨c', hc', _, h1, h2, h3⟩ := key c hc
    obtain ⟨g1, g2⟩ := h.fin c' hc' (by rw [h2]; exact hf)
    rcases h3 with h3 | h3
    · exact ⟨h1 ▸ g1, h3 ▸ g2⟩
    · rw [← h1, g1] at h3; simp at h3

theorem sendFinal_outbox (f : Fold.St α ε) (x : Option (Seg α)) : (sendFinal dupErr f x).outbox = f.outbox := by
  unfold sendFinal; split
  · rfl
  · split <;> rfl

/-- Steps other than the handling of items and results leave the channel alone. -/
theorem step_outbox {f f' : Fold.St α ε} {l : Fold.Label α ε ω} (h : Fold.step comb empty dupErr f l = some f')
    (hl : ∀ k i a, l ≠ .publish k ∧ l ≠ .recv k ∧ l ≠ .item i a) : f'.outbox = f.outbox := by
  have hs := Fold.stepR_of_step h
  cases hs with
  | item i a hs => exact absurd rfl (hl 0 i a).2.2
  | publish k t rest hp => exact absurd rfl (hl k 0 (t.a)).1
  | recv k r rest hn hp => exact absurd rfl (hl k 0 empty).2.1
  | inputEnd hs =>
    unfold Fold.onInputEnd; simp only; split
    · rfl
    · split <;> rfl
    · rfl
  | _ => rfl

theorem inv_step {s s' : St α ε} {l : Label α ε ω} (h : Inv s) (hs : step comb empty dupErr s l = some s') : Inv s' := by
  unfold step at hs
  split at hs
  · simp at hs
  split at hs
  · simp at hs
  · split at hs
    · rename_i i a hl
      obtain ⟨f, h1, rfl⟩ := Option.map_eq_some_iff.1 hs
      obtain ⟨add, ha, hf, _⟩ := item_outbox s.core i a
      have : f = Fold.onItem s.core i a := by
        simp only [Fold.step] at h1
        split at h1
        · simp at h1
        · split at h1
          · simp at h1
          · simpa using h1.symm
      subst this
      exact inv_item h ha hf hl
    · simp at hs
  · split at hs
    · obtain ⟨f, h1, rfl⟩ := Option.map_eq_some_iff.1 hs
      exact h.core (by rw [step_outbox h1 (by simp)])
    · simp at hs
  · split at hs
    · obtain ⟨f, h1, rfl⟩ := Option.map_eq_some_iff.1 hs
      exact h.core (by rw [step_outbox h1 (by simp)])
    · simp at hs
  · split at hs
    · rename_i hl
      split at hs <;> try simp only [reduceCtorEq] at hs
      · simp at hs; subst hs
        refine inv_result ?_ _ hl.1
        exact h.core rfl
      · simp at hs; subst hs
        exact h.core rfl
    · simp at hs
  · split at hs
    · obtain ⟨f, h1, rfl⟩ := Option.map_eq_some_iff.1 hs
      exact h.core (by rw [step_outbox h1 (by simp)])
    · simp at hs
  · rename_i l h1 h2 h3 h4 h5 h6
    obtain ⟨f, h1', rfl⟩ := Option.map_eq_some_iff.1 hs
    exact h.core (by rw [step_outbox h1' (fun k i a => ⟨fun e => h1 k (e ▸ rfl), fun e => h5 k (e ▸ rfl), fun e => h2 i a (e ▸ rfl)⟩)])
  · split at hs
    · rename_i t rest he
      split at hs
      · rename_i hl
        simp at hs; subst hs
        refine { h with parked := ?_, tidy := h.tidy.tail, sending := by simp; omega }
        have := h.parked
        simp [he] at this ⊢
        omega
      · simp at hs
    · simp at hs
  · split at hs
    · rename_i t rest he
      simp at hs; subst hs
      refine { h with sending := ?_ }
      have := (Fold.takeAt_some he).length_eq
      have := h.sending
      simp at this ⊢; simp_all; omega
    · simp at hs
  · split at hs
    · rename_i hc
      simp at hs; subst hs
      exact inv_flush h hc.2
    · simp at hs
  · split at hs
    · simp at hs; subst hs
      exact (inv_ack h _).core (by simp only [sendFinal_outbox])
    · simp at hs

theorem inv_run {s : St α ε} {ls : List (Label α ε ω)} (h : run comb empty dupErr init ls = some s) : Inv s :=
  Lts.run_inv inv_init (fun _ _ _ h1 h2 => inv_step h1 h2) h

/-! ## Final results in hand -/

/-- The final results whose acknowledgement is awaited. -/
def finals (l : List (Closure α)) : List (Seg α) := l.filterMap (·.fin)

theorem finals_flush {n : Nat} {l : List (Closure α)} (h : ∀ c ∈ l, c.fin.isSome → c.flush = false ∧ c.ack = true) : finals (flush n l) = finals l := by
  induction l with
  | nil => rfl
  | cons c l ih =>
    have ih := ih fun c hc => h c (List.mem_cons_of_mem _ hc)
    have hc := h c List.mem_cons_self
    have e1 : (if c.id = n then { c with flush := false } else c).fin = c.fin := by split <;> rfl
    have e2 : c.fin.isSome → (if c.id = n then { c with flush := false } else c).waiting = true := fun hf => by
      obtain ⟨h1, h2⟩ := hc hf
      split <;> simp [Closure.waiting, h1, h2]
    unfold finals flush at *
    rw [List.map_cons]
    generalize (if c.id = n then { c with flush := false } else c) = d at e1 e2 ⊢
    rw [List.filter_cons]
    split
    · rw [List.filterMap_cons, List.filterMap_cons, ih, e1]
    · rename_i hw
      rw [ih]
      have : c.fin = none := by
        cases hf : c.fin with
        | none => rfl
        | some x => exact absurd (e2 (by simp [hf])) hw
      rw [List.filterMap_cons_none this]

theorem finals_ack {n : Nat} {l : List (Closure α)} (h : ∀ c ∈ l, c.fin.isSome → c.flush = false ∧ c.ack = true) (hw : ∀ c ∈ l, c.waiting = true)
    (hid : (l.map (·.id)).Nodup) {c : Closure α} (hc : c ∈ l) (hn : c.id = n) : (finals l).Perm (c.fin.toList ++ finals (ack n l)) := by
  induction l with
  | nil => simp at hc
  | cons d l ih =>
    simp only [List.map_cons, List.nodup_cons] at hid
    have hd := h d List.mem_cons_self
    have hwd := hw d List.mem_cons_self
    have h' : ∀ c ∈ l, c.fin.isSome → c.flush = false ∧ c.ack = true := fun c hc => h c (List.mem_cons_of_mem _ hc)
    have hw' : ∀ c ∈ l, c.waiting = true := fun c hc => hw c (List.mem_cons_of_mem _ hc)
    rcases List.mem_cons.1 hc with rfl | hc
    · have hl : ack n l = l := by
        unfold ack
        have : (l.map fun c => if c.id = n then { c with ack := false } else c) = l := by
          conv => rhs; rw [← List.map_id l]
          refine List.map_congr_left fun d hd => ?_
          rw [if_neg]; · rfl
          intro he
          exact hid.1 (List.mem_map.2 ⟨d, hd, he.trans hn.symm⟩)
        rw [this]; exact List.filter_eq_self.2 hw'
      unfold ack at hl
      unfold finals ack
      rw [List.map_cons, List.filter_cons, if_pos hn, hl]
      cases hf : c.fin with
      | none =>
        rw [List.filterMap_cons_none hf]
        split
        · rw [List.filterMap_cons_none (by simpa using hf)]; simp
        · simp
      | some x =>
        obtain ⟨h1, _⟩ := hd (by simp [hf])
        rw [List.filterMap_cons_some hf, if_neg (by simp [Closure.waiting, h1])]
        simp
    · have hne : d.id ≠ n := fun he => hid.1 (List.mem_map.2 ⟨c, hc, hn.trans he.symm⟩)
      have ih := ih h' hw' hid.2 hc
      have e : ack n (d :: l) = d :: ack n l := by
        unfold ack
        rw [List.map_cons, List.filter_cons, if_neg hne, if_pos hwd]
      rw [e]
      unfold finals at ih ⊢
      cases hf : d.fin with
      | none => rw [List.filterMap_cons_none hf, List.filterMap_cons_none hf]; exact ih
      | some x =>
        rw [List.filterMap_cons_some hf, List.filterMap_cons_some hf]
        exact (ih.cons x).trans List.perm_middle.symm

/-- Final results were received, and they are final. -/
def FinOk (s : St α ε) : Prop := ∀ x ∈ finals s.ress, s.core.notified = true ∧ ∃ n, s.core.size = some n ∧ x.isFinal n = true

theorem fold_mono {f f' : Fold.St α ε} {l : Fold.Label α ε ω} (h : Fold.step comb empty dupErr f l = some f') :
    (f.notified = true → f'.notified = true) ∧ ∀ n, f.size = some n → f'.size = some n := by
  have hs := Fold.stepR_of_step h
  cases hs with
  | item i a hs =>
    refine ⟨fun hn => ?_, by simp [hs]⟩
    unfold Fold.onItem; simp only; split
    · exact hn
    · rw [(Fold.tryDispatch_fields _ _).2.2.1]
  | inputEnd hs =>
    refine ⟨fun hn => ?_, by simp [hs]⟩
    unfold Fold.onInputEnd; simp only; split
    · exact hn
    · split <;> exact hn
    · exact hn
  | recv k r rest hn hp =>
    have : ∀ x, (tryDispatch { f with results := rest } x).notified = f.notified ∧ (tryDispatch { f with results := rest } x).size = f.size :=
      fun x => ⟨(Fold.tryDispatch_fields _ _).2.2.1, (Fold.tryDispatch_fields _ _).2.1⟩
    unfold Fold.onResult
    split
    · exact ⟨id, fun _ => id⟩
    · rename_i x
      simp only
      split
      · split
        · split <;> exact ⟨id, fun _ => id⟩
        · exact ⟨fun h => (this x).1.trans h, fun n h => (this x).2.trans h⟩
      · exact ⟨fun h => (this x).1.trans h, fun n h => (this x).2.trans h⟩
  | _ => exact ⟨id, fun _ => id⟩

theorem FinOk.mono {s s' : St α ε} (h : FinOk s) (h1 : s.core.notified = true → s'.core.notified = true) (h2 : ∀ n, s.core.size = some n → s'.core.size = some n)
    (h3 : ∀ x ∈ finals s'.ress, x ∈ finals s.ress) : FinOk s' := fun x hx => by
  obtain ⟨g1, n, g2, g3⟩ := h x (h3 x hx)
  exact ⟨h1 g1, n, h2 n g2, g3⟩

theorem FinOk.core {s : St α ε} (h : FinOk s) {f : Fold.St α ε} {l : Fold.Label α ε ω} (hs : Fold.step comb empty dupErr s.core l = some f) : FinOk { s with core := f } :=
  h.mono (fold_mono hs).1 (fold_mono hs).2 fun _ => id

theorem finOk_step {s s' : St α ε} {l : Label α ε ω} (hi : Inv s) (h : FinOk s) (hs : step comb empty dupErr s l = some s') : FinOk s' := by
  unfold step at hs
  split at hs
  · simp at hs
  split at hs
  · simp at hs
  · split at hs
    · obtain ⟨f, h1, rfl⟩ := Option.map_eq_some_iff.1 hs
      unfold onItem
      split
      · exact (h.core h1).mono id (fun _ => id) fun _ => id
      · exact h.core h1
    · simp at hs
  · split at hs
    · obtain ⟨f, h1, rfl⟩ := Option.map_eq_some_iff.1 hs
      exact h.core h1
    · simp at hs
  · split at hs
    · obtain ⟨f, h1, rfl⟩ := Option.map_eq_some_iff.1 hs
      exact h.core h1
    · simp at hs
  · split at hs
    · rename_i hl
      split at hs <;> try simp only [reduceCtorEq] at hs
      · simp at hs; subst hs
        unfold onResult
        split
        · rename_i hf
          intro x hx
          simp only [finals, List.filterMap_append, List.mem_append] at hx
          rcases hx with hx | hx
          · exact h x hx
          · simp at hx; subst hx
            obtain ⟨n, h1, h2⟩ := (Option.any_eq_true _ _).1 hf
            exact ⟨hl.2, n, h1, h2⟩
        · refine h.mono (fun hn => ?_) (fun n hn => ?_) fun x hx => ?_
          · exact (Fold.tryDispatch_fields _ _).2.2.1.trans hn
          · exact (Fold.tryDispatch_fields _ _).2.1.trans hn
          · simpa [finals, List.filterMap_append] using hx
      · simp at hs; subst hs
        exact h.mono id (fun _ => id) fun _ => id
    · simp at hs
  · split at hs
    · obtain ⟨f, h1, rfl⟩ := Option.map_eq_some_iff.1 hs
      exact h.core h1
    · simp at hs
  · obtain ⟨f, h1, rfl⟩ := Option.map_eq_some_iff.1 hs
    exact h.core h1
  · split at hs
    · split at hs
      · simp at hs; subst hs
        exact h.mono id (fun _ => id) fun _ => id
      · simp at hs
    · simp at hs
  · split at hs
    · simp at hs; subst hs
      exact h.mono id (fun _ => id) fun _ => id
    · simp at hs
  · split at hs
    · simp at hs; subst hs
      exact h.mono id (fun _ => id) fun x hx => by rwa [finals_flush hi.fin] at hx
    · simp at hs
  · split at hs
    · rename_i n _ c hc
      simp at hs; subst hs
      have hc' := List.find?_some hc
      simp at hc'
      have hp := finals_ack (n := n) hi.fin (fun c hc => hi.tidy.waits c (by simp [hc])) (List.Nodup.sublist (List.Sublist.map _ (List.sublist_append_right _ _)) hi.tidy.ids)
        (List.mem_of_find?_eq_some hc) hc'.1
      refine h.mono (fun hn => ?_) (fun n hn => ?_) fun x hx => hp.symm.subset (by simp [hx])
      · unfold sendFinal; split
        · exact hn
        · split <;> exact hn
      · unfold sendFinal; split
        · exact hn
        · split <;> exact hn
    · simp at hs

/-! ## The executions are executions without limits -/

/-- The same state, with what is being published and the final results in hand counted among what waits. -/
def Sim (s : St α ε) (a : Fold.St α ε) : Prop :=
  ∃ o r, a = { s.core with outbox := o, results := r } ∧ o.Perm (s.core.outbox ++ s.sending) ∧ r.Perm (s.core.results ++ (finals s.ress).map Res.ok)

theorem sim_init : Sim (init : St α ε) Fold.init := ⟨[], [], rfl, .refl _, .refl _⟩

theorem run_one {s s' : Fold.St α ε} {l : Fold.Label α ε ω} (h : Fold.step comb empty dupErr s l = some s') : Fold.run comb empty dupErr s [l] = some s' := by
  simp [Fold.run, h]

def plain : Fold.Label α ε ω → Bool
  | .publish _ | .recv _ | .item _ _ | .exec _ _ | .loseResult _ | .dupResult _ => false
  | _ => true

/-- Steps that look neither at the channel nor at the results. -/
theorem sim_same {f f' : Fold.St α ε} {l : Fold.Label α ε ω} (h : Fold.step comb empty dupErr f l = some f') (o : List (CTask α)) (r : List (Res α ε))
    (hl : plain l = true) :
    ∃ a', Fold.step comb empty dupErr { f with outbox := o, results := r } l = some a' ∧ a' = { f' with outbox := o, results := r } := by
  unfold Fold.step at h ⊢
  split at h
  · simp at h
  rename_i hout
  simp only [hout, if_false, Bool.false_eq_true]
  cases l with
  | item i a => simp [plain] at hl
  | publish k => simp [plain] at hl
  | recv k => simp [plain] at hl
  | exec k w => simp [plain] at hl
  | loseResult k => simp [plain] at hl
  | dupResult k => simp [plain] at hl
  | inputEnd =>
    simp only at h ⊢
    split at h
    · simp at h
    · simp at h; subst h
      rename_i hsz
      refine ⟨_, if_neg hsz, ?_⟩
      unfold Fold.onInputEnd
      simp only
      split
      · rfl
      · split <;> rfl
      · rfl
  | _ =>
    simp only at h ⊢
    first
      | (split at h <;> first | (simp at h; done) | (simp at h; subst h; rename_i hc; simp_all; done))
      | (simp at h; subst h; exact ⟨_, rfl, rfl⟩)

theorem step_results {f f' : Fold.St α ε} {l : Fold.Label α ε ω} (h : Fold.step comb empty dupErr f l = some f')
    (hl : plain l = true) : f'.results = f.results := by
  have hs := Fold.stepR_of_step h
  cases hs with
  | inputEnd hs =>
    unfold Fold.onInputEnd; simp only; split
    · rfl
    · split <;> rfl
    · rfl
  | item i a hs => simp [plain] at hl
  | publish k t rest hp => simp [plain] at hl
  | recv k r rest hn hp => simp [plain] at hl
  | exec k w t rest hp => simp [plain] at hl
  | loseResult k r rest hp => simp [plain] at hl
  | dupResult k r hm => simp [plain] at hl
  | _ => rfl

theorem sim_step {s s' : St α ε} {l : Label α ε ω} {a : Fold.St α ε} (hi : Inv s) (hf : FinOk s) (h : Sim s a) (hs : step comb empty dupErr s l = some s') :
    ∃ as a', Fold.run comb empty dupErr a as = some a' ∧ Sim s' a' ∧ as.filterMap seen = (folds [l]).filterMap seen ∧
      Fold.recvs as + (finals s'.ress).length = Fold.recvs (folds [l]) + (finals s.ress).length := by
  obtain ⟨o, r, rfl, ho, hr⟩ := h
  unfold step at hs
  split at hs
  · simp at hs
  rename_i hout
  split at hs
  · simp at hs
  · rename_i i x
    split at hs
    · obtain ⟨f, h1, rfl⟩ := Option.map_eq_some_iff.1 hs
      obtain ⟨add, _, h2, h3⟩ := item_outbox s.core i x
      simp only [Fold.step, hout] at h1
      split at h1
      · rename_i hc; simp at hc
      split at h1
      · simp at h1
      rename_i hsz
      simp at h1; subst h1
      refine ⟨[.item i x], _, run_one (s' := Fold.onItem { s.core with outbox := o, results := r } i x) ?_, ?_, rfl, ?_⟩
      · simp [Fold.step, hout]; simpa using hsz
      · have hc : (onItem s (Fold.onItem s.core i x)).core = Fold.onItem s.core i x := by unfold onItem; split <;> rfl
        have hse : (onItem s (Fold.onItem s.core i x)).sending = s.sending := by unfold onItem; split <;> rfl
        have hre : (onItem s (Fold.onItem s.core i x)).ress = s.ress := by unfold onItem; split <;> rfl
        refine ⟨o ++ add, r, (h3 o r).trans (by rw [hc]), ?_, ?_⟩
        · rw [hc, hse, h2, List.append_assoc]
          refine (ho.append_right add).trans ?_
          rw [List.append_assoc]
          exact List.perm_append_comm.append_left _
        · rw [hc, hre]
          have : (Fold.onItem s.core i x).results = s.core.results := by
            unfold Fold.onItem; simp only; split
            · rfl
            · exact (Fold.tryDispatch_fields _ _).2.2.2.2.1
          rw [this]; exact hr
      · have hre : (onItem s (Fold.onItem s.core i x)).ress = s.ress := by unfold onItem; split <;> rfl
        rw [hre]; rfl
    · simp at hs
  · split at hs
    · obtain ⟨f, h1, rfl⟩ := Option.map_eq_some_iff.1 hs
      obtain ⟨a', h2, h3⟩ := sim_same h1 o r rfl
      exact ⟨[_], a', run_one h2, ⟨o, r, h3, by simpa [step_outbox h1 (by simp)] using ho, by simpa [step_results h1 rfl] using hr⟩, rfl, rfl⟩
    · simp at hs
  · split at hs
    · obtain ⟨f, h1, rfl⟩ := Option.map_eq_some_iff.1 hs
      obtain ⟨a', h2, h3⟩ := sim_same h1 o r rfl
      exact ⟨[_], a', run_one h2, ⟨o, r, h3, by simpa [step_outbox h1 (by simp)] using ho, by simpa [step_results h1 rfl] using hr⟩, rfl, rfl⟩
    · simp at hs
  · rename_i k
    split at hs
    · rename_i hl
      split at hs <;> try simp only [reduceCtorEq] at hs
      · rename_i x rest ht
        simp at hs; subst hs
        obtain ⟨k', r', h1, h2⟩ := takeAt_perm ht hr
        unfold onResult
        split
        · refine ⟨[], _, rfl, ⟨o, r, rfl, ho, ?_⟩, rfl, ?_⟩
          · refine hr.trans ?_
            simp only [finals, List.filterMap_append, List.map_append]
            refine ((Fold.takeAt_some ht).append_right _).trans ?_
            have := List.perm_append_comm (l₁ := [Res.ok x]) (l₂ := rest ++ (finals s.ress).map Res.ok)
            rw [List.append_assoc (as := rest)] at this
            simpa [finals] using this
          · simp [finals, List.filterMap_append, folds, Fold.recvs]
            omega
        · rename_i hnf
          simp only at hnf
          obtain ⟨add, _, g2, g3⟩ := dispatch_outbox { s.core with results := rest } x
          refine ⟨[.recv k'], tryDispatch { s.core with outbox := o, results := r' } x, run_one ?_, ⟨o ++ add, r', g3 o r', ?_, ?_⟩, rfl, ?_⟩
          · simp only [Fold.step, hl.2, h1, hout]
            simp only [Bool.not_true, Bool.false_eq_true, if_false, Option.some.injEq]
            unfold Fold.onResult
            cases hsz : s.core.size with
            | none => simp [hsz]
            | some n =>
              simp [hsz] at hnf
              simp [hsz, hnf]
          · simp only [g2]
            rw [List.append_assoc]
            refine (ho.append_right add).trans ?_
            rw [List.append_assoc]
            exact List.perm_append_comm.append_left _
          · simp only [(Fold.tryDispatch_fields _ _).2.2.2.2.1, finals, List.filterMap_append]
            simpa [finals] using h2
          · simp [finals, List.filterMap_append, folds, Fold.recvs]
      · rename_i e rest ht
        simp at hs; subst hs
        obtain ⟨k', r', h1, h2⟩ := takeAt_perm ht hr
        refine ⟨[.recv k'], { s.core with outbox := o, results := r', outcome := some (.err e) }, run_one ?_, ⟨o, r', rfl, ho, h2⟩, rfl, rfl⟩
        simp [Fold.step, hl.2, h1, hout, Fold.onResult]
    · simp at hs
  · split at hs
    · obtain ⟨f, h1, rfl⟩ := Option.map_eq_some_iff.1 hs
      obtain ⟨a', h2, h3⟩ := sim_same h1 o r rfl
      exact ⟨[_], a', run_one h2, ⟨o, r, h3, by simpa [step_outbox h1 (by simp)] using ho, by simpa [step_results h1 rfl] using hr⟩, rfl, rfl⟩
    · simp at hs
  · rename_i l h1 h2 h3 h4 h5 h6
    obtain ⟨f, h7, rfl⟩ := Option.map_eq_some_iff.1 hs
    have hro : l ≠ .publish 0 := fun e => h1 0 (e ▸ rfl)
    cases l with
    | item i a => exact absurd rfl (h2 i a)
    | inputErr e => exact absurd rfl (h3 e)
    | inputEnd => exact absurd rfl h4
    | recv k => exact absurd rfl (h5 k)
    | disconnect => exact absurd rfl h6
    | publish k => exact absurd rfl (h1 k)
    | exec k w =>
      simp only [Fold.step, hout] at h7
      simp only [Bool.false_eq_true, if_false] at h7
      split at h7
      · rename_i t rest ht
        simp at h7; subst h7
        refine ⟨[.exec k w], _, run_one (s' := { s.core with outbox := o, tasks := rest, results := r ++ [Fold.execute comb w t] }) ?_, ⟨o, _, rfl, ho, ?_⟩, rfl, rfl⟩
        · simp [Fold.step, hout, ht]
        · refine (hr.append_right _).trans ?_
          simp only [List.append_assoc]
          exact List.perm_append_comm.append_left _
      · simp at h7
    | loseResult k =>
      simp only [Fold.step, hout] at h7
      simp only [Bool.false_eq_true, if_false] at h7
      split at h7
      · rename_i x rest ht
        simp at h7; subst h7
        obtain ⟨k', r', g1, g2⟩ := takeAt_perm ht hr
        refine ⟨[.loseResult k'], { s.core with outbox := o, results := r' }, run_one ?_, ⟨o, r', rfl, ho, g2⟩, rfl, rfl⟩
        simp [Fold.step, hout, g1]
      · simp at h7
    | dupResult k =>
      simp only [Fold.step, hout] at h7
      simp only [Bool.false_eq_true, if_false] at h7
      split at h7
      · rename_i x hx
        simp at h7; subst h7
        have hm : x ∈ r := hr.symm.subset (List.mem_append_left _ (List.mem_of_getElem? hx))
        obtain ⟨k', hk'⟩ := List.getElem?_of_mem hm
        refine ⟨[.dupResult k'], { s.core with outbox := o, results := r ++ [x] }, run_one ?_, ⟨o, _, rfl, ho, ?_⟩, rfl, rfl⟩
        · simp [Fold.step, hout, hk']
        · refine (hr.append_right _).trans ?_
          simp only [List.append_assoc]
          exact List.perm_append_comm.append_left _
      · simp at h7
    | ioErr e =>
      obtain ⟨a', g2, g3⟩ := sim_same h7 o r rfl
      exact ⟨[_], a', run_one g2, ⟨o, r, g3, by simpa [step_outbox h7 (by simp)] using ho, by simpa [step_results h7 rfl] using hr⟩, rfl, rfl⟩
    | finish =>
      obtain ⟨a', g2, g3⟩ := sim_same h7 o r rfl
      exact ⟨[_], a', run_one g2, ⟨o, r, g3, by simpa [step_outbox h7 (by simp)] using ho, by simpa [step_results h7 rfl] using hr⟩, rfl, rfl⟩
    | loseTask k =>
      obtain ⟨a', g2, g3⟩ := sim_same h7 o r rfl
      exact ⟨[_], a', run_one g2, ⟨o, r, g3, by simpa [step_outbox h7 (by simp)] using ho, by simpa [step_results h7 rfl] using hr⟩, rfl, rfl⟩
    | dupTask k =>
      obtain ⟨a', g2, g3⟩ := sim_same h7 o r rfl
      exact ⟨[_], a', run_one g2, ⟨o, r, g3, by simpa [step_outbox h7 (by simp)] using ho, by simpa [step_results h7 rfl] using hr⟩, rfl, rfl⟩
  · split at hs
    · rename_i t rest he
      split at hs
      · simp at hs; subst hs
        refine ⟨[], _, rfl, ⟨o, r, rfl, ?_, hr⟩, rfl, rfl⟩
        refine ho.trans ?_
        rw [he]
        simp only [List.cons_append]
        refine (List.perm_append_singleton t (rest ++ s.sending)).symm.trans ?_
        rw [List.append_assoc]
      · simp at hs
    · simp at hs
  · split at hs
    · rename_i t rest ht
      simp at hs; subst hs
      obtain ⟨k', o', g1, g2⟩ := takeAt_perm ht (ho.trans List.perm_append_comm)
      refine ⟨[.publish k'], { s.core with outbox := o', tasks := s.core.tasks ++ [t], results := r }, run_one ?_, ⟨o', r, rfl, g2.trans List.perm_append_comm, hr⟩, rfl, rfl⟩
      simp [Fold.step, hout, g1]
    · simp at hs
  · split at hs
    · simp at hs; subst hs
      exact ⟨[], _, rfl, ⟨o, r, rfl, ho, by simpa [finals_flush hi.fin] using hr⟩, rfl, by simp [finals_flush hi.fin]; rfl⟩
    · simp at hs
  · split at hs
    · rename_i n _ c hc
      simp at hs; subst hs
      have hc' := List.find?_some hc
      simp at hc'
      have hp := finals_ack (n := n) hi.fin (fun c hc => hi.tidy.waits c (by simp [hc])) (List.Nodup.sublist (List.Sublist.map _ (List.sublist_append_right _ _)) hi.tidy.ids)
        (List.mem_of_find?_eq_some hc) hc'.1
      cases hcf : c.fin with
      | none =>
        rw [hcf] at hp
        simp at hp
        refine ⟨[], _, rfl, ⟨o, r, rfl, ho, hr.trans ((hp.map _).append_left _)⟩, rfl, ?_⟩
        simp [hp.length_eq]; rfl
      | some x =>
        rw [hcf] at hp
        simp at hp
        obtain ⟨hn, m, hm1, hm2⟩ := hf x (hp.symm.subset List.mem_cons_self)
        have hr' : r.Perm ([Res.ok x] ++ (s.core.results ++ (finals (ack n s.ress)).map Res.ok)) := by
          refine (hr.trans ((hp.map _).append_left _)).trans ?_
          simp only [List.map_cons, List.singleton_append]
          exact List.perm_middle
        obtain ⟨k', r', g1, g2⟩ := takeAt_perm (m := [Res.ok x]) (k := 0) (m' := []) rfl hr'
        have e : Fold.onResult dupErr { s.core with outbox := o, results := r' } (.ok x) = { sendFinal dupErr s.core (some x) with outbox := o, results := r' } := by
          unfold Fold.onResult sendFinal
          simp only [hm1, hm2, if_true]
          split <;> rename_i hfin
          · simp [hfin]
          · simp [hfin]
        refine ⟨[.recv k'], _, run_one (s' := Fold.onResult dupErr { s.core with outbox := o, results := r' } (.ok x)) ?_, ⟨o, r', e, ?_, ?_⟩, rfl, ?_⟩
        · simp [Fold.step, hout, hn, g1]
        · simpa [sendFinal_outbox] using ho
        · have : (sendFinal dupErr s.core (some x)).results = s.core.results := by
            unfold sendFinal; simp only; split <;> rfl
          simpa [this] using g2
        · simp [hp.length_eq, Fold.recvs, folds]; omega
    · simp at hs

theorem finOk_run {s : St α ε} {ls : List (Label α ε ω)} (h : run comb empty dupErr init ls = some s) : FinOk s :=
  (Lts.run_inv (P := fun s => Inv s ∧ FinOk s) ⟨inv_init, fun x hx => by simp [finals, init] at hx⟩ (fun _ _ _ h1 h2 => ⟨inv_step h1.1 h2, finOk_step h1.1 h1.2 h2⟩) h).2

theorem recvs_append (a b : List (Fold.Label α ε ω)) : Fold.recvs (a ++ b) = Fold.recvs a + Fold.recvs b := by
  induction a with
  | nil => simp [Fold.recvs]
  | cons x a ih => cases x <;> simp [Fold.recvs, ih] <;> omega

theorem folds_cons (l : Label α ε ω) (ls : List (Label α ε ω)) : folds (l :: ls) = folds [l] ++ folds ls := by
  rw [folds, ← List.singleton_append, List.filterMap_append]; rfl

theorem folds_append (ls ls' : List (Label α ε ω)) : folds (ls ++ ls') = folds ls ++ folds ls' := by
  simp [folds, List.filterMap_append]

/-- Every execution from `s` is one without limits from any state like `s`. -/
theorem sim_run {ls : List (Label α ε ω)} : ∀ {s s' : St α ε} {a : Fold.St α ε}, Inv s → FinOk s → Sim s a → run comb empty dupErr s ls = some s' →
    ∃ as a', Fold.run comb empty dupErr a as = some a' ∧ Sim s' a' ∧ as.filterMap seen = (folds ls).filterMap seen ∧
      Fold.recvs as + (finals s'.ress).length = Fold.recvs (folds ls) + (finals s.ress).length := by
  induction ls with
  | nil =>
    intro s s' a hi hf h hs
    simp at hs; subst hs
    exact ⟨[], a, rfl, h, rfl, rfl⟩
  | cons l ls ih =>
    intro s s' a hi hf h hs
    obtain ⟨s1, h1, h2⟩ := Lts.run_cons.1 hs
    obtain ⟨as1, a1, g1, g2, g3, g4⟩ := sim_step hi hf h h1
    obtain ⟨as2, a2, k1, k2, k3, k4⟩ := ih (inv_step hi h1) (finOk_step hi hf h1) g2 h2
    refine ⟨as1 ++ as2, a2, ?_, k2, ?_, ?_⟩
    · rw [Fold.run_append, g1]; exact k1
    · rw [List.filterMap_append, g3, k3, folds_cons l ls, List.filterMap_append]
    · rw [recvs_append, folds_cons l ls, recvs_append]; omega

theorem inputs_seen (ls : List (Fold.Label α ε ω)) : Fold.inputs ls = Fold.inputs (ls.filterMap seen) := by
  induction ls with
  | nil => rfl
  | cons l ls ih => cases l <;> simp [Fold.inputs, seen, ih, List.filterMap_cons]

theorem reliable_seen {as ls : List (Fold.Label α ε ω)} (h : as.filterMap seen = ls.filterMap seen) (hr : ∀ l ∈ ls, l.reliable = true) : ∀ l ∈ as, l.reliable = true := by
  intro l hl
  have key : ∀ l : Fold.Label α ε ω, (seen l = none → l.reliable = true) ∧ ∀ l', seen l = some l' → l'.reliable = l.reliable := by
    intro l; cases l <;> simp [seen, Fold.Label.reliable]
  cases hs : seen l with
  | none => exact (key l).1 hs
  | some l' =>
    have : l' ∈ ls.filterMap seen := h ▸ List.mem_filterMap.2 ⟨l, hl, hs⟩
    obtain ⟨m, hm, h1⟩ := List.mem_filterMap.1 this
    rw [← (key l).2 l' hs, (key m).2 l' h1]
    exact hr m hm

/-! ## What is in hand goes away -/

/-- What a closure waits for. -/
def Closure.load (c : Closure α) : Nat := Bool.toNat c.flush + Bool.toNat c.ack

/-- The work that is left with what is in hand. -/
def load (s : St α ε) : Nat := 2 * s.core.outbox.length + s.sending.length + ((s.inits ++ s.ress).map Closure.load).sum

theorem sum_filter_le (l : List (Closure α)) : ((l.filter (·.waiting)).map Closure.load).sum ≤ (l.map Closure.load).sum := by
  induction l with
  | nil => simp
  | cons c l ih => rw [List.filter_cons]; split <;> simp <;> omega

theorem sum_map_le {g : Closure α → Closure α} (hg : ∀ c, (g c).load ≤ c.load) (l : List (Closure α)) : ((l.map g).map Closure.load).sum ≤ (l.map Closure.load).sum := by
  induction l with
  | nil => simp
  | cons c l ih => have := hg c; simp at ih ⊢; omega

theorem sum_map_lt {g : Closure α → Closure α} (hg : ∀ c, (g c).load ≤ c.load) {l : List (Closure α)} {c : Closure α} (hc : c ∈ l) (hlt : (g c).load < c.load) :
    ((l.map g).map Closure.load).sum < (l.map Closure.load).sum := by
  induction l with
  | nil => simp at hc
  | cons d l ih =>
    have h1 := hg d
    have h2 := sum_map_le hg l
    simp at h2 ⊢
    rcases List.mem_cons.1 hc with rfl | hc
    · omega
    · have := ih hc; simp at this; omega

theorem load_le (c : Closure α) : c.load ≤ 2 := by
  have h1 := Bool.toNat_le c.flush; have h2 := Bool.toNat_le c.ack
  unfold Closure.load; omega

theorem load_step {s s' : St α ε} {l : Label α ε ω} (hl : l.clears = true) (hs : step comb empty dupErr s l = some s') : load s' < load s := by
  unfold step at hs
  split at hs
  · simp at hs
  cases l with
  | fold l => simp [Label.clears] at hl
  | take =>
    simp only at hs
    split at hs
    · rename_i t rest he
      split at hs
      · simp at hs; subst hs
        simp [load, he]; omega
      · simp at hs
    · simp at hs
  | published k =>
    simp only at hs
    split at hs
    · rename_i t rest he
      simp at hs; subst hs
      have := (Fold.takeAt_some he).length_eq
      simp at this
      simp [load]; omega
    · simp at hs
  | flushed n =>
    simp only at hs
    split at hs
    · rename_i hc
      simp at hs; subst hs
      obtain ⟨⟨c, hc, h1, h2⟩, _⟩ := hc
      have h3 := sum_map_lt (g := fun c => if c.id = n then { c with flush := false } else c) (fun c => by split <;> simp [Closure.load]) hc
        (by simp [h1, Closure.load, h2])
      have h4 := sum_filter_le ((s.inits ++ s.ress).map fun c => if c.id = n then { c with flush := false } else c)
      have h5 : flush n s.inits ++ flush n s.ress = ((s.inits ++ s.ress).map fun c => if c.id = n then { c with flush := false } else c).filter (·.waiting) := by
        simp [flush, List.filter_append]
      unfold load
      simp only [h5]
      omega
    · simp at hs
  | acked n =>
    simp only at hs
    split at hs
    · rename_i c hc
      simp at hs; subst hs
      have hc' := List.find?_some hc
      simp at hc'
      have h3 := sum_map_lt (g := fun c => if c.id = n then { c with ack := false } else c) (fun c => by split <;> simp [Closure.load]) (List.mem_of_find?_eq_some hc)
        (by simp [hc'.1, Closure.load, hc'.2])
      have h4 := sum_filter_le (s.ress.map fun c => if c.id = n then { c with ack := false } else c)
      unfold load ack
      simp only [sendFinal_outbox, List.map_append, List.sum_append] at h3 h4 ⊢
      omega
    · simp at hs

theorem load_bound {s : St α ε} (h : Inv s) : s.core.outbox.length ≤ 3 * limit ∧ load s ≤ 11 * limit := by
  have h1 := h.parked
  have h2 := h.tidy.length
  have h3 := h.inits; have h4 := h.ress; have h5 := h.sending
  simp at h2
  have h6 : ((s.inits ++ s.ress).map Closure.load).sum ≤ 2 * (s.inits ++ s.ress).length := by
    induction s.inits ++ s.ress with
    | nil => simp
    | cons c l ih => have := load_le c; simp; omega
  simp only [List.length_append] at h6
  unfold load
  unfold limit at *
  omega

theorem load_run {ls : List (Label α ε ω)} : ∀ {s s' : St α ε}, run comb empty dupErr s ls = some s' → (∀ l ∈ ls, l.clears = true) → ls.length + load s' ≤ load s := by
  induction ls with
  | nil => intro s s' h _; simp at h; subst h; simp
  | cons l ls ih =>
    intro s s' h hl
    obtain ⟨s1, h1, h2⟩ := Lts.run_cons.1 h
    have := load_step (hl l (by simp)) h1
    have := ih h2 fun l hm => hl l (by simp [hm])
    simp; omega

/-- Nothing to clear means nothing in hand. -/
theorem clear {s : St α ε} (h : Inv s) (ho : s.core.outcome = none) (hst : ∀ l : Label α ε ω, l.clears = true → step comb empty dupErr s l = none) :
    s.inits = [] ∧ s.ress = [] ∧ s.core.outbox = [] ∧ s.sending = [] := by
  have h1 : s.sending = [] := by
    refine Classical.byContradiction fun hne => ?_
    obtain ⟨x, rest, hx⟩ := Fold.takeAt_zero hne
    have := hst (.published 0) rfl
    simp [step, ho, hx] at this
  have h2 : s.core.outbox = [] := by
    have := hst .take rfl
    cases he : s.core.outbox with
    | nil => rfl
    | cons t rest => simp [step, ho, he, h1, limit] at this
  have h3 : s.parked = [] := by
    have := h.parked
    rw [h2] at this
    exact List.eq_nil_of_length_eq_zero (by simpa using this)
  have h4 : ∀ c ∈ s.inits ++ s.ress, False := by
    intro c hc
    have hw := h.tidy.waits c hc
    simp only [Closure.waiting, Bool.or_eq_true] at hw
    rcases hw with hw | hw
    · have := hst (.flushed c.id) rfl
      simp only [step, ho] at this
      rw [if_neg (by simp)] at this
      rw [if_pos ⟨⟨c, hc, rfl, hw⟩, by simp [h3]⟩] at this
      simp at this
    · have hcr : c ∈ s.ress := by
        rcases List.mem_append.1 hc with hc | hc
        · rw [(h.initc c hc).1] at hw; simp at hw
        · exact hc
      have := hst (.acked c.id) rfl
      simp only [step, ho] at this
      rw [if_neg (by simp)] at this
      split at this
      · simp at this
      · rename_i hn
        have := List.find?_eq_none.1 hn c hcr
        simp [hw] at this
  have h5 := List.eq_nil_iff_forall_not_mem.2 h4
  simp at h5
  exact ⟨h5.1, h5.2, h2, h1⟩

end FoldFine
end Paladin
