import Verif.Proofs.Contig
import Verif.Proofs.Util
/-!
# Properties C01 and C02: the contiguous queue, one caller at a time

Vocabulary: `Verif/Spec/Contig.lean`.
-/
namespace Paladin
open CQueue

/-- **C01.** On a queue of disjoint ranges and a probe disjoint from them, `find_contiguous` returns a queued neighbour on the
stated side and removes exactly it; it returns nothing exactly when no queued range is adjacent to the probe, and
then changes nothing. -/
theorem C01_find_contiguous (q : CQueue α) (x : Seg α) (hq : QueueOk q) (hx : x.Valid)
    (hd : ∀ s ∈ q, Disjoint s x) :
    (∀ r q', findContiguous q x = (some (.rhs r), q') → r ∈ q ∧ Before x r ∧ q.Perm (r :: q')) ∧
    (∀ l q', findContiguous q x = (some (.lhs l), q') → l ∈ q ∧ Before l x ∧ q.Perm (l :: q')) ∧
    ((findContiguous q x).1 = none ↔ ∀ a ∈ q, ¬ Adjacent a x) ∧
    ((findContiguous q x).1 = none → (findContiguous q x).2 = q) ∧
    QueueOk (findContiguous q x).2 := by
  have hs := QueueOk.sorted hq
  have sound := findContiguous_sound hs hq.2 hx
  refine ⟨?_, ?_, ?_, ?_, ?_⟩
  · intro r q' he
    rw [he] at sound
    obtain ⟨h1, h2, rfl⟩ := sound
    exact ⟨h1, h2, perm_remove hs h1⟩
  · intro r q' he
    rw [he] at sound
    obtain ⟨h1, h2, rfl⟩ := sound
    exact ⟨h1, h2, perm_remove hs h1⟩
  · refine ⟨findContiguous_complete hq hx hd, ?_⟩
    intro hno
    rcases hf : findContiguous q x with ⟨_ | (c | c), q'⟩
    · rfl
    · rw [hf] at sound; exact absurd (.inl sound.2.1) (hno c sound.1)
    · rw [hf] at sound; exact absurd (.inr sound.2.1) (hno c sound.1)
  · intro hn
    rcases hf : findContiguous q x with ⟨_ | (c | c), q'⟩ <;> rw [hf] at sound hn
    · exact sound
    · simp at hn
    · simp at hn
  · rcases hf : findContiguous q x with ⟨_ | (c | c), q'⟩ <;> rw [hf] at sound <;> simp only at sound ⊢
    · rw [sound]; exact hq
    · rw [sound.2.2]; exact queueOk_remove hq _
    · rw [sound.2.2]; exact queueOk_remove hq _

/-- Non-trivial case for C01: four queued ranges and a probe with a neighbour on each side. -/
example :
    let q : CQueue Unit := [⟨0, 1, ()⟩, ⟨4, 5, ()⟩, ⟨8, 9, ()⟩, ⟨20, 22, ()⟩]
    let x : Seg Unit := ⟨6, 7, ()⟩
    QueueOk q ∧ x.Valid ∧ (∀ s ∈ q, Disjoint s x) ∧
    findContiguous q x = (some (.rhs ⟨8, 9, ()⟩), [⟨0, 1, ()⟩, ⟨4, 5, ()⟩, ⟨20, 22, ()⟩]) := by
  refine ⟨⟨by simp, by simp [Seg.Valid]⟩, by simp [Seg.Valid], by simp [Disjoint], by decide⟩

/-- Histories of a queue that starts empty. `History q offered out`: after some sequence of calls the queue is `q`, `offered` are
the values passed in, and `out` are the values handed back (both members of every returned pair, and dequeued
values). Each offered range is non-empty and disjoint from the ranges queued at that moment. -/
inductive History : CQueue α → List (Seg α) → List (Seg α) → Prop where
  | start : History [] [] []
  | paired {q offered out} (x l r : Seg α) (q' : CQueue α) (h : History q offered out) (hx : x.Valid)
      (hd : ∀ s ∈ q, Disjoint s x) (hc : acquire q x = (some (l, r), q')) :
      History q' (x :: offered) (l :: r :: out)
  | queued {q offered out} (x : Seg α) (q' : CQueue α) (h : History q offered out) (hx : x.Valid)
      (hd : ∀ s ∈ q, Disjoint s x) (hc : acquire q x = (none, q')) :
      History q' (x :: offered) out
  | dequeuedSome {q offered out} (k : Nat) (v : Seg α) (q' : CQueue α) (h : History q offered out)
      (hc : CQueue.dequeue q k = (some v, q')) : History q' offered (v :: out)
  | dequeuedNone {q offered out} (k : Nat) (q' : CQueue α) (h : History q offered out)
      (hc : CQueue.dequeue q k = (none, q')) : History q' offered out

/-- **C02, one call.** A returned pair is in index order, one half is the offered value and the other was queued and is now gone;
otherwise the value is queued. -/
theorem C02_acquire (q : CQueue α) (x : Seg α) (hq : QueueOk q) (hx : x.Valid) (hd : ∀ s ∈ q, Disjoint s x) :
    (∀ l r q', acquire q x = (some (l, r), q') → Before l r ∧
      ((l = x ∧ r ∈ q ∧ q.Perm (r :: q')) ∨ (r = x ∧ l ∈ q ∧ q.Perm (l :: q')))) ∧
    (∀ q', acquire q x = (none, q') → q'.Perm (x :: q) ∧ ∀ a ∈ q, ¬ Adjacent a x) := by
  have hs := QueueOk.sorted hq
  have sound := acquire_sound hs hq.2 hx
  constructor
  · intro l r q' he
    rw [he] at sound
    obtain ⟨hb, ⟨h1, h2, rfl⟩ | ⟨h1, h2, rfl⟩⟩ := sound
    · exact ⟨hb, .inl ⟨h1, h2, perm_remove hs h2⟩⟩
    · exact ⟨hb, .inr ⟨h1, h2, perm_remove hs h2⟩⟩
  · intro q' he
    have hn := acquire_none (q := q) (x := x) (by rw [he])
    rw [he] at sound
    simp only at sound
    subst sound
    refine ⟨perm_queue ?_, findContiguous_complete hq hx hd hn⟩
    intro y hy
    have h1 := hd y hy; have h2 := hq.2 y hy
    simp only [Disjoint, Seg.Valid] at *; omega

/-- **C02, all histories.** No value is lost or duplicated, the queue stays a set of disjoint ranges in
order, and no two queued ranges are ever adjacent. -/
theorem C02_history (q : CQueue α) (offered out : List (Seg α)) (h : History q offered out) :
    offered.Perm (q ++ out) ∧ QueueOk q ∧ ∀ a ∈ q, ∀ b ∈ q, ¬ Adjacent a b := by
  induction h with
  | start => simp [QueueOk]
  | paired x l r q' h hx hd hc ih =>
    rename_i q offered out
    obtain ⟨ip, iq, ia⟩ := ih
    have hs := QueueOk.sorted iq
    obtain ⟨hb, hcase⟩ := (C02_acquire q x iq hx hd).1 l r q' hc
    have hsub : ∀ y ∈ q', y ∈ q := by
      intro y hy
      rcases hcase with ⟨_, _, hp⟩ | ⟨_, _, hp⟩ <;> exact hp.mem_iff.2 (by simp [hy])
    refine ⟨?_, ?_, fun a ha b hb => ia a (hsub a ha) b (hsub b hb)⟩
    · rcases hcase with ⟨rfl, _, hp⟩ | ⟨rfl, _, hp⟩
      · refine (List.Perm.cons l (ip.trans (hp.append_right out))).trans ?_
        perm_count
      · refine (List.Perm.cons r (ip.trans (hp.append_right out))).trans ?_
        perm_count
    · have sound := acquire_sound hs iq.2 hx
      rw [hc] at sound
      obtain ⟨_, ⟨_, _, rfl⟩ | ⟨_, _, rfl⟩⟩ := sound <;> exact queueOk_remove iq _
  | queued x q' h hx hd hc ih =>
    rename_i q offered out
    obtain ⟨ip, iq, ia⟩ := ih
    obtain ⟨hp, hna⟩ := (C02_acquire q x iq hx hd).2 q' hc
    have sound := acquire_sound (QueueOk.sorted iq) iq.2 hx
    rw [hc] at sound
    simp only at sound
    refine ⟨(ip.cons x).trans (hp.symm.append_right out), ?_, ?_⟩
    · rw [sound]; exact queueOk_queue iq hx hd
    · intro a ha b hb
      have ha := hp.mem_iff.1 ha; have hb := hp.mem_iff.1 hb
      simp at ha hb
      rcases ha with rfl | ha <;> rcases hb with rfl | hb
      · simp only [Adjacent, Before, Seg.Valid] at *; omega
      · intro h; exact hna b hb h.symm
      · exact hna a ha
      · exact ia a ha b hb
  | dequeuedSome k v q' h hc ih =>
    rename_i q offered out
    obtain ⟨ip, iq, ia⟩ := ih
    simp only [CQueue.dequeue, Prod.mk.injEq] at hc
    obtain ⟨hf, rfl⟩ := hc
    have hm := List.mem_of_find?_eq_some hf
    have hk : v.lo = k := by have := List.find?_some hf; simpa using this
    subst hk
    refine ⟨?_, queueOk_remove iq _, fun a ha b hb => ia a (mem_remove.1 ha).1 b (mem_remove.1 hb).1⟩
    refine (ip.trans ((perm_remove (QueueOk.sorted iq) hm).append_right out)).trans ?_
    perm_count
  | dequeuedNone k q' h hc ih =>
    rename_i q offered out
    obtain ⟨ip, iq, ia⟩ := ih
    simp only [CQueue.dequeue, Prod.mk.injEq] at hc
    obtain ⟨hf, rfl⟩ := hc
    have : q.remove k = q := by
      simp only [remove, List.filter_eq_self]
      intro a ha
      have := List.find?_eq_none.1 hf a ha
      simpa using this
    rw [this]; exact ⟨ip, iq, ia⟩

/-- Non-trivial history for C02: 3, then 1 (queued), then 2 pairs with 3, then `[2..3]` comes back and pairs with 1. -/
example : History (α := Unit) [] [⟨2, 3, ()⟩, ⟨2, 2, ()⟩, ⟨1, 1, ()⟩, ⟨3, 3, ()⟩]
    [⟨1, 1, ()⟩, ⟨2, 3, ()⟩, ⟨2, 2, ()⟩, ⟨3, 3, ()⟩] := by
  refine .paired ⟨2, 3, ()⟩ _ _ [] (.paired ⟨2, 2, ()⟩ _ _ [⟨1, 1, ()⟩] (.queued ⟨1, 1, ()⟩ [⟨1, 1, ()⟩, ⟨3, 3, ()⟩]
    (.queued ⟨3, 3, ()⟩ [⟨3, 3, ()⟩] .start ?_ ?_ ?_) ?_ ?_ ?_) ?_ ?_ ?_) ?_ ?_ ?_
  all_goals first | (simp [Seg.Valid]; done) | (simp [Disjoint]; done) | decide

end Paladin
