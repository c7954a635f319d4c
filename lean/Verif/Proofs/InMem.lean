import Verif.Spec.InMem
import Verif.Proofs.Lts
/-! # Invariants of a message queue with its semaphore -/
namespace Paladin
namespace InMem

/-- Permits and messages correspond; a free permit means nobody waits; a consumer is in one place. -/
structure Chan.Inv (c : Chan M) : Prop where
  count : c.msgs.length = c.permits + c.granted.length + c.holding.length + c.owed
  free : c.permits = 0 ∨ c.waiters = []
  ok : c.panicked = false

theorem Chan.inv_fresh (ms : List M) : (Chan.fresh ms ms.length).Inv := ⟨by simp [Chan.fresh], by simp [Chan.fresh], rfl⟩

theorem Chan.inv_addPermit {c : Chan M} (h1 : c.msgs.length = c.permits + c.granted.length + c.holding.length + c.owed + 1)
    (h2 : c.permits = 0 ∨ c.waiters = []) (h3 : c.panicked = false) : c.addPermit.Inv := by
  unfold Chan.addPermit
  split
  · exact ⟨by simp; omega, by simp_all, h3⟩
  · rename_i w ws hw
    exact ⟨by simp; omega, by simp_all, h3⟩

theorem Chan.inv_push {c : Chan M} (hi : c.Inv) (m : M) : (c.push m).Inv :=
  ⟨by have := hi.count; simp [Chan.push]; omega, hi.free, hi.ok⟩

theorem Chan.inv_release {c c' : Chan M} (hi : c.Inv) (h : c.release = some c') : c'.Inv := by
  unfold Chan.release Chan.releaseOne at h
  split at h
  · simp at h
  · simp at h; subst h
    have := hi.count
    exact inv_addPermit (by simp; omega) hi.free hi.ok

theorem Chan.inv_poll {c c' : Chan M} {k : Nat} (hi : c.Inv) (h : c.poll k = some c') : c'.Inv := by
  have hc := hi.count
  unfold Chan.poll at h
  split at h
  · simp at h
  split at h
  · rename_i hg
    simp at h; subst h
    have : 0 < c.granted.length := List.length_pos_of_mem hg
    exact ⟨by simp [List.length_erase_of_mem hg]; omega, hi.free, hi.ok⟩
  split at h
  · simp at h; subst h; exact hi
  split at h
  · rename_i h0
    simp at h; subst h
    exact ⟨by simp; omega, .inl h0, hi.ok⟩
  · rename_i h0
    simp at h; subst h
    refine ⟨by simp; omega, ?_, hi.ok⟩
    rcases hi.free with hf | hf
    · omega
    · exact .inr hf

theorem Chan.inv_pop {c c' : Chan M} {k : Nat} (hi : c.Inv) (h : c.pop k = some c') : c'.Inv ∧ ∃ m, c.msgs = m :: c'.msgs ∧ c'.received = c.received ++ [(k, m)] := by
  have hc := hi.count
  unfold Chan.pop at h
  split at h
  · rename_i hh
    have : 0 < c.holding.length := List.length_pos_of_mem hh
    split at h
    · rename_i hm; simp [hm] at hc; omega
    · rename_i m ms hm
      simp at h; subst h
      refine ⟨⟨?_, hi.free, hi.ok⟩, m, hm, rfl⟩
      simp [hm] at hc
      simp [List.length_erase_of_mem hh]; omega
  · simp at h

theorem Chan.inv_drop {c c' : Chan M} {k : Nat} (hi : c.Inv) (h : c.drop k = some c') : c'.Inv := by
  have hc := hi.count
  unfold Chan.drop at h
  split at h
  · simp at h
  split at h
  · rename_i hg
    simp at h; subst h
    have : 0 < c.granted.length := List.length_pos_of_mem hg
    exact inv_addPermit (by simp [List.length_erase_of_mem hg]; omega) hi.free hi.ok
  · simp at h; subst h
    refine ⟨hc, ?_, hi.ok⟩
    rcases hi.free with hf | hf
    · exact .inl hf
    · exact .inr (by simp [hf])

theorem Chan.inv_step {c c' : Chan M} {o : Op M} (hi : c.Inv) (h : c.step o = some c') : c'.Inv := by
  cases o with
  | push m => simp [Chan.step] at h; subst h; exact inv_push hi m
  | release => exact inv_release hi h
  | poll k => exact inv_poll hi h
  | pop k => exact (inv_pop hi h).1
  | drop k => exact inv_drop hi h

theorem Chan.inv_run {c c' : Chan M} {os : List (Op M)} (hi : c.Inv) (h : c.run os = some c') : c'.Inv :=
  Lts.run_inv (P := Chan.Inv) hi (fun _ _ _ hi h => inv_step hi h) h

@[simp] theorem Chan.addPermit_msgs (c : Chan M) : c.addPermit.msgs = c.msgs := by unfold addPermit; split <;> rfl
@[simp] theorem Chan.addPermit_received (c : Chan M) : c.addPermit.received = c.received := by unfold addPermit; split <;> rfl
@[simp] theorem Chan.addPermit_holding (c : Chan M) : c.addPermit.holding = c.holding := by unfold addPermit; split <;> rfl

/-- Everything ever put in the queue, in order. -/
def Chan.log (c : Chan M) : List M := c.received.map Prod.snd ++ c.msgs

theorem Chan.log_poll {c c' : Chan M} {k : Nat} (h : c.poll k = some c') : c'.msgs = c.msgs ∧ c'.received = c.received := by
  unfold Chan.poll at h
  repeat' split at h
  all_goals simp at h
  all_goals subst h; simp

theorem Chan.log_drop {c c' : Chan M} {k : Nat} (h : c.drop k = some c') : c'.msgs = c.msgs ∧ c'.received = c.received := by
  unfold Chan.drop at h
  repeat' split at h
  all_goals simp at h
  all_goals subst h; simp

theorem Chan.log_release {c c' : Chan M} (h : c.release = some c') : c'.msgs = c.msgs ∧ c'.received = c.received := by
  unfold Chan.release Chan.releaseOne at h
  repeat' split at h
  all_goals simp at h
  all_goals subst h; simp

theorem Chan.log_pop {c c' : Chan M} {k : Nat} (h : c.pop k = some c') : c'.log = c.log := by
  unfold Chan.pop at h
  split at h
  · split at h
    · rename_i hm; simp at h; subst h; simp [log, hm]
    · rename_i hm; simp at h; subst h; simp [log, hm]
  · simp at h

theorem Chan.log_step {c c' : Chan M} {o : Op M} (h : c.step o = some c') : c'.log = c.log ++ o.published.toList := by
  cases o with
  | push m => simp [Chan.step] at h; subst h; simp [log, push, Op.published]
  | release => obtain ⟨h1, h2⟩ := log_release h; simp [log, h1, h2, Op.published]
  | poll k => obtain ⟨h1, h2⟩ := log_poll h; simp [log, h1, h2, Op.published]
  | pop k => simp [log_pop h, Op.published]
  | drop k => obtain ⟨h1, h2⟩ := log_drop h; simp [log, h1, h2, Op.published]

theorem Chan.log_run {c c' : Chan M} {os : List (Op M)} (h : c.run os = some c') : c'.log = c.log ++ os.filterMap Op.published := by
  refine Lts.run_induction (step := Chan.step) (P := fun os c' => c'.log = c.log ++ os.filterMap Op.published) (by simp) ?_ os c' h
  intro os o c1 c2 _ ih hs
  rw [log_step hs, ih]
  cases ho : o.published <;> simp [ho]

theorem Wants.snoc {os : List (Op M)} {k : Nat} {o : Op M} (h : Wants os k) (ho : o ≠ .drop k ∧ o ≠ .pop k) : Wants (os ++ [o]) k := by
  obtain ⟨pre, post, rfl, hp⟩ := h
  refine ⟨pre, post ++ [o], by simp, fun o' ho' => ?_⟩
  rcases List.mem_append.1 ho' with h' | h'
  · exact hp o' h'
  · simp only [List.mem_singleton] at h'; subst h'; exact ho

theorem Wants.poll (os : List (Op M)) (k : Nat) : Wants (os ++ [.poll k]) k := ⟨os, [], rfl, by simp⟩

/-- The consumers in the semaphore's books, each once, are consumers that want a message. -/
def Chan.Live (os : List (Op M)) (c : Chan M) : Prop := (c.waiters ++ (c.granted ++ c.holding)).Nodup ∧ ∀ k ∈ c.waiters ++ (c.granted ++ c.holding), Wants os k

theorem Chan.books_addPermit (c : Chan M) : (c.addPermit.waiters ++ (c.addPermit.granted ++ c.addPermit.holding)).Perm (c.waiters ++ (c.granted ++ c.holding)) := by
  unfold Chan.addPermit
  split
  · exact List.Perm.refl _
  · rename_i w ws hw
    simp only [hw, List.cons_append]
    exact List.perm_middle

theorem Chan.live_run {os : List (Op M)} {c : Chan M} (h : (Chan.fresh [] 0).run os = some c) : c.Live os := by
  refine Lts.run_induction (P := fun os c => Chan.Live os c) (by simp [Chan.Live, Chan.fresh]) ?_ os c h
  intro os o c c' _ ⟨hn, hw⟩ hs
  have of_perm : ∀ {l : List Nat}, l.Perm (c.waiters ++ (c.granted ++ c.holding)) → (∀ k, o ≠ .drop k ∧ o ≠ .pop k) → l.Nodup ∧ ∀ k ∈ l, Wants (os ++ [o]) k :=
    fun hp ho => ⟨hp.nodup_iff.2 hn, fun k hk => (hw k (hp.mem_iff.1 hk)).snoc (ho k)⟩
  have of_erase : ∀ {l : List Nat} {k : Nat}, l.Perm ((c.waiters ++ (c.granted ++ c.holding)).erase k) → (∀ k', k' ≠ k → o ≠ .drop k' ∧ o ≠ .pop k') →
      l.Nodup ∧ ∀ k' ∈ l, Wants (os ++ [o]) k' := by
    intro l k hp ho
    refine ⟨hp.nodup_iff.2 (hn.erase k), fun k' hk' => ?_⟩
    have hk := hp.mem_iff.1 hk'
    have hne : k' ≠ k := fun e => by subst e; exact (hn.not_mem_erase) hk
    exact (hw k' (List.mem_of_mem_erase hk)).snoc (ho k' hne)
  cases o with
  | push m =>
    simp only [Chan.step, Option.some.injEq] at hs; subst hs
    exact of_perm (List.Perm.refl _) (by simp)
  | release =>
    simp only [Chan.step, Chan.release, Chan.releaseOne] at hs
    split at hs <;> simp only [Option.some.injEq, reduceCtorEq] at hs; subst hs
    exact of_perm (Chan.books_addPermit { c with owed := c.owed - 1 }) (by simp)
  | poll k =>
    simp only [Chan.step, Chan.poll] at hs
    split at hs <;> try simp only [reduceCtorEq] at hs
    rename_i hh
    split at hs
    · rename_i hg
      simp only [Option.some.injEq] at hs; subst hs
      refine of_perm ?_ (by simp)
      refine List.Perm.append_left _ ?_
      refine List.perm_middle.trans ?_
      exact (List.perm_cons_erase hg).symm.append_right _
    rename_i hg
    split at hs
    · simp only [Option.some.injEq] at hs; subst hs
      exact of_perm (List.Perm.refl _) (by simp)
    rename_i hwt
    have hk : k ∉ c.waiters ++ (c.granted ++ c.holding) := by simp [hh, hg, hwt]
    have new : ∀ {l : List Nat}, l.Perm (k :: (c.waiters ++ (c.granted ++ c.holding))) → l.Nodup ∧ ∀ k' ∈ l, Wants (os ++ [.poll k]) k' := by
      intro l hp
      refine ⟨hp.nodup_iff.2 (List.nodup_cons.2 ⟨hk, hn⟩), fun k' hk' => ?_⟩
      rcases List.mem_cons.1 (hp.mem_iff.1 hk') with rfl | h'
      · exact Wants.poll _ _
      · exact (hw k' h').snoc (by simp)
    split at hs <;> simp only [Option.some.injEq] at hs <;> subst hs
    · refine new ?_
      simp only [List.append_assoc, List.cons_append, List.nil_append]
      exact List.perm_middle
    · refine new ?_
      simp only
      rw [← List.append_assoc, ← List.append_assoc]
      exact List.perm_middle
  | pop k =>
    simp only [Chan.step, Chan.pop] at hs
    split at hs <;> try simp only [reduceCtorEq] at hs
    rename_i hh
    have hp : (c.waiters ++ (c.granted ++ c.holding.erase k)).Perm ((c.waiters ++ (c.granted ++ c.holding)).erase k) := by
      rw [← List.append_assoc, ← List.append_assoc] at *
      have hk : k ∉ c.waiters ++ c.granted := fun hk => (List.nodup_append.1 hn).2.2 k hk k hh rfl
      rw [List.erase_append_right _ hk]
    split at hs <;> simp only [Option.some.injEq] at hs <;> subst hs <;> exact of_erase hp (by simp [eq_comm])
  | drop k =>
    simp only [Chan.step, Chan.drop] at hs
    split at hs <;> try simp only [reduceCtorEq] at hs
    rename_i hh
    have ho : ∀ k', k' ≠ k → (Op.drop k : Op M) ≠ .drop k' ∧ (Op.drop k : Op M) ≠ .pop k' := by simp [eq_comm]
    split at hs
    · rename_i hg
      simp only [Option.some.injEq] at hs; subst hs
      refine of_erase ((Chan.books_addPermit { c with granted := c.granted.erase k }).trans ?_) ho
      have hk : k ∉ c.waiters := fun hk => (List.nodup_append.1 hn).2.2 k hk k (by simp [hg]) rfl
      simp only
      rw [List.erase_append_right _ hk, List.erase_append_left _ hg]
    · rename_i hg
      simp only [Option.some.injEq] at hs; subst hs
      by_cases hk : k ∈ c.waiters
      · refine of_erase (k := k) ?_ ho
        simp only
        rw [List.erase_append_left _ hk]
      · refine of_erase (k := k) ?_ ho
        simp only
        rw [List.erase_of_not_mem hk, List.erase_of_not_mem (by simp [hk, hg, hh])]

end InMem
end Paladin
