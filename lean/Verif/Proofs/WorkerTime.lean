import Verif.Proofs.Worker
/-! # Terminated jobs, the watch channel, acknowledgements -/
namespace Paladin
namespace Worker
open Retry

variable {κ ο χ : Type} [DecidableEq κ] {c : Cfg κ} {s s' : St κ ο χ} {l : Label κ ο χ}

theorem sublist_snoc {l xs : List α} {y : α} (h : List.Sublist l (xs ++ [y])) : List.Sublist l xs ∨ ∃ l', l = l' ++ [y] ∧ List.Sublist l' xs := by
  obtain ⟨l1, l2, rfl, h1, h2⟩ := List.sublist_append_iff.1 h
  have h3 := h2.length_le
  match l2, h2 with
  | [], _ => left; simpa using h1
  | [z], h2 =>
    right
    have : z = y := by simpa using h2.subset
    subst this
    exact ⟨l1, rfl, h1⟩
  | a :: b :: l2, _ => simp at h3

theorem sublist2_snoc {a b y : α} {xs : List α} : List.Sublist [a, b] (xs ++ [y]) ↔ List.Sublist [a, b] xs ∨ (b = y ∧ a ∈ xs) := by
  constructor
  · intro h
    rcases sublist_snoc h with h | ⟨l', h1, h2⟩
    · exact .inl h
    · right
      have : [a] ++ [b] = l' ++ [y] := by simpa using h1
      obtain ⟨h3, h4⟩ := List.append_inj' this rfl
      subst h3
      exact ⟨by simpa using h4, by simpa using h2⟩
  · rintro (h | ⟨rfl, h⟩)
    · exact h.trans (List.sublist_append_left _ _)
    · exact List.Sublist.append (l₁ := [a]) (List.singleton_sublist.2 h) (List.Sublist.refl _)

theorem sublist3_snoc {a b d y : α} {xs : List α} : List.Sublist [a, b, d] (xs ++ [y]) ↔ List.Sublist [a, b, d] xs ∨ (d = y ∧ List.Sublist [a, b] xs) := by
  constructor
  · intro h
    rcases sublist_snoc h with h | ⟨l', h1, h2⟩
    · exact .inl h
    · right
      have : [a, b] ++ [d] = l' ++ [y] := by simpa using h1
      obtain ⟨h3, h4⟩ := List.append_inj' this rfl
      subst h3
      exact ⟨by simpa using h4, by simpa using h2⟩
  · rintro (h | ⟨rfl, h⟩)
    · exact h.trans (List.sublist_append_left _ _)
    · exact List.Sublist.append (l₁ := [a, b]) h (List.Sublist.refl _)

macro "worker_cases" h:ident l:ident : tactic =>
  `(tactic| (cases $l:ident <;> simp only [step] at $h:ident <;> (repeat' split at $h:ident) <;> simp only [Option.some.injEq, reduceCtorEq] at $h:ident <;> try subst $h:ident))

theorem marked_iff {term : List (κ × Nat)} {k : κ} : marked term k = true ↔ ∃ m, (k, m) ∈ term := by
  simp [marked]

structure MarkInv (s : St κ ο χ) : Prop where
  past : ∀ k m, Ev.mark k m ∈ s.log → m ≤ s.now
  kept : ∀ k m, Ev.mark k m ∈ s.log → s.now < m + 60 → (k, m) ∈ s.term
  logged : ∀ k m, (k, m) ∈ s.term → Ev.mark k m ∈ s.log
  young : ∀ k m, (k, m) ∈ s.term → s.reapAt ≤ m + 120
  next : s.reapAt ≤ s.now + 60

theorem markInv_init : MarkInv (init : St κ ο χ) := ⟨by simp [init], by simp [init], by simp [init], by simp [init], by simp [init]⟩

/-- Steps that touch neither the marks nor time. -/
theorem MarkInv.same (h : MarkInv s) (hn : s'.now = s.now) (ht : s'.term = s.term) (hr : s'.reapAt = s.reapAt)
    (hl : ∀ k m, Ev.mark k m ∈ s'.log ↔ Ev.mark k m ∈ s.log) : MarkInv s' := by
  constructor
  · intro k m; rw [hl, hn]; exact h.past k m
  · intro k m; rw [hl, hn, ht]; exact h.kept k m
  · intro k m; rw [hl, ht]; exact h.logged k m
  · intro k m; rw [ht, hr]; exact h.young k m
  · rw [hr, hn]; exact h.next

theorem MarkInv.add {k : κ} (h : MarkInv s) (hn : s'.now = s.now) (ht : s'.term = (k, s.now) :: s.term) (hr : s'.reapAt = s.reapAt)
    (hl : ∀ k' m, Ev.mark k' m ∈ s'.log ↔ Ev.mark k' m ∈ s.log ∨ (k' = k ∧ m = s.now)) : MarkInv s' := by
  constructor
  · intro k m; rw [hl, hn]; rintro (h1 | ⟨-, rfl⟩)
    · exact h.past k m h1
    · omega
  · intro k' m; rw [hl, hn, ht]; rintro (h1 | ⟨rfl, rfl⟩) h2
    · exact List.mem_cons_of_mem _ (h.kept k' m h1 h2)
    · exact List.mem_cons_self
  · intro k' m; rw [hl, ht]; intro h1
    rcases List.mem_cons.1 h1 with h1 | h1
    · right; simpa using h1
    · left; exact h.logged k' m h1
  · intro k' m; rw [ht, hr]; intro h1
    rcases List.mem_cons.1 h1 with h1 | h1
    · have := h.next; simp at h1; omega
    · exact h.young k' m h1
  · rw [hr, hn]; exact h.next

theorem markInv_step (h : MarkInv s) (hst : step c s l = some s') : MarkInv s' := by
  have hp := h.past
  have hk := h.kept
  have hl := h.logged
  have hy := h.young
  have hn := h.next
  worker_cases hst l
  all_goals first
    | exact h.same rfl rfl rfl (fun k m => by simp)
    | exact h.add (k := ‹κ›) rfl rfl rfl (fun k' m => by simp [and_comm])
    | skip
  · -- tick
    constructor
    · intro k m hm; have := hp k m hm; simp only; omega
    · intro k m hm hlt; simp only at hlt; exact hk k m hm (by omega)
    · exact hl
    · exact hy
    · simp only; omega
  · -- reap
    rename_i hg
    simp only [Bool.and_eq_true, decide_eq_true_eq] at hg
    constructor
    · exact hp
    · intro k m hm hlt
      simp only at hlt
      have := hp k m hm
      simp only [List.mem_filter, decide_eq_true_eq]
      exact ⟨hk k m hm hlt, by omega⟩
    · intro k m hm
      simp only [List.mem_filter] at hm
      exact hl k m hm.1
    · intro k m hm
      simp only [List.mem_filter, decide_eq_true_eq] at hm
      simp only; omega
    · simp

theorem markInv_run {ls : List (Label κ ο χ)} (h : run c init ls = some s) : MarkInv s := Lts.run_inv markInv_init (fun _ _ _ => markInv_step) h

/-- Tasks taken after a mark are not started while the mark is young. -/
structure StartInv (s : St κ ο χ) : Prop where
  pending : ∀ i k m, s.pc = .starting i k → List.Sublist [Ev.mark k m, Ev.take i k] s.log → m + 60 ≤ s.now
  started : ∀ i k m t, List.Sublist [Ev.mark k m, Ev.take i k, Ev.start i k t] s.log → m + 60 ≤ t

theorem startInv_init : StartInv (init : St κ ο χ) := ⟨by simp [init], by simp [init]⟩

theorem startInv_step (hm : MarkInv s) (h : StartInv s) (hst : step c s l = some s') : StartInv s' := by
  have hp := h.pending
  have hs := h.started
  have hk := hm.kept
  worker_cases hst l
  all_goals try exact ⟨hp, hs⟩
  all_goals try (refine ⟨?_, ?_⟩ <;> (first | simp | skip) <;> (first | simpa [sublist3_snoc] using hs | skip) <;> done)
  · -- tick
    exact ⟨fun i k m h1 h2 => Nat.le_trans (hp i k m h1 h2) (Nat.le_add_right _ _), hs⟩
  · -- the job is not terminated
    rename_i i k hpc hnm
    refine ⟨?_, hs⟩
    intro i' k' m h1 h2
    simp only [Pc.starting.injEq] at h1
    obtain ⟨rfl, rfl⟩ := h1
    have hmem : Ev.mark k m ∈ s.log := h2.subset (by simp)
    apply Nat.le_of_not_lt
    intro hlt
    exact hnm (marked_iff.2 ⟨m, hk k m hmem hlt⟩)
  · -- start
    rename_i i k hpc
    refine ⟨by simp, ?_⟩
    intro i' k' m t h1
    rcases sublist3_snoc.1 h1 with h1 | ⟨h1, h2⟩
    · exact hs _ _ _ _ h1
    · simp only [Ev.start.injEq] at h1
      obtain ⟨rfl, rfl, rfl⟩ := h1
      exact hp _ _ _ hpc h2
  · -- marked already
    refine ⟨?_, ?_⟩
    · intro i k m h1 h2
      simp only [sublist2_snoc, reduceCtorEq, false_and, or_false] at h2
      exact hp i k m h1 h2
    · intro i k m t h2
      simp only [sublist3_snoc, reduceCtorEq, false_and, or_false] at h2
      exact hs i k m t h2
  · -- newly marked
    refine ⟨?_, ?_⟩
    · intro i k m h1 h2
      rw [show ∀ (xs : List (Ev κ ο χ)) a b, xs ++ [a, b] = (xs ++ [a]) ++ [b] by simp] at h2
      simp only [sublist2_snoc, reduceCtorEq, false_and, or_false] at h2
      exact hp i k m h1 h2
    · intro i k m t h2
      rw [show ∀ (xs : List (Ev κ ο χ)) a b, xs ++ [a, b] = (xs ++ [a]) ++ [b] by simp] at h2
      simp only [sublist3_snoc, reduceCtorEq, false_and, or_false] at h2
      exact hs i k m t h2

theorem startInv_run {ls : List (Label κ ο χ)} (h : run c init ls = some s) : StartInv s :=
  Lts.run_induction (P := fun _ s => StartInv s) startInv_init (fun _ _ _ _ hr ih hs => startInv_step (markInv_run hr) ih hs) ls s h

/-- The version a running task's receiver has seen. -/
structure SeenInv (c : Cfg κ) (s : St κ ο χ) : Prop where
  seen : ∀ i k n r, s.pc = .running i k n r → n ≤ s.watch.length
  fresh : ∀ i k n, s.pc = .running i k n false → s.watch.getLast? = some c.abortAll → n < s.watch.length

theorem seenInv_init : SeenInv c (init : St κ ο χ) := ⟨by simp [init], by simp [init]⟩

theorem seenInv_step (h : SeenInv c s) (hst : step c s l = some s') : SeenInv c s' := by
  obtain ⟨h1, h2⟩ := h
  worker_cases hst l
  all_goals try exact ⟨h1, h2⟩
  all_goals try (refine ⟨?_, ?_⟩ <;> simp <;> done)
  · -- start
    refine ⟨by simp, ?_⟩
    intro i k n h3 h4
    simp only [Pc.running.injEq] at h3
    obtain ⟨-, -, rfl, -⟩ := h3
    simp only
    cases hw : s.watch with
    | nil => simp [hw] at h4
    | cons a b => simp
  · -- another value was read
    rename_i hpc hne
    refine ⟨?_, fun _ _ _ _ h4 => absurd h4 hne⟩
    intro i k n r h3
    simp only [Pc.running.injEq] at h3
    obtain ⟨rfl, rfl, rfl, -⟩ := h3
    exact h1 _ _ _ _ hpc
  · -- a value is sent
    refine ⟨?_, ?_⟩
    · intro i k n r h3; have := h1 i k n r h3; simp only [List.length_append, List.length_singleton]; omega
    · intro i k n h3 _; have := h1 i k n _ h3; simp only [List.length_append, List.length_singleton]; omega

theorem seenInv_run {ls : List (Label κ ο χ)} (h : run c init ls = some s) : SeenInv c s := Lts.run_inv seenInv_init (fun _ _ _ => seenInv_step) h

/-- Interruptions. -/
structure IntInv (c : Cfg κ) (s : St κ ο χ) : Prop where
  sent : ∀ k, k ∈ s.watch → ∃ t, Ev.processed k t ∈ s.log
  sending : ∀ k, s.handler = .marked k → ∃ t, Ev.processed k t ∈ s.log
  cause : ∀ i, Ev.interrupted i ∈ s.log → c.abortAll ∈ s.watch
  stop : ∀ i, Ev.interrupted i ∈ s.log → (∃ k, s.pc = .interrupted i k ∨ s.pc = .draining i k) ∨ s.pc = .stopped ∨ s.pc = .crashed
  last : ∀ i e, List.Sublist [Ev.interrupted i, e] s.log → e = .nack i ∨ ∃ k t, e = .mark k t ∨ e = .processed k t

theorem intInv_init : IntInv c (init : St κ ο χ) := ⟨by simp [init], by simp [init], by simp [init], by simp [init], by simp [init]⟩

/-- The loop may still be working on tasks. -/
def Pc.working : Pc κ ο χ → Bool
  | .interrupted _ _ | .draining _ _ | .stopped | .crashed => false
  | _ => true

omit [DecidableEq κ] in
theorem IntInv.work (h : IntInv c s) (hpc : s.pc.working = true) (evs : List (Ev κ ο χ)) (hl : s'.log = s.log ++ evs) (he : ∀ i, Ev.interrupted i ∉ evs)
    (hw : s'.watch = s.watch) (hh : s'.handler = s.handler) : IntInv c s' := by
  have hno : ∀ i, Ev.interrupted i ∉ s'.log := by
    intro i hi
    rw [hl] at hi
    rcases List.mem_append.1 hi with hi | hi
    · rcases h.stop i hi with ⟨k, h1 | h1⟩ | h1 | h1 <;> rw [h1] at hpc <;> simp [Pc.working] at hpc
    · exact he i hi
  constructor
  · intro k hk
    rw [hw] at hk
    obtain ⟨t, ht⟩ := h.sent k hk
    exact ⟨t, by rw [hl]; exact List.mem_append_left _ ht⟩
  · intro k hk
    rw [hh] at hk
    obtain ⟨t, ht⟩ := h.sending k hk
    exact ⟨t, by rw [hl]; exact List.mem_append_left _ ht⟩
  · intro i hi; exact absurd hi (hno i)
  · intro i hi; exact absurd hi (hno i)
  · intro i e hi; exact absurd (hi.subset (by simp)) (hno i)

theorem intInv_step (h : IntInv c s) (hst : step c s l = some s') : IntInv c s' := by
  obtain ⟨h1, h2, h3, h4, h5⟩ := id h
  worker_cases hst l
  all_goals try exact ⟨h1, h2, h3, h4, h5⟩
  all_goals try (refine h.work ?_ _ rfl ?_ rfl rfl <;> simp [*, Pc.working] <;> done)
  all_goals try (refine h.work ?_ [] ?_ ?_ rfl rfl <;> simp [*, Pc.working] <;> done)
  · -- interrupted
    rename_i i k n hpc hlast
    have hno : ∀ j, Ev.interrupted j ∉ s.log := by
      intro j hj
      rcases h4 j hj with ⟨k, h6 | h6⟩ | h6 | h6 <;> rw [hpc] at h6 <;> simp at h6
    refine ⟨fun k hk => ?_, fun k hk => ?_, fun _ _ => List.mem_of_getLast? hlast, fun j hj => ?_, fun j e hj => ?_⟩
    · obtain ⟨t, ht⟩ := h1 k hk; exact ⟨t, by simp [ht]⟩
    · obtain ⟨t, ht⟩ := h2 k hk; exact ⟨t, by simp [ht]⟩
    · have : j = i := by simpa [hno] using hj
      exact .inl ⟨k, .inl (by rw [this])⟩
    · rcases sublist2_snoc.1 hj with hj | ⟨-, hj⟩
      · exact absurd (hj.subset (by simp)) (hno j)
      · exact absurd hj (hno j)
  · -- its nack
    rename_i i k hpc
    refine ⟨fun k hk => ?_, fun k hk => ?_, fun j hj => h3 j (by simpa using hj), fun j hj => ?_, fun j e hj => ?_⟩
    · obtain ⟨t, ht⟩ := h1 k hk; exact ⟨t, by simp [ht]⟩
    · obtain ⟨t, ht⟩ := h2 k hk; exact ⟨t, by simp [ht]⟩
    · rcases h4 j (by simpa using hj) with ⟨k', h6 | h6⟩ | h6 | h6 <;> rw [hpc] at h6 <;> simp at h6
      exact .inl ⟨k, .inr (by simp [h6])⟩
    · rcases sublist2_snoc.1 hj with hj | ⟨rfl, hj2⟩
      · exact h5 j e hj
      · rcases h4 j hj2 with ⟨k', h6 | h6⟩ | h6 | h6 <;> rw [hpc] at h6 <;> simp at h6
        exact .inl (by rw [h6.1])
  · -- its failing nack
    rename_i i k hpc
    refine ⟨h1, h2, h3, fun j hj => ?_, h5⟩
    rcases h4 j hj with ⟨k', h6 | h6⟩ | h6 | h6 <;> rw [hpc] at h6 <;> simp at h6
    exact .inl ⟨k, .inr (by simp [h6])⟩
  · exact ⟨h1, h2, h3, fun _ _ => .inr (.inl rfl), h5⟩
  · exact ⟨h1, by simp, h3, h4, h5⟩
  · -- a command for a terminated job
    refine ⟨fun k hk => ?_, by simp, fun j hj => h3 j (by simpa using hj), fun j hj => h4 j (by simpa using hj), fun j e hj => ?_⟩
    · obtain ⟨t, ht⟩ := h1 k hk; exact ⟨t, by simp [ht]⟩
    · rcases sublist2_snoc.1 hj with hj | ⟨rfl, hj⟩
      · exact h5 j e hj
      · exact .inr ⟨_, _, .inr rfl⟩
  · -- a command for another job
    refine ⟨fun k hk => ?_, fun k hk => ?_, fun j hj => h3 j (by simpa using hj), fun j hj => h4 j (by simpa using hj), fun j e hj => ?_⟩
    · obtain ⟨t, ht⟩ := h1 k hk; exact ⟨t, by simp [ht]⟩
    · simp at hk; subst hk; exact ⟨s.now, by simp⟩
    · rw [show ∀ (xs : List (Ev κ ο χ)) a b, xs ++ [a, b] = (xs ++ [a]) ++ [b] by simp] at hj
      rcases sublist2_snoc.1 hj with hj | ⟨rfl, hj⟩
      · rcases sublist2_snoc.1 hj with hj | ⟨rfl, hj⟩
        · exact h5 j e hj
        · exact .inr ⟨_, _, .inl rfl⟩
      · exact .inr ⟨_, _, .inr rfl⟩
  · -- a value is sent
    rename_i k hh _
    refine ⟨fun k' hk => ?_, by simp, fun j hj => by simp [h3 j hj], h4, h5⟩
    rcases List.mem_append.1 hk with hk | hk
    · exact h1 k' hk
    · simp at hk; subst hk; exact h2 k' hh
  · exact ⟨h1, by simp, h3, h4, h5⟩
  · exact ⟨h1, h2, h3, fun _ _ => .inr (.inr rfl), h5⟩

theorem intInv_run {ls : List (Label κ ο χ)} (h : run c init ls = some s) : IntInv c s := Lts.run_inv intInv_init (fun _ _ _ => intInv_step) h

/-- Acknowledgements. -/
structure AckInv (s : St κ ο χ) : Prop where
  acked : ∀ i, Ev.ack i ∈ s.log → ∃ o, Ev.done i (.ok o) ∈ s.log
  finished : ∀ i k o a p, s.pc = .settleOk i k o a p → Ev.done i (.ok o) ∈ s.log

theorem ackInv_init : AckInv (init : St κ ο χ) := ⟨by simp [init], by simp [init]⟩

theorem ackInv_step (h : AckInv s) (hst : step c s l = some s') : AckInv s' := by
  obtain ⟨h1, h2⟩ := h
  worker_cases hst l
  all_goals try exact ⟨h1, h2⟩
  all_goals (constructor <;> grind)

theorem ackInv_run {ls : List (Label κ ο χ)} (h : run c init ls = some s) : AckInv s := Lts.run_inv ackInv_init (fun _ _ _ => ackInv_step) h

/-- Panics. -/
theorem crashed_step (h : step c s l = some s') (hs : s.pc ≠ .crashed) (hs' : s'.pc = .crashed) : l = .crash ∨ (l = .sigPoll ∧ s.handler = .finished) := by
  worker_cases h l
  all_goals grind

theorem finished_step (h : step c s l = some s') (hs : s.handler ≠ .finished) (hs' : s'.handler = .finished) : l = .cmdEnd := by
  worker_cases h l
  all_goals grind

/-- The reaper is not late by more than `lag`. -/
theorem tick_inv (h : run c init ls = some s) : s.alive = true → s.now ≤ s.reapAt + c.lag := by
  refine Lts.run_inv (P := fun s : St κ ο χ => s.alive = true → s.now ≤ s.reapAt + c.lag) (by simp [init]) ?_ h
  intro s l s' ih hst
  worker_cases hst l
  all_goals try exact ih
  all_goals intro ha
  all_goals try (refine ih ?_; simp [St.alive, *]; done)
  all_goals try (simp [St.alive] at ha; done)
  · rename_i hg
    have ha' : s.alive = true := ha
    simp [ha'] at hg; simpa using hg
  · simp only; omega

end Worker
end Paladin
