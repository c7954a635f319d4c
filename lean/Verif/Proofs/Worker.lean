import Verif.Spec.Worker
import Verif.Proofs.Lts
/-! # Invariants of the worker loop -/
namespace Paladin
namespace Worker
open Retry

variable {κ ο χ : Type} [DecidableEq κ] {c : Cfg κ} {s s' : St κ ο χ} {l : Label κ ο χ}

theorem taskLog_append (a b : List (Ev κ ο χ)) (i : Nat) : taskLog (a ++ b) i = taskLog a i ++ taskLog b i := List.filter_append ..

/-- What has happened to the task the loop is working on. -/
def Cur : Pc κ ο χ → Nat → List (Ev κ ο χ) → Prop
  | .got i k, n, l | .checked i k, n, l | .skipping i k, n, l | .starting i k, n, l => i + 1 = n ∧ l = [.take i k]
  | .running i k _ _, n, l => i + 1 = n ∧ ∃ t, l = [.take i k, .start i k t]
  | .failing i k e, n, l => i + 1 = n ∧ ∃ t, l = [.take i k, .start i k t, .done i (.error e)]
  | .settleOk i k o a p, n, l => i + 1 = n ∧ ∃ t m, l = .take i k :: .start i k t :: .done i (.ok o) :: m ∧
      m.Perm ((if a then [.ack i] else []) ++ (if p then [.resOk i k o] else []))
  | .settleErr i k e a p q, n, l => i + 1 = n ∧ ∃ t m, l = .take i k :: .start i k t :: .done i (.error e) :: m ∧
      ((e.fatalStrategy = .ignore ∧ p = true ∧ q = true ∧ m = if a then [.nack i] else []) ∨
       (e.fatalStrategy = .terminate ∧ m.Perm ((if a then [.nack i] else []) ++ (if p then [.resErr i k e] else []) ++ (if q then [.sendAbort i] else []))))
  | .interrupted i k, n, l => i + 1 = n ∧ ∃ t, l = [.take i k, .start i k t, .interrupted i]
  | .draining i k, n, l => i + 1 = n ∧ ∃ t, l = [.take i k, .start i k t, .interrupted i] ∨ l = [.take i k, .start i k t, .interrupted i, .nack i]
  | _, _, _ => True

structure LogInv (s : St κ ο χ) : Prop where
  settled : ∀ i, i < s.next → (i + 1 < s.next ∨ s.pc = .waiting) → Settled i (taskLog s.log i)
  fresh : ∀ i, s.next ≤ i → taskLog s.log i = []
  cur : Cur s.pc s.next (taskLog s.log (s.next - 1))

/-- A step of the handler, the reaper or the clock. -/
theorem LogInv.quiet (h : LogInv s) (hpc : s'.pc = s.pc) (hn : s'.next = s.next) (evs : List (Ev κ ο χ)) (hl : s'.log = s.log ++ evs)
    (hev : ∀ i, taskLog evs i = []) : LogInv s' := by
  have : ∀ i, taskLog s'.log i = taskLog s.log i := by intro i; rw [hl, taskLog_append, hev, List.append_nil]
  refine ⟨?_, ?_, ?_⟩
  · intro i hi; rw [this, hpc, hn]; exact h.settled i (hn ▸ hi)
  · intro i hi; rw [this]; exact h.fresh i (hn ▸ hi)
  · rw [this, hpc, hn]; exact h.cur

/-- A step of the loop on its task. -/
theorem LogInv.work (h : LogInv s) (hn : s'.next = s.next) (evs : List (Ev κ ο χ)) (hl : s'.log = s.log ++ evs) (i : Nat) (hi : i + 1 = s.next)
    (hev : ∀ j, j ≠ i → taskLog evs j = []) (hc : Cur s'.pc s'.next (taskLog s.log i ++ taskLog evs i))
    (hw : s'.pc = .waiting → Settled i (taskLog s.log i ++ taskLog evs i)) : LogInv s' := by
  have hj' : ∀ j, taskLog s'.log j = taskLog s.log j ++ taskLog evs j := by intro j; rw [hl, taskLog_append]
  refine ⟨?_, ?_, ?_⟩
  · intro j hj hd
    rw [hj']
    by_cases hji : j = i
    · subst hji
      rcases hd with hd | hd
      · omega
      · exact hw hd
    · rw [hev j hji, List.append_nil]
      exact h.settled j (by omega) (.inl (by omega))
  · intro j hj
    rw [hj', hev j (by omega), List.append_nil]
    exact h.fresh j (by omega)
  · have : s'.next - 1 = i := by omega
    rw [this, hj']; exact hc

theorem logInv_init : LogInv (init : St κ ο χ) := ⟨fun i h => by simp [init] at h, fun _ _ => rfl, trivial⟩

theorem taskLog_none (i : Nat) : taskLog ([] : List (Ev κ ο χ)) i = [] := rfl

theorem logInv_step (h : LogInv s) (hst : step c s l = some s') : LogInv s' := by
  have hc := h.cur
  cases l with
  | tick d =>
    simp only [step] at hst
    split at hst
    · simp at hst
    · injection hst with hst; subst hst; exact h.quiet rfl rfl [] (by simp) (fun _ => rfl)
  | deliver k =>
    simp only [step] at hst
    split at hst <;> try simp at hst
    rename_i hpc
    subst hst
    refine ⟨?_, ?_, ?_⟩
    · intro i hi hd
      simp only [reduceCtorEq, or_false] at hd
      rw [taskLog_append, show taskLog [(Ev.take s.next k : Ev κ ο χ)] i = [] by simp [taskLog, Ev.about]; omega, List.append_nil]
      exact h.settled i (by omega) (.inr hpc)
    · intro i hi
      simp only at hi
      rw [taskLog_append, show taskLog [(Ev.take s.next k : Ev κ ο χ)] i = [] by simp [taskLog, Ev.about]; omega, List.append_nil]
      exact h.fresh i (by omega)
    · simp only [Cur, Nat.add_sub_cancel, true_and]
      rw [taskLog_append, h.fresh _ (Nat.le_refl _)]
      simp [taskLog, Ev.about]
  | streamEnd =>
    simp only [step] at hst
    split at hst <;> try simp at hst
    rename_i hpc
    subst hst
    exact ⟨fun i hi hd => h.settled i hi (.inr hpc), h.fresh, trivial⟩
  | checkFlag =>
    simp only [step] at hst
    split at hst <;> try simp at hst
    rename_i i k hpc
    subst hst
    rw [hpc] at hc
    refine h.work (i := i) rfl [] (by simp) hc.1 (fun _ _ => rfl) ?_ (by simp only; split <;> simp)
    obtain ⟨h1, h2⟩ := hc
    have : s.next - 1 = i := by omega
    rw [this] at h2
    simp only [taskLog_none, List.append_nil]
    split
    · trivial
    · exact ⟨h1, h2⟩
  | checkTerm =>
    simp only [step] at hst
    split at hst <;> try simp at hst
    rename_i i k hpc
    subst hst
    rw [hpc] at hc
    refine h.work (i := i) rfl [] (by simp) hc.1 (fun _ _ => rfl) ?_ (by simp only; split <;> simp)
    obtain ⟨h1, h2⟩ := hc
    have : s.next - 1 = i := by omega
    rw [this] at h2
    simp only [taskLog_none, List.append_nil]
    split <;> exact ⟨h1, h2⟩
  | skipNack =>
    simp only [step] at hst
    split at hst <;> try simp at hst
    rename_i i k hpc
    subst hst
    rw [hpc] at hc
    obtain ⟨h1, h2⟩ := hc
    have : s.next - 1 = i := by omega
    rw [this] at h2
    refine h.work (i := i) rfl _ rfl h1 (fun j hj => by simp [taskLog, Ev.about, Ne.symm hj]) trivial (fun _ => ?_)
    rw [h2]
    simpa [taskLog, Ev.about] using Settled.skipped k
  | skipNackFail =>
    simp only [step] at hst
    split at hst <;> try simp at hst
    rename_i i k hpc
    subst hst
    rw [hpc] at hc
    exact h.work (i := i) rfl [] (by simp) hc.1 (fun _ _ => rfl) trivial (by simp)
  | start =>
    simp only [step] at hst
    split at hst <;> try simp at hst
    rename_i i k hpc
    subst hst
    rw [hpc] at hc
    obtain ⟨h1, h2⟩ := hc
    have : s.next - 1 = i := by omega
    rw [this] at h2
    refine h.work (i := i) rfl _ rfl h1 (fun j hj => by simp [taskLog, Ev.about, Ne.symm hj]) ⟨h1, s.now, ?_⟩ (by simp)
    rw [h2]; simp [taskLog, Ev.about]
  | setFlag =>
    simp only [step] at hst
    split at hst <;> try simp at hst
    subst hst
    exact h.quiet rfl rfl [] (by simp) (fun _ => rfl)
  | finish r =>
    simp only [step] at hst
    split at hst <;> try simp at hst
    rename_i i k seen hpc
    subst hst
    rw [hpc] at hc
    obtain ⟨h1, t, h2⟩ := hc
    have : s.next - 1 = i := by omega
    rw [this] at h2
    refine h.work (i := i) rfl _ rfl h1 (fun j hj => by simp [taskLog, Ev.about, Ne.symm hj]) ?_ (by cases r <;> simp)
    rw [h2]
    cases r with
    | ok o => exact ⟨h1, t, [], by simp [taskLog, Ev.about], by simp⟩
    | error e => exact ⟨h1, t, by simp [taskLog, Ev.about]⟩
  | sigPoll =>
    simp only [step] at hst
    split at hst <;> try simp at hst
    rename_i i k seen hpc
    rw [hpc] at hc
    obtain ⟨h1, t, h2⟩ := hc
    have : s.next - 1 = i := by omega
    rw [this] at h2
    split at hst
    · simp at hst; subst hst
      exact h.work (i := i) rfl [] (by simp) h1 (fun _ _ => rfl) ⟨h1, t, by rw [h2]; rfl⟩ (by simp)
    · split at hst <;> simp at hst
      subst hst
      exact h.work (i := i) rfl [] (by simp) h1 (fun _ _ => rfl) trivial (by simp)
  | sigRead =>
    simp only [step] at hst
    split at hst <;> try simp at hst
    rename_i i k seen hpc
    rw [hpc] at hc
    obtain ⟨h1, t, h2⟩ := hc
    have : s.next - 1 = i := by omega
    rw [this] at h2
    split at hst
    · simp at hst; subst hst
      refine h.work (i := i) rfl _ rfl h1 (fun j hj => by simp [taskLog, Ev.about, Ne.symm hj]) ⟨h1, t, ?_⟩ (by simp)
      rw [h2]; simp [taskLog, Ev.about]
    · simp at hst; subst hst
      exact h.work (i := i) rfl [] (by simp) h1 (fun _ _ => rfl) ⟨h1, t, by rw [h2]; rfl⟩ (by simp)
  | mark =>
    simp only [step] at hst
    split at hst <;> try simp at hst
    rename_i i k e hpc
    rw [hpc] at hc
    obtain ⟨h1, t, h2⟩ := hc
    have : s.next - 1 = i := by omega
    rw [this] at h2
    have key : Cur (.settleErr i k e false (match e.fatalStrategy with | .ignore => true | .terminate => false)
        (match e.fatalStrategy with | .ignore => true | .terminate => false)) s.next (taskLog s.log i : List (Ev κ ο χ)) := by
      refine ⟨h1, t, [], h2, ?_⟩
      cases he : e.fatalStrategy with
      | ignore => left; exact ⟨rfl, rfl, rfl, rfl⟩
      | terminate => right; exact ⟨rfl, by simp⟩
    split at hst
    · simp at hst; subst hst
      exact h.work (i := i) rfl [] (by simp) h1 (fun _ _ => rfl) (by rw [taskLog_none, List.append_nil]; exact key) (by simp)
    · simp at hst; subst hst
      refine h.work (i := i) rfl _ rfl h1 (fun j hj => by simp [taskLog, Ev.about]) ?_ (by simp)
      rw [show taskLog [(Ev.mark k s.now : Ev κ ο χ)] i = [] by simp [taskLog, Ev.about], List.append_nil]; exact key
  | ack =>
    simp only [step] at hst
    split at hst <;> try simp at hst
    rename_i i k o p hpc
    subst hst
    rw [hpc] at hc
    obtain ⟨h1, t, m, h2, h3⟩ := hc
    have : s.next - 1 = i := by omega
    rw [this] at h2
    refine h.work (i := i) rfl _ rfl h1 (fun j hj => by simp [taskLog, Ev.about, Ne.symm hj]) ⟨h1, t, m ++ [.ack i], ?_, ?_⟩ (by simp)
    · rw [h2]; simp [taskLog, Ev.about]
    · refine (List.perm_append_comm.trans (List.Perm.append_left _ h3)).trans ?_
      simp
  | pubOk =>
    simp only [step] at hst
    split at hst <;> try simp at hst
    rename_i i k o p hpc
    subst hst
    rw [hpc] at hc
    obtain ⟨h1, t, m, h2, h3⟩ := hc
    have : s.next - 1 = i := by omega
    rw [this] at h2
    refine h.work (i := i) rfl _ rfl h1 (fun j hj => by simp [taskLog, Ev.about, Ne.symm hj]) ⟨h1, t, m ++ [.resOk i k o], ?_, ?_⟩ (by simp)
    · rw [h2]; simp [taskLog, Ev.about]
    · simpa using List.Perm.append_right [.resOk i k o] h3
  | nack =>
    simp only [step] at hst
    split at hst <;> try simp at hst
    rename_i i k e p q hpc
    subst hst
    rw [hpc] at hc
    obtain ⟨h1, t, m, h2, h3⟩ := hc
    have : s.next - 1 = i := by omega
    rw [this] at h2
    refine h.work (i := i) rfl _ rfl h1 (fun j hj => by simp [taskLog, Ev.about, Ne.symm hj]) ⟨h1, t, m ++ [.nack i], ?_, ?_⟩ (by simp)
    · rw [h2]; simp [taskLog, Ev.about]
    · rcases h3 with ⟨he, hp, hq, hm⟩ | ⟨he, hm⟩
      · left; exact ⟨he, hp, hq, by simp [hm]⟩
      · right
        refine ⟨he, (List.perm_append_comm.trans (List.Perm.append_left _ hm)).trans ?_⟩
        simp
  | pubErr =>
    simp only [step] at hst
    split at hst <;> try simp at hst
    rename_i i k e a q hpc
    subst hst
    rw [hpc] at hc
    obtain ⟨h1, t, m, h2, h3⟩ := hc
    have : s.next - 1 = i := by omega
    rw [this] at h2
    refine h.work (i := i) rfl _ rfl h1 (fun j hj => by simp [taskLog, Ev.about, Ne.symm hj]) ⟨h1, t, m ++ [.resErr i k e], ?_, ?_⟩ (by simp)
    · rw [h2]; simp [taskLog, Ev.about]
    · rcases h3 with ⟨he, hp, hq, hm⟩ | ⟨he, hm⟩
      · simp at hp
      · right
        refine ⟨he, (List.Perm.append_right _ hm).trans ?_⟩
        cases a <;> cases q <;> simp <;> exact List.Perm.swap ..
  | pubAbort =>
    simp only [step] at hst
    split at hst <;> try simp at hst
    rename_i i k e a p hpc
    subst hst
    rw [hpc] at hc
    obtain ⟨h1, t, m, h2, h3⟩ := hc
    have : s.next - 1 = i := by omega
    rw [this] at h2
    refine h.work (i := i) rfl _ rfl h1 (fun j hj => by simp [taskLog, Ev.about, Ne.symm hj]) ⟨h1, t, m ++ [.sendAbort i], ?_, ?_⟩ (by simp)
    · rw [h2]; simp [taskLog, Ev.about]
    · rcases h3 with ⟨he, hp, hq, hm⟩ | ⟨he, hm⟩
      · simp at hq
      · right
        refine ⟨he, (List.Perm.append_right _ hm).trans ?_⟩
        simp
  | settled =>
    simp only [step] at hst
    split at hst <;> try simp at hst
    · rename_i i k o hpc
      subst hst
      rw [hpc] at hc
      obtain ⟨h1, t, m, h2, h3⟩ := hc
      have : s.next - 1 = i := by omega
      rw [this] at h2
      refine h.work (i := i) rfl [] (by simp) h1 (fun _ _ => rfl) trivial (fun _ => ?_)
      rw [taskLog_none, List.append_nil, h2]
      exact .ok k t o m (by simpa using h3)
    · rename_i i k e hpc
      subst hst
      rw [hpc] at hc
      obtain ⟨h1, t, m, h2, h3⟩ := hc
      have : s.next - 1 = i := by omega
      rw [this] at h2
      refine h.work (i := i) rfl [] (by simp) h1 (fun _ _ => rfl) trivial (fun _ => ?_)
      rw [taskLog_none, List.append_nil, h2]
      rcases h3 with ⟨he, -, -, hm⟩ | ⟨he, hm⟩
      · simp at hm; subst hm; exact .ignore k t e he
      · exact .terminate k t e m he (by simpa using hm)
  | settleFail =>
    simp only [step] at hst
    split at hst <;> try simp at hst
    · rename_i i k o a p hpc
      subst hst
      rw [hpc] at hc
      exact h.work (i := i) rfl [] (by simp) hc.1 (fun _ _ => rfl) trivial (by simp)
    · rename_i i k e a p q hpc
      subst hst
      rw [hpc] at hc
      exact h.work (i := i) rfl [] (by simp) hc.1 (fun _ _ => rfl) trivial (by simp)
  | intNack =>
    simp only [step] at hst
    split at hst <;> try simp at hst
    rename_i i k hpc
    subst hst
    rw [hpc] at hc
    obtain ⟨h1, t, h2⟩ := hc
    have : s.next - 1 = i := by omega
    rw [this] at h2
    refine h.work (i := i) rfl _ rfl h1 (fun j hj => by simp [taskLog, Ev.about, Ne.symm hj]) ⟨h1, t, .inr ?_⟩ (by simp)
    rw [h2]; simp [taskLog, Ev.about]
  | intNackFail =>
    simp only [step] at hst
    split at hst <;> try simp at hst
    rename_i i k hpc
    subst hst
    rw [hpc] at hc
    obtain ⟨h1, t, h2⟩ := hc
    have : s.next - 1 = i := by omega
    rw [this] at h2
    exact h.work (i := i) rfl [] (by simp) h1 (fun _ _ => rfl) ⟨h1, t, .inl (by rw [h2]; rfl)⟩ (by simp)
  | intStop =>
    simp only [step] at hst
    split at hst <;> try simp at hst
    rename_i i k hpc
    subst hst
    rw [hpc] at hc
    exact h.work (i := i) rfl [] (by simp) hc.1 (fun _ _ => rfl) trivial (by simp)
  | cmd k =>
    simp only [step] at hst
    split at hst <;> try simp at hst
    obtain ⟨-, hst⟩ := hst; subst hst
    exact h.quiet rfl rfl [] (by simp) (fun _ => rfl)
  | hMark =>
    simp only [step] at hst
    split at hst <;> try simp at hst
    obtain ⟨-, hst⟩ := hst
    split at hst
    · simp at hst; subst hst; exact h.quiet rfl rfl _ rfl (fun _ => by simp [taskLog, Ev.about])
    · simp at hst; subst hst; exact h.quiet rfl rfl _ rfl (fun _ => by simp [taskLog, Ev.about])
  | hSend =>
    simp only [step] at hst
    split at hst <;> try simp at hst
    obtain ⟨-, hst⟩ := hst; subst hst
    exact h.quiet rfl rfl [] (by simp) (fun _ => rfl)
  | cmdEnd =>
    simp only [step] at hst
    split at hst <;> try simp at hst
    obtain ⟨-, hst⟩ := hst; subst hst
    exact h.quiet rfl rfl [] (by simp) (fun _ => rfl)
  | reap =>
    simp only [step] at hst
    split at hst <;> try simp at hst
    subst hst
    exact h.quiet rfl rfl [] (by simp) (fun _ => rfl)
  | crash =>
    simp only [step] at hst
    split at hst <;> try simp at hst
    subst hst
    refine ⟨fun i hi hd => h.settled i hi ?_, h.fresh, trivial⟩
    rcases hd with hd | hd
    · exact .inl hd
    · simp at hd

theorem logInv_run {ls : List (Label κ ο χ)} (h : run c init ls = some s) : LogInv s :=
  Lts.run_inv logInv_init (fun _ _ _ => logInv_step) h

end Worker
end Paladin
