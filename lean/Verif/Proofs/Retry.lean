import Verif.Spec.Retry
/-! # Lemmas about retrying -/
namespace Paladin
namespace Retry

def waitOf (duration : Option Nat) : List (Ev ε) := match duration with
  | some d => [.sleep d]
  | none => []

theorem simpleLoop_spec (out : Nat → Except ε ω) (max : Nat) (duration : Option Nat) (tracer : Bool) (num : Nat) (hnum : num ≤ max)
    (hf : ∀ i < num, ∃ e, out i = .error e) :
    ∃ k, LastCall out (max + 1) k ∧
      simpleLoop out max duration tracer num (.call 0 :: (List.range num).flatMap (between out (fun _ => waitOf duration) tracer)) (out num) =
        (.call 0 :: (List.range k).flatMap (between out (fun _ => waitOf duration) tracer), out k) := by
  unfold simpleLoop
  cases h : out num with
  | ok v => exact ⟨num, ⟨by omega, hf, .inl ⟨v, h⟩⟩, by rw [h]⟩
  | error e =>
    simp only
    by_cases hge : num ≥ max
    · rw [if_pos hge]
      exact ⟨num, ⟨by omega, hf, .inr (by omega)⟩, by rw [h]⟩
    · rw [if_neg hge]
      have := simpleLoop_spec out max duration tracer (num + 1) (by omega) (fun i hi => by
        by_cases h' : i = num
        · exact ⟨e, h' ▸ h⟩
        · exact hf i (by omega))
      rw [List.range_succ] at this
      obtain ⟨k, hk, hl⟩ := this
      refine ⟨k, hk, ?_⟩
      rw [← hl]
      simp only [List.flatMap_append, List.flatMap_cons, List.flatMap_nil, between, h]
      cases duration <;> cases tracer <;> simp [waitOf]
termination_by max - num

theorem retrySimple_spec (out : Nat → Except ε ω) (max : Nat) (duration : Option Nat) (tracer : Bool) :
    ∃ k, LastCall out (max + 1) k ∧
      retrySimple out max duration tracer = (.call 0 :: (List.range k).flatMap (between out (fun _ => waitOf duration) tracer), out k) := by
  have := simpleLoop_spec out max duration tracer 0 (Nat.zero_le _) (by simp)
  simpa [retrySimple] using this

theorem calls_append (a b : List (Ev ε)) : calls (a ++ b) = calls a + calls b := by simp [calls]
theorem traced_append (a b : List (Ev ε)) : traced (a ++ b) = traced a ++ traced b := by simp [traced]
theorem sleeps_append (a b : List (Ev ε)) : sleeps (a ++ b) = sleeps a ++ sleeps b := by simp [sleeps]

theorem calls_range (out : Nat → Except ε ω) (wait : Nat → List (Ev ε)) (tracer : Bool) (hw : ∀ i, calls (wait i) = 0) (k : Nat) :
    calls ((List.range k).flatMap (between out wait tracer)) = k := by
  induction k with
  | zero => rfl
  | succ k ih =>
    rw [List.range_succ, List.flatMap_append, calls_append, ih]
    simp only [List.flatMap_cons, List.flatMap_nil, List.append_nil, between, calls_append, hw]
    cases out k <;> cases tracer <;> simp [calls]

theorem traced_range (out : Nat → Except ε ω) (wait : Nat → List (Ev ε)) (hw : ∀ i, traced (wait i) = []) (k : Nat) (hf : ∀ i < k, ∃ e, out i = .error e) :
    (traced ((List.range k).flatMap (between out wait true))).map Except.error = (List.range k).map out := by
  induction k with
  | zero => rfl
  | succ k ih =>
    rw [List.range_succ, List.flatMap_append, traced_append, List.map_append, ih (fun i hi => hf i (by omega)), List.map_append]
    obtain ⟨e, he⟩ := hf k (by omega)
    simp only [List.flatMap_cons, List.flatMap_nil, List.append_nil, between, traced_append, hw, he]
    simp [traced, he]

theorem traced_range_false (out : Nat → Except ε ω) (wait : Nat → List (Ev ε)) (hw : ∀ i, traced (wait i) = []) (k : Nat) :
    traced ((List.range k).flatMap (between out wait false)) = [] := by
  induction k with
  | zero => rfl
  | succ k ih =>
    rw [List.range_succ, List.flatMap_append, traced_append, ih]
    simp only [List.flatMap_cons, List.flatMap_nil, List.append_nil, between, traced_append, hw]
    cases out k <;> simp [traced]

theorem sleeps_range (out : Nat → Except ε ω) (wait : Nat → List (Ev ε)) (tracer : Bool) (k : Nat) :
    sleeps ((List.range k).flatMap (between out wait tracer)) = (List.range k).flatMap fun i => sleeps (wait i) := by
  induction k with
  | zero => rfl
  | succ k ih =>
    rw [List.range_succ, List.flatMap_append, sleeps_append, ih, List.flatMap_append]
    simp only [List.flatMap_cons, List.flatMap_nil, List.append_nil, between, sleeps_append]
    cases out k <;> cases tracer <;> simp [sleeps]

/-- Events of an exponential retry in which the calls `0 … k-1` fail and are followed by a wait. -/
def expEvents (env : BackoffEnv) (out : Nat → Except ε ω) (lo : Nat) (tracer : Bool) (k : Nat) : List (Ev ε) :=
  .call 0 :: (List.range k).flatMap (between out (fun i => [.sleep (delay env lo i)]) tracer)

/-- The trace before call `k`. -/
def expBefore (env : BackoffEnv) (out : Nat → Except ε ω) (lo : Nat) (tracer : Bool) : Nat → List (Ev ε)
  | 0 => []
  | k + 1 => expEvents env out lo tracer k ++ (match out k with
    | .error e => if tracer then [Ev.trace e] else []
    | .ok _ => []) ++ [.sleep (delay env lo k)]

theorem expBefore_call (env : BackoffEnv) (out : Nat → Except ε ω) (lo : Nat) (tracer : Bool) (k : Nat) :
    expBefore env out lo tracer k ++ [.call k] = expEvents env out lo tracer k := by
  cases k with
  | zero => rfl
  | succ k => 
    simp only [expBefore, expEvents, List.range_succ, List.flatMap_append, List.flatMap_cons, List.flatMap_nil, between]
    cases out k <;> simp

theorem backoffLoop_spec (env : BackoffEnv) (out : Nat → Except ε ω) (lo maxE : Nat) (tracer : Bool) (fuel i : Nat)
    (hf : ∀ j < i, (∃ e, out j = .error e) ∧ dueTime env lo j ≤ maxE) :
    let r := backoffLoop env out maxE tracer fuel i (startTime env lo i) (interval env lo i) (expBefore env out lo tracer i)
    (r = (expBefore env out lo tracer (i + fuel), none) ∧ ∀ j < i + fuel, (∃ e, out j = .error e) ∧ dueTime env lo j ≤ maxE) ∨
    ∃ k, k < i + fuel ∧ (∀ j < k, (∃ e, out j = .error e) ∧ dueTime env lo j ≤ maxE) ∧ ((∃ v, out k = .ok v) ∨ dueTime env lo k > maxE) ∧
      r = (expEvents env out lo tracer k, some (out k)) := by
  induction fuel generalizing i with
  | zero => left; exact ⟨rfl, hf⟩
  | succ fuel ih =>
    simp only [backoffLoop, expBefore_call]
    cases h : out i with
    | ok v => right; exact ⟨i, by omega, hf, .inl ⟨v, h⟩, by rw [h]⟩
    | error e =>
      simp only
      by_cases h1 : startTime env lo i + env.took i > maxE
      · rw [if_pos h1]; right
        exact ⟨i, by omega, hf, .inr (by unfold dueTime; omega), by rw [h]⟩
      · rw [if_neg h1]
        by_cases h2 : startTime env lo i + env.took i + env.rand i (interval env lo i) ≤ maxE
        · rw [if_pos h2]
          have := ih (i + 1) (fun j hj => by
            by_cases h' : j = i
            · subst h'; exact ⟨⟨e, h⟩, h2⟩
            · exact hf j (by omega))
          have hb : expBefore env out lo tracer (i + 1) = (if tracer = true then expEvents env out lo tracer i ++ [Ev.trace e] else expEvents env out lo tracer i) ++
              [Ev.sleep (env.rand i (interval env lo i))] := by
            simp only [expBefore, h]; cases tracer <;> simp [delay]
          simp only [hb] at this
          rw [show i + (fuel + 1) = i + 1 + fuel by omega]
          exact this
        · rw [if_neg h2]; right
          exact ⟨i, by omega, hf, .inr (by unfold dueTime delay; omega), by rw [h]⟩

theorem interval_ge (env : BackoffEnv) (lo cap : Nat) (hi : ∀ c, min c cap ≤ env.incr c) (k : Nat) : min lo cap ≤ interval env lo k := by
  induction k with
  | zero => simp [interval]; omega
  | succ k ih => have := hi (interval env lo k); simp only [interval]; omega

theorem startTime_ge (env : BackoffEnv) (lo q : Nat) (hd : ∀ k, q ≤ delay env lo k) (k : Nat) : k * q ≤ startTime env lo k := by
  induction k with
  | zero => simp
  | succ k ih => have := hd k; simp only [startTime, Nat.succ_mul]; omega

end Retry
end Paladin
