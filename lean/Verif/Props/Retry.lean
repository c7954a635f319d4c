import Verif.Proofs.Retry
/-! # Retrying and operation errors (C32-C36) -/
namespace Paladin
namespace Retry

/-- **C32**: `Immediate` (`duration = none`) and `After` (`duration = some d`). The closure is called until the first success, at most `max + 1` times (`LastCall`);
the result is that of the last call; between two calls the failed result is handed to the tracer (if there is one), then the given sleep happens; nothing
else is observable. -/
theorem C32_attempts (out : Nat → Except ε ω) (max : Nat) (duration : Option Nat) (tracer : Bool) :
    ∃ k, LastCall out (max + 1) k ∧ (retrySimple out max duration tracer).2 = out k ∧
      (retrySimple out max duration tracer).1 = .call 0 :: (List.range k).flatMap (between out (fun _ => duration.toList.map Ev.sleep) tracer) := by
  obtain ⟨k, hk, he⟩ := retrySimple_spec out max duration tracer
  refine ⟨k, hk, by rw [he], ?_⟩
  rw [he]; cases duration <;> rfl

/-- **C32**, counting: at most `max + 1` calls; the tracer sees the failed results before the last call, in order; one sleep before every call but the first. -/
theorem C32_counts (out : Nat → Except ε ω) (max : Nat) (duration : Option Nat) (tracer : Bool) :
    ∃ k, LastCall out (max + 1) k ∧ calls (retrySimple out max duration tracer).1 = k + 1 ∧
      (traced (retrySimple out max duration tracer).1).map Except.error = (if tracer then (List.range k).map out else []) ∧
      sleeps (retrySimple out max duration tracer).1 = (List.range k).flatMap fun _ => duration.toList := by
  obtain ⟨k, hk, he⟩ := retrySimple_spec out max duration tracer
  refine ⟨k, hk, ?_, ?_, ?_⟩
  · rw [he, show ∀ l : List (Ev ε), Ev.call 0 :: l = [Ev.call 0] ++ l from fun _ => rfl, calls_append, calls_range _ _ _ (fun _ => by cases duration <;> rfl)]
    simp [calls]; omega
  · rw [he, show ∀ l : List (Ev ε), Ev.call 0 :: l = [Ev.call 0] ++ l from fun _ => rfl, traced_append]
    cases tracer
    · rw [traced_range_false _ _ (fun _ => by cases duration <;> rfl)]; rfl
    · simpa [traced] using traced_range out (fun _ => waitOf duration) (fun _ => by cases duration <;> rfl) k hk.failed
  · rw [he, show ∀ l : List (Ev ε), Ev.call 0 :: l = [Ev.call 0] ++ l from fun _ => rfl, sleeps_append, sleeps_range]
    cases duration <;> rfl

/-- `LastCall` determines the call: the number of attempts is a function of the outcomes. -/
theorem C32_deterministic {out : Nat → Except ε ω} {n j k : Nat} (hj : LastCall out n j) (hk : LastCall out n k) : j = k := by
  rcases Nat.lt_trichotomy j k with h | h | h
  · obtain ⟨e, he⟩ := hk.failed j h
    rcases hj.ends with ⟨v, hv⟩ | hn
    · simp [he] at hv
    · have := hk.bound; omega
  · exact h
  · obtain ⟨e, he⟩ := hj.failed k h
    rcases hk.ends with ⟨v, hv⟩ | hn
    · simp [he] at hv
    · have := hj.bound; omega

/-- A case: fails twice, then succeeds; three retries allowed. -/
example : LastCall (fun i => if i < 2 then Except.error (ε := Nat) i else .ok i) 4 2 ∧
    retrySimple (fun i => if i < 2 then Except.error (ε := Nat) i else .ok i) 3 (some 7) true =
      ([.call 0, .trace 0, .sleep 7, .call 1, .trace 1, .sleep 7, .call 2], .ok 2) := by
  refine ⟨⟨by decide, fun i hi => ⟨i, by simp [hi]⟩, .inl ⟨2, rfl⟩⟩, by decide +kernel⟩

/-- A case where the retries are exhausted. -/
example : retrySimple (fun i => Except.error (α := Unit) i) 2 none true = ([.call 0, .trace 0, .call 1, .trace 1, .call 2], .error 2) := by decide +kernel

/-- What the last attempt's outcome becomes: a failure is made fatal with the given strategy. -/
def settle (fs : FatalStrategy) : Except (OpError ε) ω → Except (OpError ε) ω
  | .ok v => .ok v
  | .error e => .error (.fatal e.intoErr fs)

/-- **C33** for a first success and a first fatal error: one execution, the outcome unchanged. -/
theorem C33_first (env : BackoffEnv) (fuel : Nat) (out : Nat → Except (OpError ε) ω) :
    (∀ v, out 0 = .ok v → remoteExecute env fuel out = ([.call 0], some (.ok v))) ∧
    ∀ e s, out 0 = .error (.fatal e s) → remoteExecute env fuel out = ([.call 0], some (.error (.fatal e s))) := by
  constructor
  · intro v h; simp [remoteExecute, h]
  · intro e s h; simp [remoteExecute, h, retryInternal]

theorem calls_shift (tr : List (Ev ε)) : calls (tr.map Ev.shift) = calls tr := by
  induction tr with
  | nil => rfl
  | cons e tr ih =>
    have h : ∀ (x : Ev ε) l, calls (x :: l) = calls [x] + calls l := fun x l => calls_append [x] l
    rw [List.map_cons, h, h e, ih]
    cases e <;> rfl

/-- **C33**, `Immediate` and `After` with `n` retries after a transient first failure: the executions end at the first success, with at most `n + 2` in all; the
outcome is the success, or a fatal error with the last underlying error and the *first* error's fatal strategy. -/
theorem C33_attempts (env : BackoffEnv) (fuel : Nat) (out : Nat → Except (OpError ε) ω) {e : ε} {rs : RetryStrategy} {fs : FatalStrategy} {n : Nat}
    (h0 : out 0 = .error (.transient e rs fs)) (hrs : rs = .immediate n ∨ ∃ d, rs = .after n d) :
    ∃ k, LastCall out (n + 2) k ∧ 1 ≤ k ∧ (remoteExecute env fuel out).2 = some (settle fs (out k)) ∧ calls (remoteExecute env fuel out).1 = k + 1 := by
  have key : ∀ d, ∃ k, LastCall out (n + 2) k ∧ 1 ≤ k ∧
      (retrySimple (fun i => out (i + 1)) n d true).2.mapError (fun err => OpError.fatal err.intoErr fs) = settle fs (out k) ∧
      calls (Ev.call 0 :: (retrySimple (fun i => out (i + 1)) n d true).1.map Ev.shift) = k + 1 := by
    intro d
    obtain ⟨k, hk, hc, -, -⟩ := C32_counts (fun i => out (i + 1)) n d true
    obtain ⟨k', hk', hr, -⟩ := C32_attempts (fun i => out (i + 1)) n d true
    have hkk := C32_deterministic hk' hk
    subst hkk
    refine ⟨k' + 1, ⟨by have := hk.bound; omega, fun i hi => ?_, ?_⟩, by omega, ?_, ?_⟩
    · cases i with
      | zero => exact ⟨_, h0⟩
      | succ i => exact hk.failed i (by omega)
    · rcases hk.ends with h | h
      · exact .inl h
      · exact .inr (by omega)
    · rw [hr]; cases out (k' + 1) <;> rfl
    · rw [show ∀ l : List (Ev (OpError ε)), Ev.call 0 :: l = [Ev.call 0] ++ l from fun _ => rfl, calls_append, calls_shift, hc]
      simp [calls]; omega
  rcases hrs with rfl | ⟨d, rfl⟩
  · simpa [remoteExecute, h0, retryInternal, retryWithStrategy] using key none
  · simpa [remoteExecute, h0, retryInternal, retryWithStrategy] using key (some d)

/-- **C33**, `Exponential`: whatever the clock and the jitter, if the executor returns, it returns the outcome of an execution before which all failed, settled
with the first error's fatal strategy. -/
theorem C33_exponential (env : BackoffEnv) (fuel : Nat) (out : Nat → Except (OpError ε) ω) {e : ε} {lo hi : Nat} {fs : FatalStrategy}
    (h0 : out 0 = .error (.transient e (.exponential lo hi) fs)) {r : Except (OpError ε) ω} (h : (remoteExecute env fuel out).2 = some r) :
    ∃ k ≥ 1, (∀ i < k, ∃ e, out i = .error e) ∧ r = settle fs (out k) ∧ calls (remoteExecute env fuel out).1 = k + 1 := by
  have hs := backoffLoop_spec env (fun i => out (i + 1)) lo hi true fuel 0 (by simp)
  simp only [startTime, interval, expBefore] at hs
  simp only [remoteExecute, h0, retryInternal, retryWithStrategy] at h ⊢
  rcases hs with ⟨hn, -⟩ | ⟨k, -, hf, -, hk⟩
  · rw [hn] at h; simp at h
  · rw [hk] at h ⊢
    refine ⟨k + 1, by omega, fun i hi => ?_, ?_, ?_⟩
    · cases i with
      | zero => exact ⟨_, h0⟩
      | succ i => exact (hf i (by omega)).1
    · simp at h; rw [← h]; cases out (k + 1) <;> rfl
    · rw [show ∀ l : List (Ev (OpError ε)), Ev.call 0 :: l = [Ev.call 0] ++ l from fun _ => rfl, calls_append, calls_shift]
      simp only [expEvents]
      have := calls_range (fun i => out (i + 1)) (fun i => [Ev.sleep (delay env lo i)]) true (fun _ => rfl) k
      have h2 := calls_append [Ev.call 0] ((List.range k).flatMap (between (fun i => out (i + 1)) (fun i => [Ev.sleep (delay env lo i)]) true))
      simp only [List.singleton_append] at h2
      rw [h2, this]; simp [calls]; omega

theorem shift_between (out : Nat → Except ε ω) (wait : Nat → List Nat) (tracer : Bool) (k : Nat) :
    ((List.range k).flatMap (between (fun i => out (i + 1)) (fun i => (wait i).map Ev.sleep) tracer)).map Ev.shift =
      (List.range k).flatMap fun i => between out (fun j => (wait (j - 1)).map Ev.sleep) tracer (i + 1) := by
  rw [List.map_flatMap]
  congr 1; funext i
  have hw : (wait i).map (Ev.shift ∘ Ev.sleep) = (wait i).map (Ev.sleep (ε := ε)) := List.map_congr_left fun _ _ => rfl
  simp only [between, List.map_append, List.map_map, hw, Nat.add_sub_cancel, List.map_cons, List.map_nil, Ev.shift]
  cases out (i + 1) <;> cases tracer <;> rfl

/-- **C33**, everything observable, for `Immediate` (`d = none`) and `After` (`d = some _`): the first retry follows the first failure at once; before each further one
the failure is handed to the tracer and the delay passes. -/
theorem C33_trace (env : BackoffEnv) (fuel : Nat) (out : Nat → Except (OpError ε) ω) {e : ε} {rs : RetryStrategy} {fs : FatalStrategy} {n : Nat} {d : Option Nat}
    (h0 : out 0 = .error (.transient e rs fs)) (hrs : (rs = .immediate n ∧ d = none) ∨ ∃ x, rs = .after n x ∧ d = some x) :
    ∃ k, LastCall out (n + 2) (k + 1) ∧ (remoteExecute env fuel out).2 = some (settle fs (out (k + 1))) ∧
      (remoteExecute env fuel out).1 = .call 0 :: .call 1 :: (List.range k).flatMap fun i => between out (fun _ => d.toList.map Ev.sleep) true (i + 1) := by
  obtain ⟨k, hk, hr, ht⟩ := C32_attempts (fun i => out (i + 1)) n d true
  have key : remoteExecute env fuel out = (.call 0 :: (retrySimple (fun i => out (i + 1)) n d true).1.map Ev.shift,
      some ((retrySimple (fun i => out (i + 1)) n d true).2.mapError fun err => OpError.fatal err.intoErr fs)) := by
    rcases hrs with ⟨rfl, rfl⟩ | ⟨x, rfl, rfl⟩ <;> simp [remoteExecute, h0, retryInternal, retryWithStrategy]
  refine ⟨k, ⟨by have := hk.bound; omega, fun i hi => ?_, ?_⟩, ?_, ?_⟩
  · cases i with
    | zero => exact ⟨_, h0⟩
    | succ i => exact hk.failed i (by omega)
  · rcases hk.ends with h | h
    · exact .inl h
    · exact .inr (by omega)
  · rw [key, hr]; cases out (k + 1) <;> rfl
  · rw [key, ht, List.map_cons, shift_between out (fun _ => d.toList) true k]
    simp only [Ev.shift]

/-- A case of C33: the documented `MAX_TRIES + 2` executions (error.rs:381). -/
example : calls (remoteExecute ⟨fun _ => 0, fun _ => 0, fun _ c => c, fun c => c⟩ 0
      (fun i => (.error (.transient i (.immediate 3) .terminate) : Except (OpError Nat) Unit))).1 = 5 ∧
    (remoteExecute ⟨fun _ => 0, fun _ => 0, fun _ c => c, fun c => c⟩ 0
      (fun i => (.error (.transient i (.immediate 3) .terminate) : Except (OpError Nat) Unit))).2 = some (.error (.fatal 4 .terminate)) := by
  decide +kernel

/-- **C34** is false: a fatal error with strategy `Ignore` on the second attempt is retried (the operation runs a third time); and if it is the last attempt its
strategy is replaced by the one of the first, transient, error. -/
theorem C34_fatal_retried_witness : ∃ (out : Nat → Except (OpError Nat) Nat), out 0 = .error (.transient 0 (.immediate 1) .terminate) ∧
    out 1 = .error (.fatal 1 .ignore) ∧ ∀ env fuel, calls (remoteExecute env fuel out).1 = 3 ∧ (remoteExecute env fuel out).2 = some (.error (.fatal 1 .terminate)) := by
  refine ⟨fun i => if i = 0 then .error (.transient 0 (.immediate 1) .terminate) else .error (.fatal 1 .ignore), rfl, rfl, fun env fuel => ?_⟩
  simp [remoteExecute, retryInternal, retryWithStrategy, retrySimple, simpleLoop, calls, Ev.shift, Except.mapError, OpError.intoErr]

/-- **C34**, what holds (partial): if the *first* attempt fails fatally, the operation is not executed again and the error is returned with its own strategy. Missing:
fatal errors of later attempts. -/
theorem C34_first_fatal_partial (env : BackoffEnv) (fuel : Nat) (out : Nat → Except (OpError ε) ω) {e : ε} {s : FatalStrategy} (h : out 0 = .error (.fatal e s)) :
    calls (remoteExecute env fuel out).1 = 1 ∧ (remoteExecute env fuel out).2 = some (.error (.fatal e s)) := by
  rw [(C33_first env fuel out).2 e s h]; exact ⟨rfl, rfl⟩

/-- **C35**: exponential retry, watched for `fuel` calls, for every clock, jitter and growth of the interval. Either it is still running and all `fuel` calls failed
and each was followed by a wait due to end by `hi`; or it returned the outcome of some call `k`, all calls before it failed and were followed by such a
wait, and call `k` succeeded or no wait ending by `hi` was possible. The trace is exactly: call, error to the tracer, sleep, call, … -/
theorem C35_exponential (env : BackoffEnv) (fuel : Nat) (out : Nat → Except ε ω) (lo hi : Nat) (tracer : Bool) :
    ((retryWithStrategy env fuel out (.exponential lo hi) tracer).2 = none ∧ ∀ j < fuel, (∃ e, out j = .error e) ∧ dueTime env lo j ≤ hi) ∨
    ∃ k < fuel, (∀ j < k, (∃ e, out j = .error e) ∧ dueTime env lo j ≤ hi) ∧ ((∃ v, out k = .ok v) ∨ dueTime env lo k > hi) ∧
      (retryWithStrategy env fuel out (.exponential lo hi) tracer).2 = some (out k) ∧
      (retryWithStrategy env fuel out (.exponential lo hi) tracer).1 =
        .call 0 :: (List.range k).flatMap (between out (fun i => [.sleep (delay env lo i)]) tracer) := by
  have hs := backoffLoop_spec env out lo hi tracer fuel 0 (by simp)
  simp only [startTime, interval, expBefore, Nat.zero_add] at hs
  simp only [retryWithStrategy]
  rcases hs with ⟨hn, hj⟩ | ⟨k, hk, hf, he, hr⟩
  · left; exact ⟨by rw [hn], hj⟩
  · right; exact ⟨k, hk, hf, he, by rw [hr], by rw [hr]; rfl⟩

/-- **C33**, everything observable, for `Exponential`: the same with the drawn delays, the interval growing from `min_duration`. -/
theorem C33_exponential_trace (env : BackoffEnv) (fuel : Nat) (out : Nat → Except (OpError ε) ω) {e : ε} {lo hi : Nat} {fs : FatalStrategy}
    (h0 : out 0 = .error (.transient e (.exponential lo hi) fs)) {r : Except (OpError ε) ω} (h : (remoteExecute env fuel out).2 = some r) :
    ∃ k, (∀ i ≤ k, ∃ e, out i = .error e) ∧ r = settle fs (out (k + 1)) ∧ ((∃ v, out (k + 1) = .ok v) ∨ dueTime env lo k > hi) ∧
      (remoteExecute env fuel out).1 = .call 0 :: .call 1 :: (List.range k).flatMap fun i => between out (fun j => [Ev.sleep (delay env lo (j - 1))]) true (i + 1) := by
  rcases C35_exponential env fuel (fun i => out (i + 1)) lo hi true with ⟨hn, -⟩ | ⟨k, -, hf, hend, hk, ht⟩
  · simp [remoteExecute, h0, retryInternal, hn] at h
  · simp only [remoteExecute, h0, retryInternal] at h ⊢
    rw [hk] at h
    refine ⟨k, fun i hi => ?_, ?_, hend, ?_⟩
    · cases i with
      | zero => exact ⟨_, h0⟩
      | succ i => exact (hf i (by omega)).1
    · simp at h; rw [← h]; cases out (k + 1) <;> rfl
    · have := shift_between out (fun i => [delay env lo i]) true k
      simp only [List.map_cons, List.map_nil] at this
      rw [ht, List.map_cons, this]
      simp only [Ev.shift]

/-- **C35**, termination: if drawn delays are at least half the interval (randomization factor 0.5), the interval never falls below the smaller of itself and a cap
(60 s in the crate), and half of the smaller of `min_duration` and the cap is positive, then the retry ends after at most `hi / q + 1` calls whatever the
outcomes. -/
theorem C35_terminates (env : BackoffEnv) (out : Nat → Except ε ω) (lo hi cap q : Nat) (tracer : Bool) (hrand : ∀ i c, c / 2 ≤ env.rand i c)
    (hincr : ∀ c, min c cap ≤ env.incr c) (hq : q = min lo cap / 2) (hpos : 0 < q) {fuel : Nat} (hfuel : hi / q < fuel) :
    (retryWithStrategy env fuel out (.exponential lo hi) tracer).2 ≠ none := by
  intro hn
  rcases C35_exponential env fuel out lo hi tracer with ⟨-, hj⟩ | ⟨k, -, -, -, hk, -⟩
  · have hd : ∀ k, q ≤ delay env lo k := by
      intro k
      have h1 := interval_ge env lo cap hincr k
      have h2 := hrand k (interval env lo k)
      have h3 : min lo cap / 2 ≤ interval env lo k / 2 := Nat.div_le_div_right h1
      unfold delay; omega
    have h1 := (hj (hi / q) hfuel).2
    have h2 := startTime_ge env lo q hd (hi / q)
    have h3 := hd (hi / q)
    have h4 : hi < (hi / q + 1) * q := by
      have := Nat.lt_div_mul_add (a := hi) hpos
      rw [Nat.succ_mul]; exact this
    rw [Nat.succ_mul] at h4
    unfold dueTime at h1; omega
  · rw [hn] at hk; simp at hk

/-- A case of C35: doubling intervals starting at 4, no jitter, each call takes 1, deadline 40: four calls. -/
example : (retryWithStrategy ⟨fun _ => 1, fun _ => 0, fun _ c => c, fun c => 2 * c⟩ 10 (fun i => Except.error (α := Unit) i) (.exponential 4 40) true) =
    ([.call 0, .trace 0, .sleep 4, .call 1, .trace 1, .sleep 8, .call 2, .trace 2, .sleep 16, .call 3], some (.error 3)) := by decide +kernel

/-- **C36**: conversions of `TransientError`. -/
theorem C36_transient (t : TransientError ε) (inj : σ → ε) (e : σ) (r : RetryStrategy) (f : FatalStrategy) :
    t.toOp = .transient t.err t.retry t.fatal ∧ (t.toResult : Except (OpError ε) ω) = .error (.transient t.err t.retry t.fatal) ∧
    (TransientError.new inj e r f).toOp = .transient (inj e) r f ∧ (TransientError.fromErr inj e).toOp = .transient (inj e) (.immediate 3) .terminate :=
  ⟨rfl, rfl, rfl, rfl⟩

/-- **C36**: conversions of `FatalError`. -/
theorem C36_fatal (t : FatalError ε) (inj : σ → ε) (e : σ) (s : FatalStrategy) :
    t.toOp = .fatal t.err t.strategy ∧ (t.toResult : Except (OpError ε) ω) = .error (.fatal t.err t.strategy) ∧
    (FatalError.new inj e s).toOp = .fatal (inj e) s ∧ (FatalError.fromErr inj e).toOp = .fatal (inj e) .terminate := ⟨rfl, rfl, rfl, rfl⟩

/-- **C36**: `into_fatal` yields a fatal error with the same underlying error and the same `fatal_strategy()`, leaves fatal errors alone, and is idempotent. -/
theorem C36_into_fatal (e : OpError ε) : e.intoFatal = .fatal e.intoErr e.fatalStrategy ∧ e.intoFatal.intoErr = e.intoErr ∧
    e.intoFatal.fatalStrategy = e.fatalStrategy ∧ e.intoFatal.intoFatal = e.intoFatal ∧ ∀ x s, e = .fatal x s → e.intoFatal = e := by
  cases e <;> simp [OpError.intoFatal, OpError.intoErr, OpError.fatalStrategy]

/-- **C36**: exhausting the retries of an error has the effect of `into_fatal` on it, up to the underlying error being the last attempt's. -/
theorem C36_exhausted (env : BackoffEnv) (fuel : Nat) (self : OpError ε) (out : Nat → Except (OpError ε) ω) (tracer : Bool) {err : OpError ε}
    (h : (retryInternal env fuel self out tracer).2 = some (.error err)) : err.fatalStrategy = self.fatalStrategy ∧ err.intoFatal = err := by
  cases self with
  | fatal e s => simp [retryInternal] at h; subst h; exact ⟨rfl, rfl⟩
  | transient e rs fs =>
    simp only [retryInternal] at h
    cases hr : (retryWithStrategy env fuel out rs tracer).2 with
    | none => simp [hr] at h
    | some r =>
      cases r with
      | ok v => simp [hr, Except.mapError] at h
      | error e' => simp [hr, Except.mapError] at h; subst h; exact ⟨rfl, rfl⟩

end Retry
end Paladin
