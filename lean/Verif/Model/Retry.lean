import Verif.Model.Prelude
/-!
# Model of error types and retrying

Code: `paladin-core/src/operation/error.rs`, and the retry part of the executor generated by `paladin-opkind-derive/src/lib.rs` lines 155-164.

What the retried closure `f` does is a parameter: `out i` is the outcome of its `i`-th call (a closure may have side effects, so every stream of outcomes is
possible). Functions return the result together with the list of externally visible events in order.
`Duration` is a number of nanoseconds. `anyhow::Error` is a type parameter `ε`. `NonZeroU32` is `Nat` (theorems hold for 0 too).
-/
namespace Paladin
namespace Retry

/-- `RetryStrategy`, error.rs:35-48. -/
inductive RetryStrategy where
  | immediate (maxRetries : Nat)
  | after (maxRetries : Nat) (duration : Nat)
  | exponential (minDuration maxDuration : Nat)
deriving DecidableEq, Repr

/-- `impl Default for RetryStrategy`, error.rs:50-56. -/
def RetryStrategy.default : RetryStrategy := .immediate 3

/-- `FatalStrategy`, error.rs:127-133. -/
inductive FatalStrategy where
  | terminate
  | ignore
deriving DecidableEq, Repr

/-- `#[default] Terminate`, error.rs:129-130. -/
def FatalStrategy.default : FatalStrategy := .terminate

/-- `OperationError`, error.rs:390-410. -/
inductive OpError (ε : Type) where
  | transient (err : ε) (retry : RetryStrategy) (fatal : FatalStrategy)
  | fatal (err : ε) (strategy : FatalStrategy)
deriving DecidableEq, Repr

/-- `OperationError::into_err`, error.rs:466-471. -/
def OpError.intoErr : OpError ε → ε
  | .transient e _ _ => e
  | .fatal e _ => e

/-- `OperationError::into_fatal`, error.rs:484-496. -/
def OpError.intoFatal : OpError ε → OpError ε
  | .transient e _ f => .fatal e f
  | .fatal e s => .fatal e s

/-- `OperationError::fatal_strategy`, error.rs:498-503. -/
def OpError.fatalStrategy : OpError ε → FatalStrategy
  | .transient _ _ f => f
  | .fatal _ s => s

/-- `TransientError`, error.rs:510-514. -/
structure TransientError (ε : Type) where
  err : ε
  retry : RetryStrategy
  fatal : FatalStrategy
deriving DecidableEq, Repr

/-- `TransientError::new` (the error is converted by `inj`, `anyhow`'s `From`), error.rs:517-527; `from_anyhow` (529-539) is `inj = id`, `from_str` (541-551) is
`inj = anyhow::Error::msg`. -/
def TransientError.new (inj : σ → ε) (e : σ) (r : RetryStrategy) (f : FatalStrategy) : TransientError ε := ⟨inj e, r, f⟩

/-- `impl From<E> for TransientError`, error.rs:554-565. -/
def TransientError.fromErr (inj : σ → ε) (e : σ) : TransientError ε := ⟨inj e, .default, .default⟩

/-- `impl From<TransientError> for OperationError`, error.rs:567-575. -/
def TransientError.toOp (t : TransientError ε) : OpError ε := .transient t.err t.retry t.fatal

/-- `impl From<TransientError> for Result<T>`, error.rs:577-581. -/
def TransientError.toResult (t : TransientError ε) : Except (OpError ε) ω := .error t.toOp

/-- `FatalError`, error.rs:587-590. -/
structure FatalError (ε : Type) where
  err : ε
  strategy : FatalStrategy
deriving DecidableEq, Repr

/-- `FatalError::new`, `from_anyhow`, `from_str`, error.rs:593-612. -/
def FatalError.new (inj : σ → ε) (e : σ) (s : FatalStrategy) : FatalError ε := ⟨inj e, s⟩

/-- `impl From<E> for FatalError`, error.rs:615-625. -/
def FatalError.fromErr (inj : σ → ε) (e : σ) : FatalError ε := ⟨inj e, .default⟩

/-- `impl From<FatalError> for OperationError`, error.rs:627-634. -/
def FatalError.toOp (t : FatalError ε) : OpError ε := .fatal t.err t.strategy

/-- `impl From<FatalError> for Result<T>`, error.rs:636-640. -/
def FatalError.toResult (t : FatalError ε) : Except (OpError ε) ω := .error t.toOp

/-- Visible events: the `i`-th call of the closure, an error handed to the tracer, a sleep of the given length. Code: error.rs:645-713. -/
inductive Ev (ε : Type) where
  | call (i : Nat)
  | trace (e : ε)
  | sleep (d : Nat)
deriving DecidableEq, Repr

/-- The `while let` loop of `retry_simple`, error.rs:659-671; `num` is `num_retries`, `r` is `result`, `tr` the events so far. -/
def simpleLoop (out : Nat → Except ε ω) (max : Nat) (duration : Option Nat) (tracer : Bool) (num : Nat) (tr : List (Ev ε)) (r : Except ε ω) :
    List (Ev ε) × Except ε ω :=
  match r with
  | .ok v => (tr, .ok v)
  | .error e =>
    if num ≥ max then (tr, .error e)
    else
      let tr1 := if tracer then tr ++ [.trace e] else tr
      let tr2 := match duration with
        | some d => tr1 ++ [.sleep d]
        | none => tr1
      simpleLoop out max duration tracer (num + 1) (tr2 ++ [.call (num + 1)]) (out (num + 1))
termination_by max - num

/-- `retry_simple`, error.rs:645-673. -/
def retrySimple (out : Nat → Except ε ω) (max : Nat) (duration : Option Nat) (tracer : Bool) : List (Ev ε) × Except ε ω :=
  simpleLoop out max duration tracer 0 [.call 0] (out 0)

/-- What the environment of the `backoff` crate decides (backoff 0.4.0, `exponential.rs` and `future.rs`; not part of /repo): `took i` is how long the `i`-th call
takes, `late i` by how much the `i`-th timer is late, `rand i c` the `i`-th randomised interval drawn from the interval `c` (`get_random_value_from_interval`
with a fresh random number), `incr c` the next interval (`increment_current_interval`). -/
structure BackoffEnv where
  took : Nat → Nat
  late : Nat → Nat
  rand : Nat → Nat → Nat
  incr : Nat → Nat

/-- `backoff::future::retry_notify` after `i` failed calls and waits: `now` is the time elapsed since the backoff was reset when the `i`-th call starts, `cur` is
`current_interval`; `maxE` is `max_elapsed_time`. `fuel` bounds the number of further calls; when it is used up the result is `none` (still running).
`ExponentialBackoff::next_backoff` gives up when the elapsed time exceeds `maxE` or the drawn delay would end after `maxE`. Called in error.rs:697-711. -/
def backoffLoop (env : BackoffEnv) (out : Nat → Except ε ω) (maxE : Nat) (tracer : Bool) : Nat → (i now cur : Nat) → List (Ev ε) → List (Ev ε) × Option (Except ε ω)
  | 0, _, _, _, tr => (tr, none)
  | fuel + 1, i, now, cur, tr =>
    let tr := tr ++ [.call i]
    let now := now + env.took i
    match out i with
    | .ok v => (tr, some (.ok v))
    | .error e =>
      if now > maxE then (tr, some (.error e))
      else
        let d := env.rand i cur
        if now + d ≤ maxE then
          let tr := if tracer then tr ++ [.trace e] else tr
          backoffLoop env out maxE tracer fuel (i + 1) (now + d + env.late i) (env.incr cur) (tr ++ [.sleep d])
        else (tr, some (.error e))

/-- `retry_with_strategy`, error.rs:676-713; `into_backoff` (82-95) sets the initial interval to `min_duration` and the maximal elapsed time to `max_duration`.
Errors of the closure become transient errors of the `backoff` crate (`?` at line 702), which are always retried while the policy allows. `fuel` matters
only for `exponential`: the number of calls after which we stop watching. -/
def retryWithStrategy (env : BackoffEnv) (fuel : Nat) (out : Nat → Except ε ω) (s : RetryStrategy) (tracer : Bool) : List (Ev ε) × Option (Except ε ω) :=
  match s with
  | .immediate n => let r := retrySimple out n none tracer; (r.1, some r.2)
  | .after n d => let r := retrySimple out n (some d) tracer; (r.1, some r.2)
  | .exponential lo hi => backoffLoop env out hi tracer fuel 0 0 lo []

/-- `OperationError::retry_internal`, error.rs:413-433. -/
def retryInternal (env : BackoffEnv) (fuel : Nat) (self : OpError ε) (out : Nat → Except (OpError ε) ω) (tracer : Bool) :
    List (Ev (OpError ε)) × Option (Except (OpError ε) ω) :=
  match self with
  | .transient _ rs fs =>
    let r := retryWithStrategy env fuel out rs tracer
    (r.1, r.2.map fun res => res.mapError fun err => .fatal err.intoErr fs)
  | .fatal e s => ([], some (.error (.fatal e s)))

/-- Shift the indices of calls by one (the executor's first call is number 0, the calls made by the retry are 1, 2, …). -/
def Ev.shift : Ev ε → Ev ε
  | .call i => .call (i + 1)
  | .trace e => .trace e
  | .sleep d => .sleep d

/-- The generated executor: first attempt, then retrying with a tracer, paladin-opkind-derive/src/lib.rs:155-164. `out i` is the result of the `i`-th execution of
`get_result` (lines 118-153). -/
def remoteExecute (env : BackoffEnv) (fuel : Nat) (out : Nat → Except (OpError ε) ω) : List (Ev (OpError ε)) × Option (Except (OpError ε) ω) :=
  match out 0 with
  | .ok v => ([.call 0], some (.ok v))
  | .error err =>
    let r := retryInternal env fuel err (fun i => out (i + 1)) true
    (.call 0 :: r.1.map Ev.shift, r.2)

end Retry
end Paladin
