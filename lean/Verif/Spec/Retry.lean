import Verif.Model.Retry
/-! # Specification vocabulary for retrying -/
namespace Paladin
namespace Retry

/-- Number of calls of the closure in a trace. -/
def calls (tr : List (Ev ε)) : Nat := tr.countP fun e => match e with
  | .call _ => true
  | _ => false

/-- Errors handed to the tracer. -/
def traced (tr : List (Ev ε)) : List ε := tr.filterMap fun e => match e with
  | .trace e => some e
  | _ => none

/-- Sleeps. -/
def sleeps (tr : List (Ev ε)) : List Nat := tr.filterMap fun e => match e with
  | .sleep d => some d
  | _ => none

/-- The call at which a sequence of attempts of length at most `n` ends: the first success, or else the last one allowed. -/
structure LastCall (out : Nat → Except ε ω) (n k : Nat) : Prop where
  bound : k < n
  failed : ∀ i < k, ∃ e, out i = .error e
  ends : (∃ v, out k = .ok v) ∨ k + 1 = n

/-- What happens between the call `i` and the next: its error goes to the tracer, then the waiting, then the next call. -/
def between (out : Nat → Except ε ω) (wait : Nat → List (Ev ε)) (tracer : Bool) (i : Nat) : List (Ev ε) :=
  (match out i with
    | .error e => if tracer then [Ev.trace e] else []
    | .ok _ => []) ++ wait i ++ [.call (i + 1)]

/-- The interval of an exponential backoff before its `k`-th delay is drawn. -/
def interval (env : BackoffEnv) (lo : Nat) : Nat → Nat
  | 0 => lo
  | k + 1 => env.incr (interval env lo k)

/-- The delay drawn after the `k`-th failure. -/
def delay (env : BackoffEnv) (lo k : Nat) : Nat := env.rand k (interval env lo k)

/-- The time at which the `k`-th call starts if all calls before it fail and are followed by a wait. -/
def startTime (env : BackoffEnv) (lo : Nat) : Nat → Nat
  | 0 => 0
  | k + 1 => startTime env lo k + env.took k + delay env lo k + env.late k

/-- The time at which the next call after the failure of the `k`-th is due. -/
def dueTime (env : BackoffEnv) (lo k : Nat) : Nat := startTime env lo k + env.took k + delay env lo k

end Retry
end Paladin
