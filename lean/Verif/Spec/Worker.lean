import Verif.Model.Worker
/-! # Specification vocabulary for the worker loop -/
namespace Paladin
namespace Worker
open Retry

/-- The event concerns task `i`. -/
def Ev.about (i : Nat) : Ev κ ο χ → Bool
  | .take j _ | .start j _ _ | .done j _ | .ack j | .nack j | .resOk j _ _ | .resErr j _ _ | .sendAbort j | .interrupted j => j == i
  | .mark _ _ | .processed _ _ => false

/-- Everything that happened to task `i`, in order. -/
def taskLog (log : List (Ev κ ο χ)) (i : Nat) : List (Ev κ ο χ) := log.filter (Ev.about i)

/-- What can have happened in all to a task with which the loop is done.
`skipped`: nacked without being executed. `ok`: executed successfully, acked and one `Ok` result published to its routing key. `terminate`: it failed with strategy
`Terminate`, was nacked, one `Err` result was published to its routing key and one abort-all command. `ignore`: it failed with strategy `Ignore` and was nacked. -/
inductive Settled (i : Nat) : List (Ev κ ο χ) → Prop where
  | skipped (k : κ) : Settled i [.take i k, .nack i]
  | ok (k : κ) (t : Nat) (o : ο) (rest : List (Ev κ ο χ)) (h : rest.Perm [.ack i, .resOk i k o]) :
      Settled i (.take i k :: .start i k t :: .done i (.ok o) :: rest)
  | terminate (k : κ) (t : Nat) (e : OpError χ) (rest : List (Ev κ ο χ)) (he : e.fatalStrategy = .terminate) (h : rest.Perm [.nack i, .resErr i k e, .sendAbort i]) :
      Settled i (.take i k :: .start i k t :: .done i (.error e) :: rest)
  | ignore (k : κ) (t : Nat) (e : OpError χ) (he : e.fatalStrategy = .ignore) : Settled i [.take i k, .start i k t, .done i (.error e), .nack i]

end Worker
end Paladin
