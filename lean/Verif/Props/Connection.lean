import Verif.Proofs.Connection
import Verif.Model.InMem
/-! # In-memory connections (C31) -/
namespace Paladin
namespace Connection

/-- **C31**: whatever calls are made, everything they return is what the specification returns: there is one queue for each name and each time the name was free,
made with the options of the first declaration, and an operation through a handle acts on that handle's queue alone. For every kind of queue (`new`, `act`). -/
theorem C31_isolated [DecidableEq N] (new : Opts → Q) (act : Q → O → Q × R) (os : List (Op N Opts O)) :
    outputs new act init os = Spec.outputs new act Spec.init os := sim_outputs os sim_init

/-- A queue to try this with: `none` reads the oldest message, `some m` publishes `m`; the options are a number that `none` returns when there is no message. -/
def fifo (q : Nat × List Nat) : Option Nat → (Nat × List Nat) × Nat
  | some m => ((q.1, q.2 ++ [m]), 0)
  | none => match q.2 with
    | [] => (q, q.1)
    | m :: ms => ((q.1, ms), m)

/-- Two handles on one name share messages and keep the first options, another name has its own messages, after deletion the old handle keeps the old queue and a new
declaration finds an empty one with its own options. -/
example : outputs (N := String) (fun o => (o, [])) fifo init
    [.declare "a" 7, .declare "b" 8, .declare "a" 9, .use 0 (some 1), .use 1 (some 2), .use 2 none, .use 2 none, .use 1 none, .use 0 (some 3), .delete "a", .declare "a" 10, .use 3 none,
      .use 0 none] =
    [.handle 0, .handle 1, .handle 2, .result 0, .result 0, .result 1, .result 7, .result 2, .result 0, .done, .handle 3, .result 10, .result 3] := by decide

end Connection
end Paladin
