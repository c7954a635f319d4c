import Verif.Model.Program
import Verif.Spec.Abort
/-! # Specification: the programs of `hello-world-rabbitmq` as processes -/
namespace Paladin
namespace Program
open Retry Exec Wire _root_.Paladin.System Hello

section
variable {ε L : Type}

/-- The steps of the computations, the workers and the broker. -/
def sysOf (ls : List (Label ε L)) : List (SysLabel ε L) := ls.filterMap fun | .sys x => some x | _ => none

/-- The seconds that pass. -/
def elapsed : List (Label ε L) → Nat
  | [] => 0
  | .tick n :: ls => n + elapsed ls
  | _ :: ls => elapsed ls

/-- The timer of leader `l` wakes up. -/
def Label.fires [DecidableEq L] (l : L) : Label ε L → Bool
  | .fire l' _ => decide (l' = l)
  | _ => false

/-- A timer publishes its command. -/
def Label.sends : Label ε L → Bool
  | .fire _ ok => ok
  | _ => false

/-- A command is delivered again. -/
def Label.redelivers : Label ε L → Bool
  | .again => true
  | _ => false

/-- A worker receives a command. -/
def Label.hears : Label ε L → Bool
  | .sys (.work _ (.cmd _)) => true
  | _ => false

/-- In the execution `ls`, an operation that has found the abort signal set by the time its outcome is taken ran on a worker whose flag is set by then. -/
def Reads [DecidableEq L] [DecidableEq ε] [Anyhow ε] (e : Env ε L) (ls : List (Label ε L)) : Prop :=
  ∀ pre w x post s, ls = pre ++ .sys (.finish w x) :: post → run e (init e) pre = some s → Sees e.flag x → (s.sys.worker w).flag = true

/-- What the connection of leader `l` did to its computation. -/
def mapSteps [DecidableEq L] (ls : List (Label ε L)) (l : L) : List (MapS.Label Char ε Circ) := SystemAmqp.mapSteps (sysOf ls) l
def foldSteps [DecidableEq L] (ls : List (Label ε L)) (l : L) : List (Fold.Label Str ε Circ) := SystemAmqp.foldSteps (sysOf ls) l

/-- What the computation of leader `l` has returned, if it has. -/
def outcome (s : St ε L) (l : L) : Option (Fold.Outcome Str ε) := (SystemAmqp.foldOf s.sys l).outcome

/-- The executions of the computations, workers and broker alone. -/
abbrev sysRun [DecidableEq L] [Anyhow ε] (e : Env ε L) (xs : List (SysLabel ε L)) : Option (SysSt ε L) :=
  SystemAmqp.helloRun e.join e.dupErr (ops e) e.k e.kt e.flag e.dbg e.keyM e.keyF idM idF e.nt e.cfg xs
end

end Program
end Paladin
