import Verif.Model.System
/-!
# Specification: one job alone

The job of one leader with an unreliable bag of tasks instead of queue and workers: a task in the bag may be executed (its result is appended to the results), lost or duplicated.
-/
namespace Paladin
namespace System
open Retry

/-- One job: the directive, the tasks not yet executed, the results waiting for the leader. -/
structure Job (σ T R : Type) where
  lead : σ
  tasks : List T
  results : List R

inductive JobLabel (ℓ ω : Type) where
  /-- the leader takes a step -/
  | lead (l : ℓ)
  /-- the `k`-th task is executed under circumstances `x` and its result published -/
  | exec (k : Nat) (x : ω)
  /-- the `k`-th task is lost -/
  | lose (k : Nat)
  /-- the `k`-th task will be executed once more -/
  | dup (k : Nat)

def Job.step (cl : Client σ ℓ T R) (ex : ω → T → R) (s : Job σ T R) : JobLabel ℓ ω → Option (Job σ T R)
  | .lead l =>
    match cl.step s.lead l s.results with
    | some (x, ts, rs) => some ⟨x, s.tasks ++ ts, rs⟩
    | none => none
  | .exec k x =>
    match Fold.takeAt s.tasks k with
    | some (t, rest) => some { s with tasks := rest, results := s.results ++ [ex x t] }
    | none => none
  | .lose k =>
    match Fold.takeAt s.tasks k with
    | some (_, rest) => some { s with tasks := rest }
    | none => none
  | .dup k =>
    match s.tasks[k]? with
    | some t => some { s with tasks := s.tasks ++ [t] }
    | none => none

def Job.init (cl : Client σ ℓ T R) : Job σ T R := ⟨cl.init, [], []⟩

abbrev Job.run (cl : Client σ ℓ T R) (ex : ω → T → R) (s : Job σ T R) (ls : List (JobLabel ℓ ω)) : Option (Job σ T R) := Lts.run (Job.step cl ex) s ls

/-- What the leader does with the outcome of an execution: success or the text of the error. -/
def outcome (exec : ω → T → Except (OpError χ) O) (text : OpError χ → ε) (x : ω) (t : T) : Except ε O := (exec x t).mapError text

/-- The steps of the leader of a job alone. -/
def JobLabel.leads : List (JobLabel ℓ ω) → List ℓ
  | [] => []
  | .lead l :: ls => l :: JobLabel.leads ls
  | _ :: ls => JobLabel.leads ls

/-- The steps of the leader of job `j`. -/
def Label.leads {κ : Type} {ℓ : κ → Type} [DecidableEq κ] (j : κ) : List (Label κ ℓ O χ ω) → List (ℓ j)
  | [] => []
  | .lead j' l :: ls => if h : j' = j then h ▸ l :: Label.leads j ls else Label.leads j ls
  | _ :: ls => Label.leads j ls

/-- The broker returns an unacknowledged delivery to the queue. -/
def Label.requeues {κ : Type} {ℓ : κ → Type} : Label κ ℓ O χ ω → Bool
  | .requeue _ => true
  | _ => false

def JobLabel.dups : JobLabel ℓ ω → Bool
  | .dup _ => true
  | _ => false

def JobLabel.loses : JobLabel ℓ ω → Bool
  | .lose _ => true
  | _ => false

/-- The worker loop is at a task for which it may still publish a result. -/
def mayAnswer : Worker.Pc κ O χ → Bool
  | .got _ _ | .checked _ _ | .starting _ _ | .running _ _ _ _ | .failing _ _ _ => true
  | .settleOk _ _ _ _ published => !published
  | .settleErr _ _ _ _ published _ => !published
  | _ => false

/-- The worker of delivery `n` may still publish a result for it. -/
def active {κ : Type} {σ : κ → Type} (s : St κ σ T O ε χ) (n : Nat) (d : Del κ T) : Bool := decide (s.cur d.worker = n) && mayAnswer (s.worker d.worker).pc

/-- Delivery `n` is lost: the broker has forgotten it, no result was published and none will be. -/
def Lost {κ : Type} {σ : κ → Type} (s : St κ σ T O ε χ) (n : Nat) (d : Del κ T) : Prop := d.fate = .settled ∧ d.answered = false ∧ active s n d = false

/-- No delivery of job `j` was returned to the queue by the broker. -/
def NoReturn {κ : Type} {σ : κ → Type} (j : κ) (s : St κ σ T O ε χ) : Prop := ∀ d ∈ s.dels, d.msg.key = j → d.fate ≠ .returned

/-- No delivery of job `j` is lost. -/
def NoLoss {κ : Type} {σ : κ → Type} (j : κ) (s : St κ σ T O ε χ) : Prop := ∀ n d, s.dels[n]? = some d → d.msg.key = j → ¬ Lost s n d

/-- The worker steps that make delivery `d` lost, with the worker at `pc`. -/
inductive WhyLost (d : Del κ T) : Worker.Pc κ O χ → Worker.Label κ O χ → Prop
  /-- the job was found terminated and the task is rejected unseen -/
  | terminated (i k) : d.fate = .held → WhyLost d (.skipping i k) .skipNack
  /-- an abort-all command interrupted the execution and the task is rejected -/
  | interrupted (i k) : d.fate = .held → WhyLost d (.interrupted i k) .intNack
  /-- the execution failed with an error to be ignored -/
  | ignored (i k e q) : d.fate = .held → e.fatalStrategy = .ignore → WhyLost d (.settleErr i k e false true q) .nack
  /-- the worker dies, or a broker call fails, between the acknowledgement and the publication of the result -/
  | halfOk (i k o l) : d.fate = .settled → l = .crash ∨ l = .settleFail → WhyLost d (.settleOk i k o true false) l
  /-- the worker dies, or a broker call fails, between the rejection and the publication of the error -/
  | halfErr (i k e q l) : d.fate = .settled → l = .crash ∨ l = .settleFail → WhyLost d (.settleErr i k e true false q) l

/-- The step by which delivery `n` becomes lost. -/
def Loses {κ : Type} {σ ℓ : κ → Type} (s : St κ σ T O ε χ) (n : Nat) (d : Del κ T) (l : Label κ ℓ O χ ω) : Prop :=
  ∃ wl, l = .work d.worker wl ∧ s.cur d.worker = n ∧ WhyLost d (s.worker d.worker).pc wl

/-- No worker process dies, no broker call of a worker fails after a task was executed, and no worker is told to abort job `j` or everything. -/
def Label.calm {κ : Type} {ℓ : κ → Type} [DecidableEq κ] (cfg : Worker.Cfg κ) (j : κ) : Label κ ℓ O χ ω → Bool
  | .work _ .crash | .work _ .settleFail => false
  | .work _ (.cmd k) => k ≠ j && k ≠ cfg.abortAll
  | _ => true

/-- No execution of a task of job `j` fails. -/
def NeverFails {κ : Type} {σ : κ → Type} (exec : ω → T → Except (OpError χ) O) (j : κ) (s : St κ σ T O ε χ) : Prop :=
  ∀ d ∈ s.dels, d.msg.key = j → ∀ x e, exec x d.msg.task ≠ .error e

/-- The only commands workers receive are abort-all commands, each after a worker has published one (`dispatch_fatal`, `runtime/mod.rs` 577-581, is the only place that sends
commands). `b`: one has been published already. -/
def commandsSent {κ : Type} {ℓ : κ → Type} [DecidableEq κ] (cfg : Worker.Cfg κ) : Bool → List (Label κ ℓ O χ ω) → Bool
  | _, [] => true
  | b, .work _ (.cmd k) :: ls => b && decide (k = cfg.abortAll) && commandsSent cfg b ls
  | _, .work _ .pubAbort :: ls => commandsSent cfg true ls
  | b, _ :: ls => commandsSent cfg b ls

/-- No worker process dies and no broker call of a worker fails after a task was executed. -/
def Label.noFault {κ : Type} {ℓ : κ → Type} : Label κ ℓ O χ ω → Bool
  | .work _ .crash | .work _ .settleFail => false
  | _ => true

/-- A worker publishes an abort-all command: an execution failed fatally, and the error asks to terminate the job. -/
def Label.abortsAll {κ : Type} {ℓ : κ → Type} : Label κ ℓ O χ ω → Bool
  | .work _ .pubAbort => true
  | _ => false

/-- What a worker does with a task when nothing goes wrong around it. -/
def routine : Worker.Label κ O χ → Bool
  | .checkFlag | .checkTerm | .skipNack | .start | .mark | .ack | .nack | .pubOk | .pubErr | .pubAbort | .settled => true
  | _ => false

/-- The steps of the workers `W` that follow from the tasks they get. -/
def Label.serves {κ : Type} {ℓ : κ → Type} (W : Nat → Bool) : Label κ ℓ O χ ω → Bool
  | .deliver w _ | .finish w _ => W w
  | .work w l => W w && routine l
  | _ => false

/-- Nothing goes wrong with workers and broker: the workers are those of `W`, none dies, none is told to stop or that a job is over, no broker call fails, and nothing is returned to the
queue. Leaders may do anything. -/
def Label.steady {κ : Type} {ℓ : κ → Type} (W : Nat → Bool) : Label κ ℓ O χ ω → Bool
  | .lead _ _ => true
  | .work w (.tick _) | .work w .reap => W w
  | .requeue _ => false
  | l => l.serves W

/-- Time passes for a worker, or its record of terminated jobs is cleaned up. -/
def Label.idles {κ : Type} {ℓ : κ → Type} : Label κ ℓ O χ ω → Bool
  | .work _ (.tick _) | .work _ .reap => true
  | _ => false

/-- What happens without new input: steps `int` of the leaders and the work of the workers `W`. -/
def Label.moves {κ : Type} {ℓ : κ → Type} (W : Nat → Bool) (int : (j : κ) → ℓ j → Bool) : Label κ ℓ O χ ω → Bool
  | .lead j l => int j l
  | l => l.serves W

end System
end Paladin
