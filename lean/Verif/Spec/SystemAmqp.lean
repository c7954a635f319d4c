import Verif.Model.SystemAmqp
import Verif.Model.SystemMem
import Verif.Spec.SystemClients
/-! # Specification vocabulary for the whole system on an AMQP broker -/
namespace Paladin
namespace SystemAmqp
open Retry System

/-- The steps of the leader of job `j`. -/
def Label.leads {κ : Type} {ℓ : κ → Type} [DecidableEq κ] (j : κ) : List (Label κ ℓ T O ε χ ω) → List (ℓ j)
  | [] => []
  | .lead j' l :: ls => if h : j' = j then h ▸ l :: Label.leads j ls else Label.leads j ls
  | .recv j' l :: ls => if h : j' = j then h ▸ l :: Label.leads j ls else Label.leads j ls
  | _ :: ls => Label.leads j ls

/-- Nothing goes wrong with the workers, which are those of `W` (see `System.Label.steady`). -/
def Label.steady {κ : Type} {ℓ : κ → Type} (W : Nat → Bool) : Label κ ℓ T O ε χ ω → Bool
  | .deliver w | .finish w _ => W w
  | .work w l => System.Label.steady W (.work w l : System.Label κ ℓ O χ ω)
  | _ => true

/-- Message `m` has been received twice. -/
def Redelivered {κ : Type} (n : Amqp.St (Name κ) (Payload κ T O ε)) (m : Nat) : Prop := ∃ k k', k ≠ k' ∧ (m, k) ∈ n.yielded ∧ (m, k') ∈ n.yielded

/-- What happens without new input: steps `int` of the leaders, the work of the workers `W`, deliveries by the broker, and the acknowledgements of results by the leaders of the jobs `K`. -/
def Label.moves {κ : Type} {ℓ : κ → Type} (W : Nat → Bool) (K : κ → Bool) (int : (j : κ) → ℓ j → Bool) : Label κ ℓ T O ε χ ω → Bool
  | .lead j l | .recv j l => int j l
  | .ackRes j => K j
  | .deliver w | .finish w _ => W w
  | .work w l => W w && routine l
  | .net (.deliver _) => true
  | _ => false

/-- Time passes for a worker, its record of terminated jobs is cleaned up, or somebody polls and finds nothing. -/
def Label.idles {κ : Type} {ℓ : κ → Type} : Label κ ℓ T O ε χ ω → Bool
  | .work _ (.tick _) | .work _ .reap | .sleep _ => true
  | _ => false

/-- The consumer of an owner exists, is not cancelled, and its queue is there. -/
def Served {κ : Type} {σ : κ → Type} [DecidableEq κ] (s : St κ σ T O ε χ) (o : Owner κ) : Prop :=
  ∃ k c q, s.ties.lookup o = some k ∧ s.net.consumers[k]? = some c ∧ c.cancelled = false ∧ s.net.queues[c.inst]? = some q ∧ q.present = true

/-- The consumers of queue `name`. -/
def Consumes {κ : Type} (n : Amqp.St (Name κ) (Payload κ T O ε)) (k : Nat) (name : Name κ) : Prop := ∃ c q, n.consumers[k]? = some c ∧ n.queues[c.inst]? = some q ∧ q.name = name

/-- No connection was closed, nothing sent to the bus or to the leader of job `j` was lost, workers of `W` and nobody else consume from the bus, and the leader of job `j` and nobody else from its queue, as long as
it listens. -/
structure Attended {κ : Type} {σ : κ → Type} [DecidableEq κ] (listens : (j : κ) → σ j → Bool) (W : Nat → Bool) (j : κ) (s : St κ σ T O ε χ) : Prop where
  up : s.net.closed = []
  kept : ∀ m g, s.net.msgs[m]? = some g → g.name = .bus ∨ g.name = .job j → m ∉ s.net.lost ∧ m ∉ s.net.unroutable
  bus : ∀ k, Consumes s.net k .bus → ∃ w, W w = true ∧ s.ties.lookup (.worker w) = some k
  worker : ∃ w, W w = true ∧ Served s (.worker w)
  res : ∀ k, Consumes s.net k (.job j) → s.ties.lookup (.job j) = some k
  leader : listens j (s.lead j) = true → Served s (.job j)

/-- A step of a map, but for which of the waiting results is received. -/
def mapAny : MapS.Label α ε ω → MapS.Label α ε ω
  | .recv _ => .recv 0
  | .recvAckErr _ e => .recvAckErr 0 e
  | l => l

/-- A step of a fold, but for which of the waiting results is received. -/
def foldAny : Fold.Label α ε ω → Fold.Label α ε ω
  | .recv _ => .recv 0
  | l => l

/-- The same for any job. -/
def dirAny {A B : Type} {α : A → Type} {γ : B → Type} {ε ω : Type} : (j : A ⊕ B) → DirLabel α γ ε ω j → DirLabel α γ ε ω j
  | .inl a, l => mapAny (α := α a) (ε := ε) (ω := ω) l
  | .inr b, l => foldAny (α := γ b) (ε := ε) (ω := ω) l

/-- The steps of a map, and of a fold. -/
abbrev mapSteps {A B : Type} [DecidableEq A] [DecidableEq B] {α : A → Type} {γ : B → Type} (ls : List (Label (A ⊕ B) (DirLabel α γ ε ω) T O ε χ ω)) (a : A) : List (MapS.Label (α a) ε ω) :=
  Label.leads (Sum.inl a) ls
abbrev foldSteps {A B : Type} [DecidableEq A] [DecidableEq B] {α : A → Type} {γ : B → Type} (ls : List (Label (A ⊕ B) (DirLabel α γ ε ω) T O ε χ ω)) (b : B) : List (Fold.Label (γ b) ε ω) :=
  Label.leads (Sum.inr b) ls

/-- State of the leader of a map, and of a fold. -/
abbrev mapOf {A B : Type} {α β : A → Type} {γ : B → Type} (s : St (A ⊕ B) (DirSt α β γ ε) T O ε χ) (a : A) : MapS.St (α a) (β a) ε := s.lead (.inl a)
abbrev foldOf {A B : Type} {α β : A → Type} {γ : B → Type} (s : St (A ⊕ B) (DirSt α β γ ε) T O ε χ) (b : B) : Fold.St (γ b) ε := s.lead (.inr b)

/-- The state after an execution of maps and folds side by side on a broker. -/
abbrev amqpRun {A B : Type} [DecidableEq A] [DecidableEq B] {α β : A → Type} {γ : B → Type} (op : (a : A) → ω → α a → Except ε (β a))
    (comb : (b : B) → ω → γ b → γ b → Except ε (γ b)) (empty : (b : B) → γ b) (dupErr : ε) (encM : (a : A) → Nat × α a → Option T) (decM : (a : A) → O → Except ε (Nat × β a))
    (encF : (b : B) → Fold.CTask (γ b) → Option T) (decF : (b : B) → O → Except ε (Seg (γ b))) (nt : Net (A ⊕ B)) (cfg : Worker.Cfg (A ⊕ B)) (exec : ω → T → Except (OpError χ) O)
    (text : OpError χ → ε) (ls : List (Label (A ⊕ B) (DirLabel α γ ε ω) T O ε χ ω)) : Option (St (A ⊕ B) (DirSt α β γ ε) T O ε χ) :=
  run (dirs op comb empty dupErr encM decM encF decF) SystemMem.dirListens nt cfg exec text (init (dirs op comb empty dupErr encM decM encF decF)) ls

end SystemAmqp
end Paladin
