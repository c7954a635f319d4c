import Verif.Model.SystemClients
import Verif.Model.Amqp
/-!
# Model of the whole system on an AMQP broker

The leaders and workers of `Verif/Model/System.lean`, with the broker, the connections and the consumers of `Verif/Model/Amqp.lean` (`paladin-core/src/queue/amqp.rs`) between them. Tasks go to the queue of
the bus (`runtime/mod.rs` 219-232, 547-549), results to the queue of the lease (`runtime/mod.rs` 318-366, 452-458). Every process has one connection, which several jobs, or workers, may share.

What else happens at the broker is the environment's choice (`Label.net`): queues are declared, deleted or expire, consumers are made and dropped, messages are delivered and connections lost. Publishing is one
step, at which the broker has the message; it is impossible on a closed connection (leader and worker then take a step that says that the call failed). A message is a task or a result: what leaders and workers publish can
be decoded (`Verif/Props/Exec.lean`; bytes are in `Verif/Model/SystemBytes.lean`), and nobody else publishes to these queues. Commands arrive at a worker at any time, as in `System`.
-/
namespace Paladin
namespace SystemAmqp
open Retry System

/-- Queue names. Code: runtime/mod.rs:125, 318-330, 452-458. -/
inductive Name (κ : Type) where
  /-- the task bus -/
  | bus
  /-- the result channel of a lease -/
  | job (j : κ)
deriving DecidableEq, Repr

/-- What travels: `AnyTask` or `AnyTaskResult`, task/mod.rs:64-118. -/
inductive Payload (κ T O ε : Type) where
  | task (m : Msg κ T)
  | result (r : Except ε O)

/-- Who polls a consumer: the loop of a worker (runtime/mod.rs:726) or the leader of a job (runtime/mod.rs:335-338). -/
inductive Owner (κ : Type) where
  | worker (w : Nat)
  | job (j : κ)
deriving DecidableEq, Repr

/-- The connection of each worker and of the leader of each job, and the limit of `basic_qos` (amqp.rs:179-181, dynamic_channel.rs:132). -/
structure Net (κ : Type) where
  wconn : Nat → Nat
  lconn : κ → Nat
  prefetch : Nat

/-- The connection an owner polls on, runtime/mod.rs:428-445, 131-161. -/
def Owner.conn (nt : Net κ) : Owner κ → Nat
  | .worker w => nt.wconn w
  | .job j => nt.lconn j

/-- The queue an owner consumes, runtime/mod.rs:547-549, 326-338. -/
def Owner.queue : Owner κ → Name κ
  | .worker _ => .bus
  | .job j => .job j

/-- Leaders, workers and broker. Code: the processes of runtime/mod.rs:131-161, 428-445 and the broker of queue/amqp.rs. -/
structure St (κ : Type) (σ : κ → Type) (T O ε χ : Type) where
  /-- the directive of each job -/
  lead : (j : κ) → σ j
  worker : Nat → Worker.St κ O χ
  /-- the message each worker's loop received last -/
  cur : Nat → Option Nat
  net : Amqp.St (Name κ) (Payload κ T O ε)
  /-- the consumers that were made for workers and leaders -/
  ties : List (Owner κ × Nat)
  /-- the owner's last poll returned `Pending` -/
  asleep : Owner κ → Bool

/-- Before anything happened. Code: runtime/mod.rs:131-161, 428-445. -/
def init {κ : Type} {σ ℓ : κ → Type} (cl : (j : κ) → Client (σ j) (ℓ j) T (Except ε O)) : St κ σ T O ε χ :=
  { lead := fun j => (cl j).init, worker := fun _ => Worker.init, cur := fun _ => none, net := Amqp.init, ties := [], asleep := fun _ => false }

/-- What leaders, workers and broker do. Code: runtime/mod.rs:318-366, 662-812, amqp.rs:155-554. -/
inductive Label (κ : Type) (ℓ : κ → Type) (T O ε χ ω : Type) where
  /-- a step of the leader of job `j` that receives nothing -/
  | lead (j : κ) (l : ℓ j)
  /-- the leader of job `j` polls its consumer and receives a result -/
  | recv (j : κ) (l : ℓ j)
  /-- an owner polls its consumer and there is nothing -/
  | sleep (o : Owner κ)
  /-- the acknowledgement of a result that the leader of job `j` has received -/
  | ackRes (j : κ)
  /-- worker `w` polls its consumer and receives a task -/
  | deliver (w : Nat)
  /-- the execution of worker `w`'s task under circumstances `x` ends -/
  | finish (w : Nat) (x : ω)
  /-- any other step of worker `w` -/
  | work (w : Nat) (l : Worker.Label κ O χ)
  /-- `declare_consumer` returns consumer `k` to an owner -/
  | attach (o : Owner κ) (k : Nat)
  /-- something else happens at the broker -/
  | net (l : Amqp.Label (Name κ) (Payload κ T O ε))

/-- The steps at the broker that are not steps of leaders or workers. Code: all of amqp.rs but `publish` (328-362), `poll_next` (512-537) and the acker (541-554). -/
def others : Amqp.Label (Name κ) (Payload κ T O ε) → Bool
  | .begin _ (.publish _ _ _) | .poll _ | .ack _ _ | .nack _ _ => false
  | _ => true

/-- One message is published: amqp.rs:328-362, with the call begun and its one method performed. -/
def publish [DecidableEq κ] (pf : Nat) (n : Amqp.St (Name κ) (Payload κ T O ε)) (conn : Nat) (name : Name κ) (b : Payload κ T O ε) : Option (Amqp.St (Name κ) (Payload κ T O ε)) :=
  if conn ∈ n.closed then none
  else Amqp.run (V := Payload κ T O ε) some pf n [.begin conn (.publish name Amqp.ChannelType.exactlyOnce.options b), .exec n.calls.length]

/-- Several messages, one after the other. Code: amqp.rs:328-362. -/
def publishAll [DecidableEq κ] (pf : Nat) (conn : Nat) (name : Name κ) : Amqp.St (Name κ) (Payload κ T O ε) → List (Payload κ T O ε) → Option (Amqp.St (Name κ) (Payload κ T O ε))
  | n, [] => some n
  | n, b :: bs => (publish pf n conn name b).bind fun n' => publishAll pf conn name n' bs

/-- The consumer of an owner. Code: amqp.rs:482-501. -/
def St.consumer {κ : Type} {σ : κ → Type} [DecidableEq κ] (s : St κ σ T O ε χ) (o : Owner κ) : Option (Nat × Amqp.Consumer) :=
  (s.ties.lookup o).bind fun k => (s.net.consumers[k]?).map fun c => (k, c)

/-- The owner's task is not asleep, or has been woken: it polls. Code: amqp.rs:512-537 and lapin. -/
def St.awake {κ : Type} {σ : κ → Type} [DecidableEq κ] (s : St κ σ T O ε χ) (o : Owner κ) (c : Amqp.Consumer) : Bool := !s.asleep o || c.woken

/-- What polling its consumer gives an owner: the message, and the broker and consumers afterwards. Code: amqp.rs:512-537. -/
def St.next {κ : Type} {σ : κ → Type} [DecidableEq κ] (pf : Nat) (s : St κ σ T O ε χ) (o : Owner κ) : Option (Nat × Payload κ T O ε × Amqp.St (Name κ) (Payload κ T O ε)) :=
  match s.consumer o with
  | none => none
  | some (k, c) =>
    if s.awake o c then
      match c.buffer with
      | [] => none
      | m :: _ => match s.net.msgs[m]?, Amqp.step (V := Payload κ T O ε) some pf s.net (.poll k) with
        | some g, some n => some (m, g.bytes, n)
        | _, _ => none
    else none

/-- The worker is in `task_stream.next().await`, runtime/mod.rs:726. -/
def idle : Worker.Pc κ O χ → Bool
  | .waiting => true
  | _ => false

/-- The owner polls its stream when its task runs: a worker in 726, a leader as its directive says (functor.rs:57-62, foldable.rs:240-244). -/
def St.listening {κ : Type} {σ : κ → Type} (listens : (j : κ) → σ j → Bool) (s : St κ σ T O ε χ) : Owner κ → Bool
  | .worker w => idle (s.worker w).pc
  | .job j => listens j (s.lead j)

/-- What a step of worker `w` does at the broker: an acknowledgement or a rejection of its message (runtime/mod.rs:736, 776, 788, 799), a result published to the queue named by the routing key of the task
(runtime/mod.rs:573, 579, 601-602). -/
def effect {κ : Type} {σ : κ → Type} [DecidableEq κ] (nt : Net κ) (text : OpError χ → ε) (s : St κ σ T O ε χ) (w : Nat) (l : Worker.Label κ O χ) : Option (Amqp.St (Name κ) (Payload κ T O ε)) :=
  match l, (s.worker w).pc with
  | .ack, _ => match s.ties.lookup (.worker w), s.cur w with
    | some k, some m => Amqp.step (V := Payload κ T O ε) some nt.prefetch s.net (.ack k m)
    | _, _ => none
  | .nack, _ | .skipNack, _ | .intNack, _ => match s.ties.lookup (.worker w), s.cur w with
    | some k, some m => Amqp.step (V := Payload κ T O ε) some nt.prefetch s.net (.nack k m)
    | _, _ => none
  | .pubOk, .settleOk _ k o _ _ => publish nt.prefetch s.net (nt.wconn w) (.job k) (.result (.ok o))
  | .pubErr, .settleErr _ k e _ _ _ => publish nt.prefetch s.net (nt.wconn w) (.job k) (.result (.error (text e)))
  | _, _ => some s.net

/-- One step; `none` when the label is not possible. Code: runtime/mod.rs:318-366 and 662-812, amqp.rs:328-362, 482-554. -/
def step {κ : Type} {σ ℓ : κ → Type} [DecidableEq κ] (cl : (j : κ) → Client (σ j) (ℓ j) T (Except ε O)) (listens : (j : κ) → σ j → Bool) (nt : Net κ) (cfg : Worker.Cfg κ)
    (exec : ω → T → Except (OpError χ) O) (text : OpError χ → ε) (s : St κ σ T O ε χ) : Label κ ℓ T O ε χ ω → Option (St κ σ T O ε χ)
  | .lead j l =>
    match (cl j).step (s.lead j) l [] with
    | some (x, ts, _) =>
      match publishAll nt.prefetch (nt.lconn j) .bus s.net (ts.map fun t => .task ⟨j, t⟩) with
      | some n => some { s with lead := Function.update s.lead j x, net := n }
      | none => none
    | none => none
  | .recv j l =>
    match s.next nt.prefetch (.job j) with
    | some (_, .result r, n) =>
      match (cl j).step (s.lead j) l [r] with
      | some (x, ts, []) =>
        match publishAll nt.prefetch (nt.lconn j) .bus n (ts.map fun t => .task ⟨j, t⟩) with
        | some n => some { s with lead := Function.update s.lead j x, net := n, asleep := Function.update s.asleep (.job j) false }
        | none => none
      | _ => none
    | _ => none
  | .sleep o =>
    match s.consumer o with
    | some (k, c) =>
      if s.listening listens o && s.awake o c && c.buffer.isEmpty then
        (Amqp.step (V := Payload κ T O ε) some nt.prefetch s.net (.poll k)).map fun n => { s with net := n, asleep := Function.update s.asleep o true }
      else none
    | none => none
  | .ackRes j =>
    match s.consumer (.job j) with
    | some (k, c) => match c.held with
      | [] => none
      | m :: _ => (Amqp.step (V := Payload κ T O ε) some nt.prefetch s.net (.ack k m)).map fun n => { s with net := n }
    | none => none
  | .deliver w =>
    match s.next nt.prefetch (.worker w) with
    | some (m, .task t, n) =>
      match Worker.step cfg (s.worker w) (.deliver t.key) with
      | some v => some { s with worker := Function.update s.worker w v, cur := Function.update s.cur w (some m), net := n, asleep := Function.update s.asleep (.worker w) false }
      | none => none
    | _ => none
  | .finish w x =>
    match (s.cur w).bind fun m => s.net.msgs[m]? with
    | some ⟨_, .task t⟩ =>
      match Worker.step cfg (s.worker w) (.finish (exec x t.task)) with
      | some v => some { s with worker := Function.update s.worker w v }
      | none => none
    | _ => none
  | .work w l =>
    match l with
    | .deliver _ | .finish _ => none
    | l =>
      match Worker.step cfg (s.worker w) l, effect nt text s w l with
      | some v, some n => some { s with worker := Function.update s.worker w v, net := n }
      | _, _ => none
  | .attach o k =>
    match s.net.consumers[k]? with
    | some c =>
      if s.ties.lookup o = none ∧ k ∉ s.ties.map Prod.snd ∧ c.conn = o.conn nt ∧ (s.net.queues[c.inst]?).map Amqp.Queue.name = some o.queue then some { s with ties := s.ties ++ [(o, k)] }
      else none
    | none => none
  | .net l =>
    if others l then (Amqp.step (V := Payload κ T O ε) some nt.prefetch s.net l).map fun n => { s with net := n } else none

/-- Executions of the whole system on a broker, runtime/mod.rs:131-812. -/
abbrev run {κ : Type} {σ ℓ : κ → Type} [DecidableEq κ] (cl : (j : κ) → Client (σ j) (ℓ j) T (Except ε O)) (listens : (j : κ) → σ j → Bool) (nt : Net κ) (cfg : Worker.Cfg κ)
    (exec : ω → T → Except (OpError χ) O) (text : OpError χ → ε) (s : St κ σ T O ε χ) (ls : List (Label κ ℓ T O ε χ ω)) : Option (St κ σ T O ε χ) :=
  Lts.run (step cl listens nt cfg exec text) s ls

end SystemAmqp
end Paladin
