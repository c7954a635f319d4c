import Verif.Model.Retry
import Verif.Model.Messages
/-!
# Model of the task pipeline

Code: `paladin-core/src/task/mod.rs` (31-170), `paladin-core/src/operation/mod.rs` (113-196), the executor generated by `paladin-opkind-derive/src/lib.rs` (27, 102-174),
`OPERATIONS` in `paladin-core/src/lib.rs` (227-248), and what the worker publishes for an outcome, `paladin-core/src/runtime/mod.rs` (556-605, 771-796).

Serialization of user types is a parameter (`Codec`), pure but otherwise arbitrary: it may fail or panic. `execute` is a parameter; its last argument is the number of
the attempt and stands for everything else the result of a call may depend on (the abort flag, side effects). The abort flag itself is not modelled here.
-/
namespace Paladin
namespace Exec
open Retry Wire

/-- What is used of `anyhow::Error`: `Display` and `anyhow!(msg)`, which displays as `msg`. Used in task/mod.rs:144 and operation/error.rs:389-410. -/
class Anyhow (ε : Type) where
  display : ε → String
  msg : String → ε
  display_msg : ∀ s, display (msg s) = s

/-- The outcome of a call into user code: a value, an error, or a panic. The user code called in paladin-opkind-derive/src/lib.rs:118-153 and task/mod.rs:94-135. -/
inductive Call (ε α : Type) where
  | ok (a : α)
  | err (e : ε)
  | panic
deriving DecidableEq, Repr

/-- A user type's `Serialize`/`Deserialize` under `Serializer::to_bytes` and `from_bytes`, serializer/mod.rs:75-96. -/
structure Codec (ε α : Type) where
  enc : Serializer → α → Call ε Bytes
  dec : Serializer → Bytes → Call ε α

/-- A type with serde's derives. Encodings of `2^64` bytes or more do not exist; here they give the error `big`. -/
def Codec.ofSerde (α : Type) [Serde α] (big undecodable : ε) : Codec ε α where
  enc k a := if h : (toBytes k a).length < 2 ^ 64 then .ok ⟨toBytes k a, h⟩ else .err big
  dec k b := match fromBytes k α b.1 with
    | some a => .ok a
    | none => .err undecodable

/-- An operation type: `Operation` (operation/mod.rs:113-162) with its name; a `Monoid` is one with `Input = (Elem, Elem)` (operation/mod.rs:181-196). -/
structure OpDef (ε : Type) where
  name : String
  Op : Type
  In : Type
  Out : Type
  opC : Codec ε Op
  inC : Codec ε In
  outC : Codec ε Out
  /-- `Operation::execute` at the given attempt. -/
  execute : Op → In → Nat → Call (OpError ε) Out

/-- `impl Operation for T where T: Monoid`, operation/mod.rs:181-196. -/
def OpDef.ofMonoid (name : String) (T E : Type) (opC : Codec ε T) (pairC : Codec ε (E × E)) (elemC : Codec ε E) (combine : T → E → E → Nat → Call (OpError ε) E) :
    OpDef ε := ⟨name, T, E × E, E, opC, pairC, elemC, fun op p i => combine op p.1 p.2 i⟩

/-- `Task`, task/mod.rs:31-42 (`op` is a reference there). -/
structure Task (d : OpDef ε) (μ : Type) where
  routingKey : Str
  metadata : μ
  op : d.Op
  input : d.In

/-- `TaskOutput`, task/mod.rs:50-57. -/
structure TaskOutput (d : OpDef ε) (μ : Type) where
  metadata : μ
  output : d.Out

/-- `Task::as_any_task`, task/mod.rs:121-135: metadata, input and operation are serialized in this order; `id` is `Op::ID`. -/
def asAnyTask {d : OpDef ε} (mC : Codec ε μ) (id : U8) (k : Serializer) (t : Task d μ) : Call ε AnyTask :=
  match mC.enc k t.metadata with
  | .panic => .panic
  | .err e => .err e
  | .ok m => match d.inC.enc k t.input with
    | .panic => .panic
    | .err e => .err e
    | .ok i => match d.opC.enc k t.op with
      | .panic => .panic
      | .err e => .err e
      | .ok o => .ok ⟨t.routingKey, m, o, id, i, k⟩

/-- The text of the error a panic becomes, paladin-opkind-derive/src/lib.rs:134. -/
def panicText (name : String) : String := "operation " ++ name ++ " panicked"

/-- The `spawn_blocking` closure with the handling of its `JoinError`, paladin-opkind-derive/src/lib.rs:128-150: panics of `execute` are caught (129-136); a panic while
serializing the output is a `JoinError` (`join`), made fatal (147-150); a serialization error is fatal with the default strategy (operation/mod.rs:130-134). -/
def blocking [Anyhow ε] (join : ε) (d : OpDef ε) (k : Serializer) (op : d.Op) (input : d.In) (i : Nat) : Except (OpError ε) Bytes :=
  match d.execute op input i with
  | .panic => .error (.fatal (Anyhow.msg (panicText d.name)) .terminate)
  | .err e => .error e
  | .ok v => match d.outC.enc k v with
    | .ok b => .ok b
    | .err e => .error (.fatal e .default)
    | .panic => .error (.fatal join .terminate)

/-- `get_result`, paladin-opkind-derive/src/lib.rs:118-153, at attempt `i`. The operation and the input are deserialized outside `catch_unwind` and
`spawn_blocking`: a panic there unwinds the worker (`none`); errors are fatal with the default strategy (operation/mod.rs:123-127, 156-161). -/
def getResult [Anyhow ε] (join : ε) (d : OpDef ε) (t : AnyTask) (i : Nat) : Option (Except (OpError ε) Bytes) :=
  match d.opC.dec t.serializer t.op with
  | .panic => none
  | .err e => some (.error (.fatal e .default))
  | .ok op => match d.inC.dec t.serializer t.input with
    | .panic => none
    | .err e => some (.error (.fatal e .default))
    | .ok input => some (blocking join d t.serializer op input i)

/-- What becomes of a call that may not return: the worker's task panics, or it is still running (see `Retry.backoffLoop`), or it is done. Code: paladin-opkind-derive/src/lib.rs:155-164. -/
inductive Run (α : Type) where
  | crash
  | running
  | done (a : α)
deriving DecidableEq, Repr

/-- The generated executor, paladin-opkind-derive/src/lib.rs:110-173. Deserialization is the same at every attempt, so `getResult` is `none` always or never; the value
for `none` inside `remoteExecute` is not used. -/
def executor [Anyhow ε] (join : ε) (env : BackoffEnv) (fuel : Nat) (d : OpDef ε) (t : AnyTask) : Run (Except (OpError ε) AnyTaskOutput) :=
  match getResult join d t 0 with
  | none => .crash
  | some _ =>
    match (remoteExecute env fuel fun i => (getResult join d t i).getD (.error (.fatal join .terminate))).2 with
    | none => .running
    | some r => .done (r.map fun output => ⟨t.metadata, output, t.serializer⟩)

/-- `AnyTask::remote_execute`, task/mod.rs:165-170; `ops` is the slice `OPERATIONS` (lib.rs:241-247). Indexing out of bounds panics. -/
def remoteExec [Anyhow ε] (join : ε) (ops : List (OpDef ε)) (env : BackoffEnv) (fuel : Nat) (t : AnyTask) : Run (Except (OpError ε) AnyTaskOutput) :=
  match ops[t.operationId.1]? with
  | none => .crash
  | some d => executor join env fuel d t

/-- `Display for OperationError`, error.rs:389-410. -/
def displayOp [Anyhow ε] : OpError ε → String
  | .transient e _ _ => "Transient operation error: " ++ Anyhow.display e
  | .fatal e _ => "Fatal operation error: " ++ Anyhow.display e

/-- A `String` has fewer than `2^64` bytes; longer ones do not exist and are cut to nothing here. -/
def toStr (s : String) : Str := ⟨if s.utf8ByteSize < 2 ^ 64 then s else "", by split <;> simp_all⟩

/-- What the worker publishes on the result channel for an outcome, with the channel's routing key: `dispatch_ok` (runtime/mod.rs:594-605), `dispatch_fatal` (556-587),
called at 773-796. -/
def reply [Anyhow ε] (t : AnyTask) : Except (OpError ε) AnyTaskOutput → Option (Str × AnyTaskResult)
  | .ok o => some (t.routingKey, .ok o)
  | .error e => match e.fatalStrategy with
    | .ignore => none
    | .terminate => some (t.routingKey, .err (toStr (displayOp e)))

/-- `AnyTaskResult::into_task_result` with `TryFrom<AnyTaskOutput>`, task/mod.rs:94-108, 140-147. -/
def intoTaskResult [Anyhow ε] (mC : Codec ε μ) (d : OpDef ε) : AnyTaskResult → Call ε (TaskOutput d μ)
  | .ok o => match mC.dec o.serializer o.metadata with
    | .panic => .panic
    | .err e => .err e
    | .ok m => match d.outC.dec o.serializer o.output with
      | .panic => .panic
      | .err e => .err e
      | .ok v => .ok ⟨m, v⟩
  | .err msg => .err (Anyhow.msg msg.1)

/-- The worker's side as bytes: the task queue's message is decoded, executed, and the reply is encoded with the serializer `k` of the runtime (channel/queue.rs:158-179,
serializer/mod.rs:75-96; runtime/mod.rs:771-796). An undecodable message is not handled here (`none`). -/
def workerBytes [Anyhow ε] (join : ε) (ops : List (OpDef ε)) (env : BackoffEnv) (fuel : Nat) (k : Serializer) (msg : Buf) : Option (Run (Option (Str × Buf))) :=
  match fromBytes k AnyTask msg with
  | none => none
  | some t => match remoteExec join ops env fuel t with
    | .crash => some .crash
    | .running => some .running
    | .done r => some (.done ((reply t r).map fun p => (p.1, toBytes k p.2)))

/-- The leader's side: a message of the result queue decoded and converted, runtime/mod.rs:335-338. -/
def leaderBytes [Anyhow ε] (k : Serializer) (mC : Codec ε μ) (d : OpDef ε) (msg : Buf) : Option (Call ε (TaskOutput d μ)) :=
  (fromBytes k AnyTaskResult msg).map (intoTaskResult mC d)

/-! ## Operation ids -/

/-- `OPERATION_ID_COUNTER` is an `AtomicU8` starting at 0 in every run of the compiler, i.e. for every crate; `fetch_add` wraps, paladin-opkind-derive/src/lib.rs:27, 102. The
ids of `n` operations of one crate in order of expansion. -/
def idsFrom (counter : Nat) : Nat → List Nat
  | 0 => []
  | n + 1 => counter :: idsFrom ((counter + 1) % 256) n

/-- An operation: the crate that defines it and its position in that crate. Code: paladin-opkind-derive/src/lib.rs:102, 110. -/
abbrev OpName := Nat × Nat

/-- `Op::ID` of an operation in a program whose `c`-th crate derives `sizes[c]` operations; `none` if there is no such operation. Code: paladin-opkind-derive/src/lib.rs:27, 102. -/
def opId (sizes : List Nat) (o : OpName) : Option Nat := (sizes[o.1]?).bind fun n => (idsFrom 0 n)[o.2]?

/-- The operation whose executor the worker calls for a task with this id: `OPERATIONS[id]`, task/mod.rs:169. `slice` is `OPERATIONS`, filled by the linker. -/
def dispatch (slice : List OpName) (id : Nat) : Option OpName := slice[id]?

end Exec
end Paladin
