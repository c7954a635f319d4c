import Verif.Model.SystemClients
import Verif.Model.Exec
/-!
# The whole system with its messages as bytes

The instance of `Verif/Model/System.lean` in which what travels is what travels: a task is the encoding of an `AnyTask` with the serialized operation, input and metadata
(`paladin-core/src/task/mod.rs` 121-135, `paladin-core/src/runtime/mod.rs` 219-232), the worker decodes it, finds the operation by its id, executes it with retries
(`Verif/Model/Exec.lean`) and publishes an encoded `AnyTaskResult`, which the leader decodes (`runtime/mod.rs` 335-338).

`k` is the serializer of the channels, `kt` the one of the runtime, with which the parts of a task are serialized (`runtime/mod.rs` 142, 224-229); both come from the configuration.
The circumstances of an execution are how `backoff` behaves, how long the execution is followed (`Retry.backoffLoop`) and when each attempt is made. What a call of `execute` returns may
depend on the moment: two executions of the same task may differ.
-/
namespace Paladin
namespace System
open Retry Exec Wire

/-- A map as `f_map` starts it, `directive/indexed_stream/functor.rs` 28-46: the routing key of the leased channel, the operation with its type and `Op::ID`. -/
structure MapJob (ε : Type) where
  key : Str
  d : OpDef ε
  op : d.Op
  id : U8

/-- A fold as `f_fold` starts it, `directive/indexed_stream/foldable.rs` 133-166: the routing key, the monoid with its type and id; `empty` is `Monoid::empty`. -/
structure FoldJob (ε : Type) where
  key : Str
  name : String
  M : Type
  Elem : Type
  opC : Codec ε M
  pairC : Codec ε (Elem × Elem)
  elemC : Codec ε Elem
  combine : M → Elem → Elem → Nat → Call (OpError ε) Elem
  op : M
  id : U8
  empty : Elem

/-- The monoid as an operation on pairs, `operation/mod.rs` 180-196. -/
abbrev FoldJob.d (J : FoldJob ε) : OpDef ε := .ofMonoid J.name J.M J.Elem J.opC J.pairC J.elemC J.combine

/-- The codec of the index carried by a map's task, `functor.rs` 20-22. -/
def mapMeta [Anyhow ε] : Codec ε MapMetadata := .ofSerde MapMetadata (Anyhow.msg "too big") (Anyhow.msg "undecodable")

/-- The codec of the range carried by a fold's task, `foldable.rs` 36-38. -/
def foldMeta [Anyhow ε] : Codec ε FoldMetadata := .ofSerde FoldMetadata (Anyhow.msg "too big") (Anyhow.msg "undecodable")

/-- The message on the task queue, if the task can be serialized. A panic of the user's `Serialize` is no message either. Code: task/mod.rs:121-135, runtime/mod.rs:228-229. -/
def message {d : OpDef ε} {μ : Type} (k kt : Serializer) (mC : Codec ε μ) (id : U8) (t : Task d μ) : Option Buf :=
  match asAnyTask mC id kt t with
  | .ok a => some (toBytes k a)
  | _ => none

/-- The task of an item, `functor.rs` 39-44. Indices are of type `usize`: there is none of `2^64` or more. -/
def encMap [Anyhow ε] (k kt : Serializer) (J : MapJob ε) (p : Nat × J.d.In) : Option Buf :=
  if h : p.1 < 2 ^ 64 then message k kt mapMeta J.id (⟨J.key, ⟨⟨p.1, h⟩⟩, J.op, p.2⟩ : Task J.d MapMetadata) else none

/-- A combine task, `foldable.rs` 105-112. -/
def encFold [Anyhow ε] (k kt : Serializer) (J : FoldJob ε) (t : Fold.CTask J.Elem) : Option Buf :=
  if h : t.lo < 2 ^ 64 ∧ t.hi < 2 ^ 64 then message k kt foldMeta J.id (⟨J.key, ⟨⟨t.lo, h.1⟩, ⟨t.hi, h.2⟩⟩, J.op, (t.a, t.b)⟩ : Task J.d FoldMetadata) else none

/-- The circumstances of one execution of a task: `backoff` (`Retry.BackoffEnv`), the number of rounds after which it is no longer followed, and the moment of each attempt. Code: paladin-opkind-derive/src/lib.rs:155-164. -/
structure Circ where
  env : BackoffEnv
  fuel : Nat
  moment : Nat → Nat

/-- The operation type whose attempt `i` is made at moment `m i`. Code: paladin-opkind-derive/src/lib.rs:118-153. -/
abbrev _root_.Paladin.Exec.OpDef.at (d : OpDef ε) (m : Nat → Nat) : OpDef ε := { d with execute := fun op a i => d.execute op a (m i) }

/-- What the worker does with a message: `remote_execute` (`task/mod.rs` 165-170), and the encoding of a successful outcome (`runtime/mod.rs` 594-605). Three cases have no result in
the code: the message cannot be decoded (it is not delivered to `main_loop`), the worker panics, the execution has not ended. They are given a fatal error here, so
that the model has more executions than the code. -/
def execBytes [Anyhow ε] (join : ε) (ops : List (OpDef ε)) (k : Serializer) (x : Circ) (msg : Buf) : Except (OpError ε) Buf :=
  match fromBytes k AnyTask msg with
  | none => .error (.fatal join .terminate)
  | some t => match remoteExec join (ops.map (OpDef.at · x.moment)) x.env x.fuel t with
    | .done r => r.map fun o => toBytes k (AnyTaskResult.ok o)
    | _ => .error (.fatal join .terminate)

/-- What an error becomes on its way to the leader: its text as `AnyTaskResult::Err` (`runtime/mod.rs` 572-581), encoded, decoded and made an error again (`task/mod.rs` 94-108). -/
def textBytes [Anyhow ε] (k : Serializer) (e : OpError ε) : ε :=
  match fromBytes k AnyTaskResult (toBytes k (AnyTaskResult.err (toStr (displayOp e)))) with
  | some (.err m) => Anyhow.msg m.1
  | _ => Anyhow.msg ""

/-- What the leader of a map makes of a message, `functor.rs` 58-61. A message that cannot be decoded and a panic of the user's `Deserialize` are errors here; neither happens with
lawful codecs. -/
def decMap [Anyhow ε] (k : Serializer) (J : MapJob ε) (msg : Buf) : Except ε (Nat × J.d.Out) :=
  match leaderBytes k mapMeta J.d msg with
  | some (.ok o) => .ok (o.metadata.idx.1, o.output)
  | some (.err e) => .error e
  | _ => .error (Anyhow.msg "undecodable")

/-- The same for a fold, `foldable.rs` 249-268. -/
def decFold [Anyhow ε] (k : Serializer) (J : FoldJob ε) (msg : Buf) : Except ε (Seg J.Elem) :=
  match leaderBytes k foldMeta J.d msg with
  | some (.ok o) => .ok ⟨o.metadata.start.1, o.metadata.stop.1, o.output⟩
  | some (.err e) => .error e
  | _ => .error (Anyhow.msg "undecodable")

end System
end Paladin
