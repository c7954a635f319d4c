import Verif.Model.Exec
/-! # Specification vocabulary for the task pipeline -/
namespace Paladin
namespace Exec
open Retry Wire

/-- A lawful codec: what has been encoded decodes to itself. Encoding may fail or panic. -/
def Codec.Lawful (c : Codec ε α) : Prop := ∀ k a b, c.enc k a = .ok b → c.dec k b = .ok a

/-- A typed, local execution: attempt `i` of the operation on the input, no bytes except that an output which cannot be serialized counts as a fatal error. -/
def localAttempt [Anyhow ε] (join : ε) (d : OpDef ε) (k : Serializer) (op : d.Op) (input : d.In) (i : Nat) : Except (OpError ε) d.Out :=
  match d.execute op input i with
  | .panic => .error (.fatal (Anyhow.msg ("operation " ++ d.name ++ " panicked")) .terminate)
  | .err e => .error e
  | .ok v => match d.outC.enc k v with
    | .ok _ => .ok v
    | .err e => .error (.fatal e .terminate)
    | .panic => .error (.fatal join .terminate)

/-- The leader's view of the final outcome of a local execution: nothing for an ignored error. The text is cut to nothing if it has `2^64` bytes or more. -/
def outcomeView [Anyhow ε] {d : OpDef ε} (metadata : μ) : Except (OpError ε) d.Out → Option (Call ε (TaskOutput d μ))
  | .ok v => some (.ok ⟨metadata, v⟩)
  | .error (.fatal e .terminate) => some (.err (Anyhow.msg (toStr ("Fatal operation error: " ++ Anyhow.display e)).1))
  | .error (.transient e _ .terminate) => some (.err (Anyhow.msg (toStr ("Transient operation error: " ++ Anyhow.display e)).1))
  | .error _ => none

/-- The operation exists in a program whose `c`-th crate derives `sizes[c]` operations. -/
def Declared (sizes : List Nat) (o : OpName) : Prop := ∃ n, sizes[o.1]? = some n ∧ o.2 < n

/-- A possible content of `OPERATIONS`: every operation registers one executor, the linker chooses the order. -/
def Linked (sizes : List Nat) (slice : List OpName) : Prop := slice.Nodup ∧ ∀ o, o ∈ slice ↔ Declared sizes o

/-- Every task is executed by the operation that created it. -/
def DispatchesRight (sizes : List Nat) (slice : List OpName) : Prop := ∀ o id, opId sizes o = some id → dispatch slice id = some o

/-- The worker's deserializers reject the operation or the input of the task with the error `e`. -/
def Rejected (d : OpDef ε) (a : AnyTask) (e : ε) : Prop :=
  d.opC.dec a.serializer a.op = .err e ∨ ∃ op, d.opC.dec a.serializer a.op = .ok op ∧ d.inC.dec a.serializer a.input = .err e

/-- A deserializer panics on the operation or the input of the task. -/
def Panics (d : OpDef ε) (a : AnyTask) : Prop :=
  d.opC.dec a.serializer a.op = .panic ∨ ∃ op, d.opC.dec a.serializer a.op = .ok op ∧ d.inC.dec a.serializer a.input = .panic

end Exec
end Paladin
