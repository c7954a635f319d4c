import Verif.Model.Wire
/-!
# The message types and `Serializer`

Code: `paladin-core/src/task/mod.rs` (64-80, 84-92, 114-117), `paladin-core/src/runtime/mod.rs` (422-424), `paladin-core/src/serializer/mod.rs` (57-99),
`paladin-core/src/directive/indexed_stream/foldable.rs` (36-38), `paladin-core/src/directive/indexed_stream/functor.rs` (20-22).
-/
namespace Paladin
namespace Wire

/-- `Serializer`, serializer/mod.rs:57-62. -/
inductive Serializer where
  | postcard
  | cbor
deriving DecidableEq, Repr

/-- A Rust type with derived `Serialize` and `Deserialize`: its description, and the derived conversions to and from serde's data model. Code: the derives at task/mod.rs:63, 83, 113, runtime/mod.rs:421, serializer/mod.rs:57; `Serializable`, serializer/mod.rs:48-49. -/
class Serde (α : Type) where
  ty : Ty
  ser : α → ty.den
  de : ty.den → α
  de_ser : ∀ a, de (ser a) = a

/-- `Serializer::to_bytes`, serializer/mod.rs:75-86. -/
def toBytes (k : Serializer) [Serde α] (a : α) : Buf :=
  match k with
  | .postcard => Postcard.enc (Serde.ty α) (Serde.ser a)
  | .cbor => Cbor.enc (Serde.ty α) (Serde.ser a)

/-- `Serializer::from_bytes`, serializer/mod.rs:91-96. Bytes after the value are ignored by both crates. -/
def fromBytes (k : Serializer) (α : Type) [Serde α] (bs : Buf) : Option α :=
  match k with
  | .postcard => (Postcard.dec (Serde.ty α) bs).map fun p => Serde.de p.1
  | .cbor => (Cbor.read (Serde.ty α) bs).map fun p => Serde.de p.1

/-- `#[derive(Serialize, Deserialize)] enum Serializer`, serializer/mod.rs:57. -/
instance : Serde Serializer where
  ty := .enum (.unit "Postcard" (.unit "Cbor" .nil))
  ser | .postcard => .inl () | .cbor => .inr (.inl ())
  de | .inl _ => .postcard | .inr (.inl _) => .cbor
  de_ser a := by cases a <;> rfl

/-- `u8`. -/
abbrev U8 := { n : Nat // n < 2 ^ 8 }
/-- `usize` on a 64-bit machine. -/
abbrev USz := { n : Nat // n < 2 ^ 64 }

instance : Serde USz where
  ty := .uint 64
  ser n := n
  de n := n
  de_ser _ := rfl

/-- serde's implementation for pairs. -/
instance [Serde α] [Serde β] : Serde (α × β) where
  ty := .tuple (.cons "0" (Serde.ty α) (.cons "1" (Serde.ty β) .nil))
  ser p := (Serde.ser p.1, Serde.ser p.2, ())
  de p := (Serde.de p.1, Serde.de p.2.1)
  de_ser p := by simp [Serde.de_ser]

instance : Serde Unit where
  ty := .unit
  ser _ := ()
  de _ := ()
  de_ser _ := rfl

instance : Serde Char where
  ty := .char
  ser c := c
  de c := c
  de_ser _ := rfl

/-- `String`. -/
instance : Serde Str where
  ty := .str
  ser s := s
  de s := s
  de_ser _ := rfl

/-- `AnyTask`, task/mod.rs:63-80. -/
structure AnyTask where
  routingKey : Str
  metadata : Bytes
  op : Bytes
  operationId : U8
  input : Bytes
  serializer : Serializer
deriving DecidableEq

instance : Serde AnyTask where
  ty := .struct (.cons "routing_key" .str (.cons "metadata" .bytes (.cons "op" .bytes (.cons "operation_id" (.uint 8) (.cons "input" .bytes
    (.cons "serializer" (Serde.ty Serializer) .nil))))))
  ser t := (t.routingKey, t.metadata, t.op, t.operationId, t.input, Serde.ser t.serializer, ())
  de p := ⟨p.1, p.2.1, p.2.2.1, p.2.2.2.1, p.2.2.2.2.1, Serde.de p.2.2.2.2.2.1⟩
  de_ser t := by
    cases t with
    | mk a b c d e f => cases f <;> rfl

/-- `AnyTaskOutput`, task/mod.rs:83-92. -/
structure AnyTaskOutput where
  metadata : Bytes
  output : Bytes
  serializer : Serializer
deriving DecidableEq

instance : Serde AnyTaskOutput where
  ty := .struct (.cons "metadata" .bytes (.cons "output" .bytes (.cons "serializer" (Serde.ty Serializer) .nil)))
  ser t := (t.metadata, t.output, Serde.ser t.serializer, ())
  de p := ⟨p.1, p.2.1, Serde.de p.2.2.1⟩
  de_ser t := by
    cases t with
    | mk a b f => cases f <;> rfl

/-- `AnyTaskResult`, task/mod.rs:113-117. -/
inductive AnyTaskResult where
  | ok (o : AnyTaskOutput)
  | err (msg : Str)
deriving DecidableEq

instance : Serde AnyTaskResult where
  ty := .enum (.payload "Ok" (Serde.ty AnyTaskOutput) (.payload "Err" .str .nil))
  ser | .ok o => .inl (Serde.ser o) | .err m => .inr (.inl m)
  de | .inl o => .ok (Serde.de o) | .inr (.inl m) => .err m
  de_ser a := by
    cases a with
    | ok o => exact congrArg AnyTaskResult.ok (Serde.de_ser o)
    | err m => rfl

/-- `CommandIpc`, runtime/mod.rs:422-424. -/
inductive CommandIpc where
  | abort (routingKey : Str)
deriving DecidableEq

instance : Serde CommandIpc where
  ty := .enum (.payload "Abort" (.struct (.cons "routing_key" .str .nil)) .nil)
  ser | .abort k => .inl (k, ())
  de | .inl p => .abort p.1
  de_ser a := by cases a; rfl

/-- `Metadata` of a map task, functor.rs:20-22. -/
structure MapMetadata where
  idx : USz
deriving DecidableEq

instance : Serde MapMetadata where
  ty := .struct (.cons "idx" (.uint 64) .nil)
  ser m := (m.idx, ())
  de p := ⟨p.1⟩
  de_ser _ := rfl

/-- `Metadata` of a fold task, foldable.rs:36-38; `RangeInclusive<usize>` is serialized as a struct of `start` and `end`. -/
structure FoldMetadata where
  start : USz
  stop : USz
deriving DecidableEq

instance : Serde FoldMetadata where
  ty := .struct (.cons "range" (.struct (.cons "start" (.uint 64) (.cons "end" (.uint 64) .nil))) .nil)
  ser m := ((m.start, m.stop, ()), ())
  de p := ⟨p.1.1, p.1.2.1⟩
  de_ser _ := rfl

end Wire
end Paladin
