import Verif.Model.Wire
/-! # Well-formed type descriptions -/
namespace Paladin
namespace Wire

/-- Types whose CBOR form can be `null`. -/
def Ty.nullable : Ty → Bool
  | .unit => true
  | .opt _ => true
  | _ => false

/-- Names are pairwise different and short enough for ciborium's scratch buffer; fewer than `2^32` of them. -/
def NamesOk (l : List String) : Prop := l.Nodup ∧ (∀ n ∈ l, (utf8 n).length ≤ 4096) ∧ l.length < 2 ^ 32

instance (l : List String) : Decidable (NamesOk l) := by unfold NamesOk; infer_instance

mutual
/-- Integers have 8, 16, 32, 64 or 128 bits; field names within a struct and variant names within an enum are different. True of every Rust type. -/
def Ty.WF : Ty → Prop
  | .uint w => w = 8 ∨ w = 16 ∨ w = 32 ∨ w = 64 ∨ w = 128
  | .sint w => w = 8 ∨ w = 16 ∨ w = 32 ∨ w = 64 ∨ w = 128
  | .opt t => t.WF
  | .seq t => t.WF
  | .map k v => k.WF ∧ v.WF
  | .tuple fs => fs.count < 2 ^ 32 ∧ fs.WF
  | .struct fs => NamesOk fs.names ∧ fs.WF
  | .enum vs => NamesOk vs.names ∧ vs.WF
  | _ => True
def Fields.WF : Fields → Prop
  | .nil => True
  | .cons _ t fs => t.WF ∧ fs.WF
def Variants.WF : Variants → Prop
  | .nil => True
  | .unit _ vs => vs.WF
  | .payload _ t vs => t.WF ∧ vs.WF
end

mutual
/-- No `Option` directly around a type that can be `null` (`Option<()>`, `Option<Option<T>>`). -/
def Ty.NoNestedOption : Ty → Prop
  | .opt t => t.nullable = false ∧ t.NoNestedOption
  | .seq t => t.NoNestedOption
  | .map k v => k.NoNestedOption ∧ v.NoNestedOption
  | .tuple fs => fs.NoNestedOption
  | .struct fs => fs.NoNestedOption
  | .enum vs => vs.NoNestedOption
  | _ => True
def Fields.NoNestedOption : Fields → Prop
  | .nil => True
  | .cons _ t fs => t.NoNestedOption ∧ fs.NoNestedOption
def Variants.NoNestedOption : Variants → Prop
  | .nil => True
  | .unit _ vs => vs.NoNestedOption
  | .payload _ t vs => t.NoNestedOption ∧ vs.NoNestedOption
end

mutual
/-- How deep arrays, maps and enums are nested in a value. -/
def Ty.levels : (t : Ty) → t.den → Nat
  | .opt _, none => 0
  | .opt t, some v => t.levels v
  | .seq t, l => (l.1.map t.levels).foldr max 0 + 1
  | .map k v, l => (l.1.map fun p => max (k.levels p.1) (v.levels p.2)).foldr max 0 + 1
  | .tuple fs, v => fs.levels v + 1
  | .struct fs, v => fs.levels v + 1
  | .enum vs, v => vs.levels v + 1
  | .unit, _ | .bool, _ | .uint _, _ | .sint _, _ | .f32, _ | .f64, _ | .char, _ | .str, _ | .bytes, _ => 0
def Fields.levels : (fs : Fields) → fs.den → Nat
  | .nil, _ => 0
  | .cons _ t fs, v => max (t.levels v.1) (fs.levels v.2)
def Variants.levels : (vs : Variants) → vs.den → Nat
  | .unit _ _, .inl _ => 0
  | .unit _ vs, .inr v => vs.levels v
  | .payload _ t _, .inl v => t.levels v
  | .payload _ _ vs, .inr v => vs.levels v
end

mutual
/-- How deep they can be nested in the values of a type. -/
def Ty.height : Ty → Nat
  | .opt t => t.height
  | .seq t => t.height + 1
  | .map k v => max k.height v.height + 1
  | .tuple fs => fs.height + 1
  | .struct fs => fs.height + 1
  | .enum vs => vs.height + 1
  | _ => 0
def Fields.height : Fields → Nat
  | .nil => 0
  | .cons _ t fs => max t.height fs.height
def Variants.height : Variants → Nat
  | .nil => 0
  | .unit _ vs => vs.height
  | .payload _ t vs => max t.height vs.height
end

/-- What CBOR needs of a type: no nested options, and at most the 256 levels that ciborium reads. -/
def Ty.CborSafe (t : Ty) : Prop := t.NoNestedOption ∧ t.height ≤ 256

end Wire
end Paladin
