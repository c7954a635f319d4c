/-!
# Model of the wire formats

Code: `paladin-core/src/serializer/mod.rs` (`Serializer::to_bytes`, `from_bytes`, lines 75-96) over the crates `postcard` 1.0.10 and `ciborium` 0.2.2, and the message
types of `paladin-core/src/task/mod.rs`, `runtime/mod.rs` and `directive/indexed_stream/foldable.rs`.

The encoders and decoders of the two crates are not part of /repo; they are modelled here from their documented formats (postcard wire format; RFC 8949 with
serde's externally tagged enums), for the types serde's derives produce. Types are described by `Ty`; `Ty.den` is the Lean type of their values.

Simplifications: `usize` is 64 bits wide; a recursive type is described by its unfoldings, each of which has all values up to some depth; floats are their bit patterns, and an `f32` is no signalling NaN (Rust does not promise to keep one; the conversions make it quiet); a map is the list of its entries in the order in which it is iterated; the CBOR decoder rejects tags (but those of big integers), indefinite lengths
and unknown struct fields (the real one accepts them; the encoder never produces them); tuple and struct
variants are variants with a tuple or struct payload (their encodings coincide in both formats).
-/
namespace Paladin
namespace Wire

/-- What is written and read in serializer/mod.rs:75-96. -/
abbrev Buf := List UInt8

/-- `bytes::Bytes` / `Vec<u8>`: fewer than `2^64` bytes. -/
def Bytes := { l : Buf // l.length < 2 ^ 64 }
deriving DecidableEq

/-- Rust `String`: fewer than `2^64` bytes of valid UTF-8. -/
def Str := { s : String // s.utf8ByteSize < 2 ^ 64 }
deriving DecidableEq

/-- The bytes of a string. Used on both sides of serializer/mod.rs:75-96. -/
def utf8 (s : String) : Buf := s.toByteArray.data.toList

/-- `core::str::from_utf8`. -/
def ofUtf8 (l : Buf) : Option String :=
  if h : (ByteArray.mk l.toArray).IsValidUTF8 then some ⟨⟨l.toArray⟩, h⟩ else none

mutual
/-- Types handled by serde derives. `uint w`/`sint w` are the `w`-bit integers (`w` = 8, 16, 32, 64 or 128). -/
inductive Ty where
  | unit
  | bool
  | uint (w : Nat)
  | sint (w : Nat)
  | f32
  | f64
  | char
  | str
  | bytes
  | opt (t : Ty)
  | seq (t : Ty)
  | map (k v : Ty)
  | tuple (fs : Fields)
  | struct (fs : Fields)
  | enum (vs : Variants)
/-- Named fields (names are not used for tuples). For the derives on the types passed to serializer/mod.rs:75-96. -/
inductive Fields where
  | nil
  | cons (name : String) (t : Ty) (fs : Fields)
/-- Enum variants, without or with a payload. For the derives on the types passed to serializer/mod.rs:75-96. -/
inductive Variants where
  | nil
  | unit (name : String) (vs : Variants)
  | payload (name : String) (t : Ty) (vs : Variants)
end

/-- A signalling NaN of the format with `e` bits of exponent and `m` bits of mantissa, as a bit pattern. IEEE 754. -/
def signalling (e m b : Nat) : Prop := b / 2 ^ m % 2 ^ e = 2 ^ e - 1 ∧ 0 < b % 2 ^ m ∧ b % 2 ^ m < 2 ^ (m - 1)

instance (e m b : Nat) : Decidable (signalling e m b) := by unfold signalling; infer_instance

mutual
/-- Values of a type. Those passed to serializer/mod.rs:75-96. -/
def Ty.den : Ty → Type
  | .unit => Unit
  | .bool => Bool
  | .uint w => { n : Nat // n < 2 ^ w }
  | .sint w => { z : Int // -(2 ^ w : Nat) ≤ 2 * z ∧ 2 * z < (2 ^ w : Nat) }
  | .f32 => { b : Nat // b < 2 ^ 32 ∧ ¬ signalling 8 23 b }
  | .f64 => { b : Nat // b < 2 ^ 64 }
  | .char => Char
  | .str => Str
  | .bytes => Bytes
  | .opt t => Option t.den
  | .seq t => { l : List t.den // l.length < 2 ^ 64 }
  | .map k v => { l : List (k.den × v.den) // l.length < 2 ^ 64 }
  | .tuple fs => fs.den
  | .struct fs => fs.den
  | .enum vs => vs.den
/-- Values of all fields, serializer/mod.rs:75-96. -/
def Fields.den : Fields → Type
  | .nil => Unit
  | .cons _ t fs => t.den × fs.den
/-- A variant and its payload, serializer/mod.rs:75-96. -/
def Variants.den : Variants → Type
  | .nil => Empty
  | .unit _ vs => Unit ⊕ vs.den
  | .payload _ t vs => t.den ⊕ vs.den
end

/-- The `len` given to `serialize_struct` and `serialize_tuple`, serializer/mod.rs:75-96. -/
def Fields.count : Fields → Nat
  | .nil => 0
  | .cons _ _ fs => fs.count + 1

/-- The field names of the derives, serializer/mod.rs:75-96. -/
def Fields.names : Fields → List String
  | .nil => []
  | .cons n _ fs => n :: fs.names

/-- The variant names of the derives, serializer/mod.rs:75-96. -/
def Variants.names : Variants → List String
  | .nil => []
  | .unit n vs => n :: vs.names
  | .payload n _ vs => n :: vs.names

/-- Take one byte. Reading the slice of serializer/mod.rs:93-94. -/
def pop : Buf → Option (Nat × Buf)
  | [] => none
  | b :: bs => some (b.toNat, bs)

/-- Take `n` bytes. Reading the slice of serializer/mod.rs:93-94. -/
def takeN (n : Nat) (bs : Buf) : Option (Buf × Buf) := if n ≤ bs.length then some (bs.take n, bs.drop n) else none

/-- Truncation to `u8`, for serializer/mod.rs:75-96. -/
def byte (n : Nat) : UInt8 := UInt8.ofNat n

/-- Run a decoder of elements `n` times. Sequences in serializer/mod.rs:93-94. -/
def many (f : Buf → Option (α × Buf)) : Nat → Buf → Option (List α × Buf)
  | 0, bs => some ([], bs)
  | n + 1, bs => do
    let (a, bs) ← f bs
    let (as, bs) ← many f n bs
    some (a :: as, bs)

/-- Run two decoders. serializer/mod.rs:93-94. -/
def both (f : Buf → Option (α × Buf)) (g : Buf → Option (β × Buf)) (bs : Buf) : Option ((α × β) × Buf) := do
  let (a, bs) ← f bs
  let (b, bs) ← g bs
  some ((a, b), bs)

/-- A list with fewer than `2^64` elements. -/
def bounded (l : List α) : Option { l : List α // l.length < 2 ^ 64 } := if h : l.length < 2 ^ 64 then some ⟨l, h⟩ else none

/-! ## Floats

The conversions of IEEE 754, on bit patterns; `e` and `m` are the bits of exponent and mantissa of the narrower format: 5 and 10 for `f16`, 8 and 23 for `f32`. -/

/-- A NaN's mantissa with its quiet bit set. IEEE 754, under ciborium (serializer/mod.rs:81, 94). -/
def quiet (m k : Nat) : Nat := if k < 2 ^ (m - 1) then k + 2 ^ (m - 1) else k

/-- `f64::from` of an `f16` or `f32`; exact, but for the quiet bit. Used by ciborium (through serializer/mod.rs:81, 94). -/
def widen (e m b : Nat) : Nat :=
  let s := b / 2 ^ (e + m) * 2 ^ 63
  let x := b / 2 ^ m % 2 ^ e
  let k := b % 2 ^ m
  if x = 2 ^ e - 1 then s + 2047 * 2 ^ 52 + (if k = 0 then 0 else quiet m k * 2 ^ (52 - m))
  else if x = 0 then (if k = 0 then s else s + (k.log2 + 1025 - 2 ^ (e - 1) - m) * 2 ^ 52 + (k - 2 ^ k.log2) * 2 ^ (52 - k.log2))
  else s + (x + 1024 - 2 ^ (e - 1)) * 2 ^ 52 + k * 2 ^ (52 - m)

/-- `n / 2^sh`, to the nearest, ties to the even one. -/
def roundEven (n sh : Nat) : Nat :=
  let q := n / 2 ^ sh
  let r := n % 2 ^ sh
  if 2 ^ sh < 2 * r ∨ (2 ^ sh = 2 * r ∧ q % 2 = 1) then q + 1 else q

/-- `as f32` and `f16::from_f64`: to the nearest, ties to even, too big is infinite, a NaN becomes quiet. Used by ciborium and serde (through serializer/mod.rs:81, 94). -/
def narrow (e m b : Nat) : Nat :=
  let s := b / 2 ^ 63 * 2 ^ (e + m)
  let x := b / 2 ^ 52 % 2 ^ 11
  let k := b % 2 ^ 52
  let inf := (2 ^ e - 1) * 2 ^ m
  if x = 2047 then s + inf + (if k = 0 then 0 else quiet m (k / 2 ^ (52 - m)))
  else
    let sig := if x = 0 then k else 2 ^ 52 + k
    let y := max x 1 + 2 ^ (e - 1) - 1
    s + min inf (if 1023 < y then (y - 1024) * 2 ^ m + roundEven sig (52 - m) else roundEven sig (52 - m + (1024 - y)))

/-! ## Postcard -/
namespace Postcard

/-- `varint_u16/u32/u64/usize` (postcard/src/varint.rs): 7 bits per byte, least significant first, top bit set on all bytes but the last. -/
def encVar (n : Nat) : Buf := if n < 128 then [byte n] else byte (n % 128 + 128) :: encVar (n / 128)

/-- `varint_max`: number of bytes of a `w`-bit varint. postcard/src/varint.rs (through serializer/mod.rs:79). -/
def varMax (w : Nat) : Nat := (w + 6) / 7

/-- `try_take_varint_…` (postcard/src/de/deserializer.rs): at most `varMax w` bytes, and the value must fit in `w` bits (the check of the last byte). `k` bytes are
left to read, `sh` is the weight of the next one, `acc` the value so far. Reached (through serializer/mod.rs:93). -/
def decVarLoop (w : Nat) : Nat → (sh acc : Nat) → Buf → Option (Nat × Buf)
  | 0, _, _, _ => none
  | k + 1, sh, acc, bs =>
    match pop bs with
    | none => none
    | some (b, bs) =>
      let acc := acc + b % 128 * sh
      if b < 128 then (if acc < 2 ^ w then some (acc, bs) else none) else decVarLoop w k (sh * 128) acc bs

/-- `try_take_varint_…` (through serializer/mod.rs:93). -/
def decVar (w : Nat) (bs : Buf) : Option (Nat × Buf) := decVarLoop w (varMax w) 1 0 bs

/-- Zig-zag encoding of signed integers, and its inverse. postcard/src/ser/serializer.rs, de/deserializer.rs (through serializer/mod.rs:79, 93). -/
def zigzag (z : Int) : Nat := if z < 0 then (-z).toNat * 2 - 1 else z.toNat * 2
/-- The inverse (through serializer/mod.rs:93). -/
def unzigzag (n : Nat) : Int := if n % 2 = 0 then (n / 2 : Nat) else -((n / 2 + 1 : Nat) : Int)

/-- Unsigned integers: `u8` is one raw byte, wider ones are varints. -/
def encUint (w n : Nat) : Buf := if w = 8 then [byte n] else encVar n
/-- Unsigned integers, postcard (through serializer/mod.rs:93). -/
def decUint (w : Nat) (bs : Buf) : Option ({ n : Nat // n < 2 ^ w } × Buf) := do
  let (n, bs) ← if w = 8 then pop bs else decVar w bs
  if h : n < 2 ^ w then some (⟨n, h⟩, bs) else none

/-- Signed integers: `i8` is one raw byte (two's complement), wider ones are zig-zag varints. -/
def encSint (w : Nat) (z : Int) : Buf := if w = 8 then [byte (z % 256).toNat] else encVar (zigzag z)
/-- Signed integers, postcard (through serializer/mod.rs:93). -/
def decSint (w : Nat) (bs : Buf) : Option ({ z : Int // -(2 ^ w : Nat) ≤ 2 * z ∧ 2 * z < (2 ^ w : Nat) } × Buf) := do
  let (z, bs) ← if w = 8 then (pop bs).map (fun p => (if p.1 < 128 then (p.1 : Int) else p.1 - 256, p.2)) else (decVar w bs).map (fun p => (unzigzag p.1, p.2))
  if h : -(2 ^ w : Nat) ≤ 2 * z ∧ 2 * z < (2 ^ w : Nat) then some (⟨z, h⟩, bs) else none

/-- `k` bytes, least significant first: `to_le_bytes` (through serializer/mod.rs:79). -/
def le : Nat → Nat → Buf
  | 0, _ => []
  | k + 1, n => byte n :: le k (n / 256)
/-- `from_le_bytes` (through serializer/mod.rs:93). -/
def decLe : Nat → Buf → Option (Nat × Buf)
  | 0, bs => some (0, bs)
  | k + 1, bs => do
    let (b, bs) ← pop bs
    let (n, bs) ← decLe k bs
    some (b + 256 * n, bs)
/-- `deserialize_f32`; a signalling NaN is read as none of our values. -/
def decF32 (bs : Buf) : Option ({ b : Nat // b < 2 ^ 32 ∧ ¬ signalling 8 23 b } × Buf) := do
  let (n, bs) ← decLe 4 bs
  if h : n < 2 ^ 32 ∧ ¬ signalling 8 23 n then some (⟨n, h⟩, bs) else none
/-- `deserialize_f64` (through serializer/mod.rs:93). -/
def decF64 (bs : Buf) : Option ({ b : Nat // b < 2 ^ 64 } × Buf) := do
  let (n, bs) ← decLe 8 bs
  if h : n < 2 ^ 64 then some (⟨n, h⟩, bs) else none

/-- Byte strings: length, then the bytes. postcard `serialize_bytes` (through serializer/mod.rs:79). -/
def encBytes (l : Buf) : Buf := encVar l.length ++ l
/-- postcard `deserialize_byte_buf` (through serializer/mod.rs:93). -/
def decBytes (bs : Buf) : Option (Bytes × Buf) := do
  let (n, bs) ← decVar 64 bs
  let (l, bs) ← takeN n bs
  let l ← bounded l
  some (l, bs)
/-- Strings: the same, checked to be UTF-8. -/
def decStr (bs : Buf) : Option (Str × Buf) := do
  let (n, bs) ← decVar 64 bs
  let (l, bs) ← takeN n bs
  let s ← ofUtf8 l
  if h : s.utf8ByteSize < 2 ^ 64 then some (⟨s, h⟩, bs) else none

/-- Characters: a string of one character (`serialize_char`). The decoder takes the first character of a string of at most four bytes (`deserialize_char`). Reached (through serializer/mod.rs:93). -/
def decChar (bs : Buf) : Option (Char × Buf) := do
  let (n, bs) ← decVar 64 bs
  let (l, bs) ← if n ≤ 4 then takeN n bs else none
  let s ← ofUtf8 l
  let c ← s.toList.head?
  some (c, bs)

mutual
/-- `postcard::to_io`, serializer/mod.rs:79. -/
def enc : (t : Ty) → t.den → Buf
  | .unit, _ => []
  | .bool, b => [byte (Bool.toNat b)]
  | .uint w, n => encUint w n.1
  | .sint w, z => encSint w z.1
  | .f32, b => le 4 b.1
  | .f64, b => le 8 b.1
  | .char, c => encBytes (utf8 (String.singleton c))
  | .str, s => encBytes (utf8 s.1)
  | .bytes, l => encBytes l.1
  | .opt _, none => [byte 0]
  | .opt t, some v => byte 1 :: enc t v
  | .seq t, l => encVar l.1.length ++ (l.1.map (enc t)).flatten
  | .map k v, l => encVar l.1.length ++ (l.1.map fun p => enc k p.1 ++ enc v p.2).flatten
  | .tuple fs, v => encF fs v
  | .struct fs, v => encF fs v
  | .enum vs, v => encV vs 0 v
/-- Fields one after the other, postcard (through serializer/mod.rs:79). -/
def encF : (fs : Fields) → fs.den → Buf
  | .nil, _ => []
  | .cons _ t fs, v => enc t v.1 ++ encF fs v.2
/-- Variant index (from `i`) as a `u32` varint, then the payload. -/
def encV : (vs : Variants) → Nat → vs.den → Buf
  | .unit _ _, i, .inl _ => encVar i
  | .unit _ vs, i, .inr v => encV vs (i + 1) v
  | .payload _ t _, i, .inl v => encVar i ++ enc t v
  | .payload _ _ vs, i, .inr v => encV vs (i + 1) v
end

mutual
/-- `postcard::from_bytes`, serializer/mod.rs:93. -/
def dec : (t : Ty) → Buf → Option (t.den × Buf)
  | .unit, bs => some ((), bs)
  | .bool, bs => do
    let (b, bs) ← pop bs
    if b = 0 then some (false, bs) else if b = 1 then some (true, bs) else none
  | .uint w, bs => decUint w bs
  | .sint w, bs => decSint w bs
  | .f32, bs => decF32 bs
  | .f64, bs => decF64 bs
  | .char, bs => decChar bs
  | .str, bs => decStr bs
  | .bytes, bs => decBytes bs
  | .opt t, bs => do
    let (b, bs) ← pop bs
    if b = 0 then some (none, bs) else if b = 1 then (dec t bs).map fun p => (some p.1, p.2) else none
  | .seq t, bs => do
    let (n, bs) ← decVar 64 bs
    let (l, bs) ← many (dec t) n bs
    let l ← bounded l
    some (l, bs)
  | .map k v, bs => do
    let (n, bs) ← decVar 64 bs
    let (l, bs) ← many (both (dec k) (dec v)) n bs
    let l ← bounded l
    some (l, bs)
  | .tuple fs, bs => decF fs bs
  | .struct fs, bs => decF fs bs
  | .enum vs, bs => do
    let (i, bs) ← decVar 32 bs
    decV vs i bs
/-- Fields one after the other, postcard (through serializer/mod.rs:93). -/
def decF : (fs : Fields) → Buf → Option (fs.den × Buf)
  | .nil, bs => some ((), bs)
  | .cons _ t fs, bs => do
    let (v, bs) ← dec t bs
    let (vs, bs) ← decF fs bs
    some ((v, vs), bs)
/-- The variant index selects the variant, postcard (through serializer/mod.rs:93). -/
def decV : (vs : Variants) → Nat → Buf → Option (vs.den × Buf)
  | .nil, _, _ => none
  | .unit _ vs, i, bs => if i = 0 then some (.inl (), bs) else (decV vs (i - 1) bs).map fun p => (.inr p.1, p.2)
  | .payload _ t vs, i, bs =>
    if i = 0 then (dec t bs).map fun p => (.inl p.1, p.2) else (decV vs (i - 1) bs).map fun p => (.inr p.1, p.2)
end

end Postcard

/-! ## CBOR -/
namespace Cbor

/-- `ciborium_ll::Header`. Reached through serializer/mod.rs:81, 94. -/
inductive Header where
  | positive (n : Nat)
  | negative (n : Nat)
  | bytes (n : Nat)
  | text (n : Nat)
  | array (n : Nat)
  | map (n : Nat)
  | tag (n : Nat)
  | simple (n : Nat)
  | float (bits : Nat)
deriving DecidableEq, Repr

/-- `k` bytes, most significant first. Reached through serializer/mod.rs:81, 94. -/
def be : Nat → Nat → Buf
  | 0, _ => []
  | k + 1, n => be k (n / 256) ++ [byte n]

/-- `k` bytes, most significant first, read after `acc` (through serializer/mod.rs:94). -/
def decBe : Nat → Nat → Buf → Option (Nat × Buf)
  | 0, acc, bs => some (acc, bs)
  | k + 1, acc, bs =>
    match pop bs with
    | none => none
    | some (b, bs) => decBe k (acc * 256 + b) bs

/-- Initial byte and argument in the shortest form. ciborium-ll, `Encoder::push` (through serializer/mod.rs:81). -/
def encHead (major n : Nat) : Buf :=
  if n < 24 then [byte (major * 32 + n)]
  else if n < 2 ^ 8 then byte (major * 32 + 24) :: be 1 n
  else if n < 2 ^ 16 then byte (major * 32 + 25) :: be 2 n
  else if n < 2 ^ 32 then byte (major * 32 + 26) :: be 4 n
  else byte (major * 32 + 27) :: be 8 n

/-- `Encoder::push` (through serializer/mod.rs:81). A float is written as the narrowest of `f16`, `f32` and `f64` that has the same bits when converted back. -/
def Header.enc : Header → Buf
  | .positive n => encHead 0 n
  | .negative n => encHead 1 n
  | .bytes n => encHead 2 n
  | .text n => encHead 3 n
  | .array n => encHead 4 n
  | .map n => encHead 5 n
  | .tag n => encHead 6 n
  | .simple n => encHead 7 n
  | .float n =>
    if widen 5 10 (narrow 5 10 n) = n then byte (7 * 32 + 25) :: be 2 (narrow 5 10 n)
    else if widen 8 23 (narrow 8 23 n) = n then byte (7 * 32 + 26) :: be 4 (narrow 8 23 n)
    else byte (7 * 32 + 27) :: be 8 n

/-- The header with major type `major`, additional information `info` and argument `n`. ciborium-ll (through serializer/mod.rs:94). -/
def Header.of (major info n : Nat) : Header :=
  match major with
  | 0 => .positive n
  | 1 => .negative n
  | 2 => .bytes n
  | 3 => .text n
  | 4 => .array n
  | 5 => .map n
  | 6 => .tag n
  | _ => if info ≤ 24 then .simple n else if info = 25 then .float (widen 5 10 n) else if info = 26 then .float (widen 8 23 n) else .float n

/-- `Decoder::pull` (ciborium-ll). Reached (through serializer/mod.rs:94). -/
def decHead (bs : Buf) : Option (Header × Buf) := do
  let (b, bs) ← pop bs
  let info := b % 32
  let (n, bs) ←
    if info < 24 then some (info, bs) else if info = 24 then decBe 1 0 bs else if info = 25 then decBe 2 0 bs else if info = 26 then decBe 4 0 bs
    else if info = 27 then decBe 8 0 bs else none
  some (Header.of (b / 32) info n, bs)

/-- Text: header and bytes. `serialize_str` (through serializer/mod.rs:81). -/
def encText (s : String) : Buf := (Header.text (utf8 s).length).enc ++ utf8 s

/-- Read `n` bytes of UTF-8. -/
def takeStr (n : Nat) (bs : Buf) : Option (String × Buf) := do
  let (l, bs) ← takeN n bs
  let s ← ofUtf8 l
  some (s, bs)

/-- `deserialize_string`. Reached (through serializer/mod.rs:94). -/
def decText (bs : Buf) : Option (String × Buf) := do
  match ← decHead bs with
  | (.text n, bs) => takeStr n bs
  | _ => none

/-- `deserialize_identifier`: text (or bytes) of at most 4096 bytes, the size of the scratch buffer. -/
def decIdent (bs : Buf) : Option (String × Buf) := do
  match ← decHead bs with
  | (.text n, bs) => if n ≤ 4096 then takeStr n bs else none
  | (.bytes n, bs) => if n ≤ 4096 then takeStr n bs else none
  | _ => none

/-- `deserialize_byte_buf`. Reached (through serializer/mod.rs:94). -/
def decBytes (bs : Buf) : Option (Bytes × Buf) := do
  match ← decHead bs with
  | (.bytes n, bs) => do
    let (l, bs) ← takeN n bs
    let l ← bounded l
    some (l, bs)
  | _ => none

/-- `deserialize_char`: text of at most four bytes with exactly one character. Reached (through serializer/mod.rs:94). -/
def decChar (bs : Buf) : Option (Char × Buf) := do
  match ← decHead bs with
  | (.text n, bs) => do
    let (s, bs) ← if n ≤ 4 then takeStr n bs else none
    match s.toList with
    | [c] => some (c, bs)
    | _ => none
  | _ => none

/-- The bytes of a big integer: 16 bytes, most significant first, without leading zeros. -/
def bigBytes (n : Nat) : Buf := (be 16 n).dropWhile fun b => b == 0

/-- `serialize_i128` and, for smaller types, `serialize_u64` and `serialize_i64`: `raw` is the number itself, or for a negative number (`neg`) its bitwise complement. Below `2^64` it is the argument of the
header, otherwise a byte string with tag 2 or 3. -/
def encInt (neg : Bool) (raw : Nat) : Buf :=
  if raw < 2 ^ 64 then (if neg then Header.negative raw else Header.positive raw).enc
  else (Header.tag (if neg then 3 else 2)).enc ++ (Header.bytes (bigBytes raw).length).enc ++ bigBytes raw

/-- The byte string of a big integer: at most 16 bytes after leading zeros. -/
def decBig (bs : Buf) : Option (Nat × Buf) := do
  match ← decHead bs with
  | (.bytes n, bs) => do
    let (l, bs) ← takeN n bs
    let m := l.dropWhile fun b => b == 0
    if m.length ≤ 16 then some (m.foldl (fun acc b => acc * 256 + b.toNat) 0, bs) else none
  | _ => none

/-- `Deserializer::integer`: the sign and the raw value. Reached (through serializer/mod.rs:94). -/
def decInt (bs : Buf) : Option ((Bool × Nat) × Buf) := do
  match ← decHead bs with
  | (.positive n, bs) => some ((false, n), bs)
  | (.negative n, bs) => some ((true, n), bs)
  | (.tag t, bs) => if t = 2 then (decBig bs).map (fun p => ((false, p.1), p.2)) else if t = 3 then (decBig bs).map (fun p => ((true, p.1), p.2)) else none
  | _ => none

/-- Signed integers. `serialize_i64`, `serialize_i128` (through serializer/mod.rs:81). -/
def encSint (z : Int) : Buf := if z < 0 then encInt true (-z - 1).toNat else encInt false z.toNat
/-- Unsigned integers, ciborium (through serializer/mod.rs:94). -/
def decUint (w : Nat) (bs : Buf) : Option ({ n : Nat // n < 2 ^ w } × Buf) := do
  let ((neg, n), bs) ← decInt bs
  if neg = true then none else if h : n < 2 ^ w then some (⟨n, h⟩, bs) else none
/-- Signed integers, ciborium (through serializer/mod.rs:94). -/
def decSint (w : Nat) (bs : Buf) : Option ({ z : Int // -(2 ^ w : Nat) ≤ 2 * z ∧ 2 * z < (2 ^ w : Nat) } × Buf) := do
  let ((neg, n), bs) ← decInt bs
  let z := if neg then -(n : Int) - 1 else (n : Int)
  if h : -(2 ^ w : Nat) ≤ 2 * z ∧ 2 * z < (2 ^ w : Nat) then some (⟨z, h⟩, bs) else none

/-- `deserialize_f64`, and `deserialize_f32`, which is the same followed by serde's `as f32`. Reached (through serializer/mod.rs:94). -/
def decF64 (bs : Buf) : Option ({ b : Nat // b < 2 ^ 64 } × Buf) := do
  match ← decHead bs with
  | (.float n, bs) => if h : n < 2 ^ 64 then some (⟨n, h⟩, bs) else none
  | _ => none
/-- `deserialize_f32` (through serializer/mod.rs:94). -/
def decF32 (bs : Buf) : Option ({ b : Nat // b < 2 ^ 32 ∧ ¬ signalling 8 23 b } × Buf) := do
  match ← decHead bs with
  | (.float n, bs) => if h : narrow 8 23 n < 2 ^ 32 ∧ ¬ signalling 8 23 (narrow 8 23 n) then some (⟨narrow 8 23 n, h⟩, bs) else none
  | _ => none

mutual
/-- `ciborium::into_writer`, serializer/mod.rs:81. -/
def enc : (t : Ty) → t.den → Buf
  | .unit, _ => (Header.simple 22).enc
  | .bool, b => (Header.simple (20 + Bool.toNat b)).enc
  | .uint _, n => encInt false n.1
  | .sint _, z => encSint z.1
  | .f32, b => (Header.float (widen 8 23 b.1)).enc
  | .f64, b => (Header.float b.1).enc
  | .char, c => encText (String.singleton c)
  | .str, s => encText s.1
  | .bytes, l => (Header.bytes l.1.length).enc ++ l.1
  | .opt _, none => (Header.simple 22).enc
  | .opt t, some v => enc t v
  | .seq t, l => (Header.array l.1.length).enc ++ (l.1.map (enc t)).flatten
  | .map k v, l => (Header.map l.1.length).enc ++ (l.1.map fun p => enc k p.1 ++ enc v p.2).flatten
  | .tuple fs, v => (Header.array fs.count).enc ++ encT fs v
  | .struct fs, v => (Header.map fs.count).enc ++ encS fs v
  | .enum vs, v => encV vs v
/-- Elements of a tuple. ciborium (through serializer/mod.rs:81). -/
def encT : (fs : Fields) → fs.den → Buf
  | .nil, _ => []
  | .cons _ t fs, v => enc t v.1 ++ encT fs v.2
/-- Entries of a struct: name, value. ciborium (through serializer/mod.rs:81). -/
def encS : (fs : Fields) → fs.den → Buf
  | .nil, _ => []
  | .cons n t fs, v => encText n ++ enc t v.1 ++ encS fs v.2
/-- A unit variant is its name, one with a payload is a map of one entry. ciborium (through serializer/mod.rs:81). -/
def encV : (vs : Variants) → vs.den → Buf
  | .unit n _, .inl _ => encText n
  | .unit _ vs, .inr v => encV vs v
  | .payload n t _, .inl v => (Header.map 1).enc ++ encText n ++ enc t v
  | .payload _ _ vs, .inr v => encV vs v
end

/-- The fields read so far by a derived struct visitor. Code of the serde derive (through serializer/mod.rs:94). -/
def Part : Fields → Type
  | .nil => Unit
  | .cons _ t fs => Option t.den × Part fs

/-- No field read yet (through serializer/mod.rs:94). -/
def Part.empty : (fs : Fields) → Part fs
  | .nil => ()
  | .cons _ _ fs => (none, Part.empty fs)

/-- All fields present. Otherwise the derived visitor answers `missing_field` (through serializer/mod.rs:94). -/
def Part.finish : (fs : Fields) → Part fs → Option fs.den
  | .nil, _ => some ()
  | .cons _ _ fs, p => do
    let v ← p.1
    let vs ← Part.finish fs p.2
    some (v, vs)

/-- Read `n` entries. Of a map (through serializer/mod.rs:94). -/
def entries (f : Buf → σ → Option (σ × Buf)) : Nat → σ → Buf → Option (σ × Buf)
  | 0, p, bs => some (p, bs)
  | n + 1, p, bs => do
    let (p, bs) ← f bs p
    entries f n p bs

mutual
/-- `ciborium`'s `Deserializer` with `d` levels of recursion left (`recurse` in its `de/mod.rs`): an array, a map and an enum take one level while their content is read, and fail if there is none. Reached through serializer/mod.rs:94. -/
def dec : (t : Ty) → Nat → Buf → Option (t.den × Buf)
  | .unit, _, bs => do
    match ← decHead bs with
    | (.simple 22, bs) => some ((), bs)
    | (.simple 23, bs) => some ((), bs)
    | _ => none
  | .bool, _, bs => do
    match ← decHead bs with
    | (.simple 20, bs) => some (false, bs)
    | (.simple 21, bs) => some (true, bs)
    | _ => none
  | .uint w, _, bs => decUint w bs
  | .sint w, _, bs => decSint w bs
  | .f32, _, bs => decF32 bs
  | .f64, _, bs => decF64 bs
  | .char, _, bs => decChar bs
  | .str, _, bs => do
    let (s, bs) ← decText bs
    if h : s.utf8ByteSize < 2 ^ 64 then some (⟨s, h⟩, bs) else none
  | .bytes, _, bs => decBytes bs
  | .opt t, d, bs => do
    match ← decHead bs with
    | (.simple 22, bs) => some (none, bs)
    | (.simple 23, bs) => some (none, bs)
    | _ => (dec t d bs).map fun p => (some p.1, p.2)
  | .seq t, d, bs => if d = 0 then none else do
    match ← decHead bs with
    | (.array n, bs) => do
      let (l, bs) ← many (dec t (d - 1)) n bs
      let l ← bounded l
      some (l, bs)
    | _ => none
  | .map k v, d, bs => if d = 0 then none else do
    match ← decHead bs with
    | (.map n, bs) => do
      let (l, bs) ← many (both (dec k (d - 1)) (dec v (d - 1))) n bs
      let l ← bounded l
      some (l, bs)
    | _ => none
  | .tuple fs, d, bs => if d = 0 then none else do
    match ← decHead bs with
    | (.array n, bs) => if n = fs.count then decT fs (d - 1) bs else none
    | _ => none
  | .struct fs, d, bs => if d = 0 then none else do
    match ← decHead bs with
    | (.map n, bs) => do
      let (p, bs) ← entries (fun bs p => do let (name, bs) ← decIdent bs; decS fs (d - 1) name p bs) n (Part.empty fs) bs
      let v ← Part.finish fs p
      some (v, bs)
    | _ => none
  | .enum vs, d, bs => if d = 0 then none else do
    match ← decHead bs with
    | (.map 1, bs) => do
      let (name, bs) ← decIdent bs
      decV vs (d - 1) name bs
    | (.text _, _) => do
      let (name, bs) ← decIdent bs
      decV vs (d - 1) name bs
    | _ => none
/-- Elements of a tuple (through serializer/mod.rs:94). -/
def decT : (fs : Fields) → Nat → Buf → Option (fs.den × Buf)
  | .nil, _, bs => some ((), bs)
  | .cons _ t fs, d, bs => do
    let (v, bs) ← dec t d bs
    let (vs, bs) ← decT fs d bs
    some ((v, vs), bs)
/-- The value of the field `name`: it must exist and not have been read yet. Code of the serde derive (through serializer/mod.rs:94). -/
def decS : (fs : Fields) → Nat → String → Part fs → Buf → Option (Part fs × Buf)
  | .nil, _, _, _, _ => none
  | .cons n t fs, d, name, p, bs =>
    if name = n then
      match p.1 with
      | some _ => none
      | none => (dec t d bs).map fun q => ((some q.1, p.2), q.2)
    else (decS fs d name p.2 bs).map fun q => ((p.1, q.1), q.2)
/-- The variant with that name (through serializer/mod.rs:94). -/
def decV : (vs : Variants) → Nat → String → Buf → Option (vs.den × Buf)
  | .nil, _, _, _ => none
  | .unit n vs, d, name, bs => if name = n then some (.inl (), bs) else (decV vs d name bs).map fun p => (.inr p.1, p.2)
  | .payload n t vs, d, name, bs =>
    if name = n then (dec t d bs).map fun p => (.inl p.1, p.2) else (decV vs d name bs).map fun p => (.inr p.1, p.2)
end

/-- `ciborium::from_reader`: 256 levels. Called at serializer/mod.rs:94. -/
def read (t : Ty) (bs : Buf) : Option (t.den × Buf) := dec t 256 bs

end Cbor
end Wire
end Paladin
