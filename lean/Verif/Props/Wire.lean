import Verif.Proofs.WireMono
import Verif.Model.Messages
/-! # Wire formats (C37, C38, C59, C60) -/
namespace Paladin
namespace Wire

/-- **C59** for Postcard: every value of every well-formed serde type survives, whatever bytes follow. -/
theorem C59_postcard (t : Ty) (h : t.WF) (v : t.den) (rest : Buf) : Postcard.dec t (Postcard.enc t v ++ rest) = some (v, rest) := Postcard.rt t h v rest

/-- **C59** for CBOR, what holds (partial): every value of every well-formed serde type without directly nested options survives, if it is nested at most 256 levels deep. -/
theorem C59_cbor_partial (t : Ty) (h : t.WF) (hn : t.NoNestedOption) (v : t.den) (hl : t.levels v ≤ 256) (rest : Buf) : Cbor.read t (Cbor.enc t v ++ rest) = some (v, rest) := by
  rw [Cbor.read, Cbor.rt t h hn, if_pos hl]

/-- **C59** is false for CBOR: `Some(None)` of an `Option<Option<bool>>` comes back as `None`, and so does `Some(())` of an `Option<()>`. -/
theorem C59_cbor_witness : Cbor.read (.opt (.opt .bool)) (Cbor.enc (.opt (.opt .bool)) (some none)) = some (none, []) ∧
    Cbor.read (.opt .unit) (Cbor.enc (.opt .unit) (some ())) = some (none, []) := ⟨rfl, rfl⟩

/-- **C59** for floats: of the bit patterns of an `f32` only the signalling NaNs are left out; zeros of both signs, subnormal numbers, infinities and quiet NaNs with their payload come back bit by bit. An `f64` comes back bit by bit always. -/
theorem C59_floats (b : Nat) (hb : b < 2 ^ 32) (h : b / 2 ^ 23 % 256 = 255 → b % 2 ^ 23 = 0 ∨ 2 ^ 22 ≤ b % 2 ^ 23) (rest : Buf) :
    (∃ v : Ty.f32.den, v.1 = b ∧ Postcard.dec .f32 (Postcard.enc .f32 v ++ rest) = some (v, rest) ∧ Cbor.read .f32 (Cbor.enc .f32 v ++ rest) = some (v, rest)) ∧
    ∀ v : Ty.f64.den, Postcard.dec .f64 (Postcard.enc .f64 v ++ rest) = some (v, rest) ∧ Cbor.read .f64 (Cbor.enc .f64 v ++ rest) = some (v, rest) :=
  ⟨⟨⟨b, hb, fun hs => by have := hs.1; have := hs.2.1; have := hs.2.2; omega⟩, rfl, Postcard.rt .f32 trivial _ rest, Cbor.rt_safe .f32 trivial ⟨trivial, by decide⟩ _ rest⟩,
    fun v => ⟨Postcard.rt .f64 trivial v rest, Cbor.rt_safe .f64 trivial ⟨trivial, by decide⟩ v rest⟩⟩

/-- A quiet NaN with a payload, and the smallest negative subnormal number. -/
example : (2143289345 / 2 ^ 23 % 256 = 255 ∧ 2 ^ 22 ≤ 2143289345 % 2 ^ 23) ∧ 2147483649 / 2 ^ 23 % 256 ≠ 255 := by decide

/-- Every user type built from the combinators is covered, for example `Vec<(u32, Option<String>)>` in an enum. -/
example : (Ty.enum (.payload "Items" (.seq (.tuple (.cons "" (.uint 32) (.cons "" (.opt .str) .nil)))) (.unit "Empty" .nil))).WF ∧
    (Ty.enum (.payload "Items" (.seq (.tuple (.cons "" (.uint 32) (.cons "" (.opt .str) .nil)))) (.unit "Empty" .nil))).CborSafe := by
  refine ⟨⟨by decide +kernel, ⟨by decide, by simp [Ty.WF], trivial, trivial⟩, trivial⟩, ⟨⟨trivial, ⟨rfl, trivial⟩, trivial⟩, trivial⟩, by decide⟩

/-- Characters, 128-bit integers and maps as well; concrete encodings of `'é'`, `2^64` and `-2^64 - 1`, and of a map from characters to options. -/
example : (Ty.map .char (.opt (.uint 128))).WF ∧ (Ty.map .char (.opt (.uint 128))).CborSafe ∧
    Postcard.enc .char 'é' = [2, 195, 169] ∧ Cbor.enc .char 'é' = [98, 195, 169] ∧
    Cbor.enc (.uint 128) ⟨2 ^ 64, by decide⟩ = [194, 73, 1, 0, 0, 0, 0, 0, 0, 0, 0] ∧
    Cbor.enc (.sint 128) ⟨-(2 ^ 64) - 1, by decide⟩ = [195, 73, 1, 0, 0, 0, 0, 0, 0, 0, 0] ∧
    Postcard.enc (.uint 128) ⟨2 ^ 64, by decide⟩ = [128, 128, 128, 128, 128, 128, 128, 128, 128, 2] ∧
    Postcard.enc (.map .char (.opt (.uint 16))) ⟨[('a', some ⟨300, by decide⟩), ('b', none)], by simp⟩ = [2, 1, 97, 1, 172, 2, 1, 98, 0] ∧
    Cbor.enc (.map .char (.opt (.uint 16))) ⟨[('a', some ⟨300, by decide⟩), ('b', none)], by simp⟩ = [162, 97, 97, 25, 1, 44, 97, 98, 246] := by
  refine ⟨⟨trivial, by simp [Ty.WF]⟩, ⟨⟨trivial, rfl, trivial⟩, by decide⟩, ?_, ?_, ?_, ?_, ?_, ?_, ?_⟩ <;> decide +kernel

/-- Floats, as bit patterns: 1.0, 100000.0 and 1.1 as `f64` take 3, 5 and 9 bytes in CBOR; the smallest positive half, 65504.0 and infinity are halves; 0.1 as `f32` takes 5, and comes back although it
travels as an `f64`; 1e-45, which is subnormal as `f32`, too. -/
example : Cbor.enc .f64 ⟨0x3ff0000000000000, by decide⟩ = [0xf9, 0x3c, 0x00] ∧ Cbor.enc .f64 ⟨0x40f86a0000000000, by decide⟩ = [0xfa, 0x47, 0xc3, 0x50, 0x00] ∧
    Cbor.enc .f64 ⟨0x3ff199999999999a, by decide⟩ = [0xfb, 0x3f, 0xf1, 0x99, 0x99, 0x99, 0x99, 0x99, 0x9a] ∧ Cbor.enc .f64 ⟨0x3e70000000000000, by decide⟩ = [0xf9, 0x00, 0x01] ∧
    Cbor.enc .f64 ⟨0x40effc0000000000, by decide⟩ = [0xf9, 0x7b, 0xff] ∧ Cbor.enc .f64 ⟨0x7ff0000000000000, by decide⟩ = [0xf9, 0x7c, 0x00] ∧
    Cbor.enc .f32 ⟨0x3dcccccd, by decide⟩ = [0xfa, 0x3d, 0xcc, 0xcc, 0xcd] ∧ widen 8 23 0x3dcccccd = 0x3fb99999a0000000 ∧ Cbor.enc .f32 ⟨1, by decide⟩ = [0xfa, 0, 0, 0, 1] ∧
    Postcard.enc .f32 ⟨0x3dcccccd, by decide⟩ = [0xcd, 0xcc, 0xcc, 0x3d] ∧ narrow 8 23 0x3ff199999999999a = 0x3f8ccccd ∧ narrow 5 10 0x3ff199999999999a = 0x3c66 ∧
    narrow 8 23 0x47efffffffffffff = 0x7f800000 ∧ narrow 8 23 0x3ff0000010000000 = 0x3f800000 ∧ narrow 8 23 0x3ff0000030000000 = 0x3f800002 := by
  refine ⟨?_, ?_, ?_, ?_, ?_, ?_, ?_, ?_, ?_, ?_, ?_, ?_, ?_, ?_, ?_⟩ <;> decide +kernel

theorem fromBytes_toBytes {α : Type} [Serde α] (hw : (Serde.ty α).WF) (hn : (Serde.ty α).CborSafe) (k : Serializer) (a : α) (rest : Buf) :
    fromBytes k α (toBytes k a ++ rest) = some a := by
  cases k
  · simp only [fromBytes, toBytes, Postcard.rt _ hw, Option.map, Serde.de_ser]
  · simp only [fromBytes, toBytes, Cbor.rt_safe _ hw hn, Option.map, Serde.de_ser]

theorem serializer_wf : (Serde.ty Serializer).WF ∧ (Serde.ty Serializer).CborSafe := ⟨⟨by decide +kernel, trivial⟩, trivial, by decide⟩

theorem anyTask_wf : (Serde.ty AnyTask).WF ∧ (Serde.ty AnyTask).CborSafe :=
  ⟨⟨by decide +kernel, trivial, trivial, trivial, by simp [Ty.WF], trivial, serializer_wf.1, trivial⟩, ⟨trivial, trivial, trivial, trivial, trivial, serializer_wf.2.1, trivial⟩, by decide⟩

theorem anyTaskOutput_wf : (Serde.ty AnyTaskOutput).WF ∧ (Serde.ty AnyTaskOutput).CborSafe :=
  ⟨⟨by decide +kernel, trivial, trivial, serializer_wf.1, trivial⟩, ⟨trivial, trivial, serializer_wf.2.1, trivial⟩, by decide⟩

theorem anyTaskResult_wf : (Serde.ty AnyTaskResult).WF ∧ (Serde.ty AnyTaskResult).CborSafe :=
  ⟨⟨by decide +kernel, anyTaskOutput_wf.1, trivial, trivial⟩, ⟨anyTaskOutput_wf.2.1, trivial, trivial⟩, by decide⟩

theorem commandIpc_wf : (Serde.ty CommandIpc).WF ∧ (Serde.ty CommandIpc).CborSafe :=
  ⟨⟨by decide +kernel, ⟨by decide +kernel, trivial, trivial⟩, trivial⟩, ⟨⟨trivial, trivial⟩, trivial⟩, by decide⟩

theorem foldMetadata_wf : (Serde.ty FoldMetadata).WF ∧ (Serde.ty FoldMetadata).CborSafe :=
  ⟨⟨by decide +kernel, ⟨by decide +kernel, by simp [Ty.WF], by simp [Ty.WF], trivial⟩, trivial⟩, ⟨⟨trivial, trivial, trivial⟩, trivial⟩, by decide⟩

/-- **C37**: tasks, task results, commands, and the metadata of fold and map tasks survive the Postcard round trip, whatever bytes follow. -/
theorem C37_postcard (rest : Buf) : (∀ t : AnyTask, fromBytes .postcard AnyTask (toBytes .postcard t ++ rest) = some t) ∧
    (∀ r : AnyTaskResult, fromBytes .postcard AnyTaskResult (toBytes .postcard r ++ rest) = some r) ∧
    (∀ c : CommandIpc, fromBytes .postcard CommandIpc (toBytes .postcard c ++ rest) = some c) ∧
    (∀ m : FoldMetadata, fromBytes .postcard FoldMetadata (toBytes .postcard m ++ rest) = some m) ∧
    (∀ i : USz, fromBytes .postcard USz (toBytes .postcard i ++ rest) = some i) :=
  ⟨fun t => fromBytes_toBytes anyTask_wf.1 anyTask_wf.2 _ t rest, fun t => fromBytes_toBytes anyTaskResult_wf.1 anyTaskResult_wf.2 _ t rest,
    fun t => fromBytes_toBytes commandIpc_wf.1 commandIpc_wf.2 _ t rest, fun t => fromBytes_toBytes foldMetadata_wf.1 foldMetadata_wf.2 _ t rest,
    fun t => fromBytes_toBytes (α := USz) (by simp [Serde.ty, Ty.WF]) ⟨trivial, by decide⟩ _ t rest⟩

/-- **C38**: the same for CBOR. -/
theorem C38_cbor (rest : Buf) : (∀ t : AnyTask, fromBytes .cbor AnyTask (toBytes .cbor t ++ rest) = some t) ∧
    (∀ r : AnyTaskResult, fromBytes .cbor AnyTaskResult (toBytes .cbor r ++ rest) = some r) ∧
    (∀ c : CommandIpc, fromBytes .cbor CommandIpc (toBytes .cbor c ++ rest) = some c) ∧
    (∀ m : FoldMetadata, fromBytes .cbor FoldMetadata (toBytes .cbor m ++ rest) = some m) ∧
    (∀ i : USz, fromBytes .cbor USz (toBytes .cbor i ++ rest) = some i) :=
  ⟨fun t => fromBytes_toBytes anyTask_wf.1 anyTask_wf.2 _ t rest, fun t => fromBytes_toBytes anyTaskResult_wf.1 anyTaskResult_wf.2 _ t rest,
    fun t => fromBytes_toBytes commandIpc_wf.1 commandIpc_wf.2 _ t rest, fun t => fromBytes_toBytes foldMetadata_wf.1 foldMetadata_wf.2 _ t rest,
    fun t => fromBytes_toBytes (α := USz) (by simp [Serde.ty, Ty.WF]) ⟨trivial, by decide⟩ _ t rest⟩

/-- **C37/C38**: so messages that differ have different encodings. -/
theorem C37_injective (k : Serializer) (a b : AnyTask) (h : toBytes k a = toBytes k b) : a = b := by
  have h1 := fromBytes_toBytes anyTask_wf.1 anyTask_wf.2 k a []
  have h2 := fromBytes_toBytes anyTask_wf.1 anyTask_wf.2 k b []
  rw [h, h2] at h1
  exact (Option.some.inj h1).symm

/-- Concrete encodings: a command, and the metadata of a fold task over 1..=300. -/
example : toBytes .postcard (CommandIpc.abort ⟨"ab", by decide +kernel⟩) = [0, 2, 97, 98] ∧
    toBytes .postcard (⟨⟨1, by decide⟩, ⟨300, by decide⟩⟩ : FoldMetadata) = [1, 172, 2] ∧
    toBytes .cbor (⟨300, by decide⟩ : USz) = [25, 1, 44] ∧ toBytes .cbor Serializer.cbor = [100, 67, 98, 111, 114] := by
  decide +kernel

/-- **C60**: a truncated encoding is never decoded, for either format and every type that round-trips. -/
theorem C60_truncated {α : Type} [Serde α] (hw : (Serde.ty α).WF) (hn : (Serde.ty α).CborSafe) (k : Serializer) (a : α) {p s : Buf}
    (h : toBytes k a = p ++ s) (hs : s ≠ []) : fromBytes k α p = none := by
  have key : ∀ (dec : Buf → Option ((Serde.ty α).den × Buf)), Mono dec → dec (p ++ s) = some (Serde.ser a, []) → dec p = none := by
    intro dec hm hd
    cases hp : dec p with
    | none => rfl
    | some q =>
      obtain ⟨v, r⟩ := q
      rw [hm p v r s hp] at hd
      simp only [Option.some.injEq, Prod.mk.injEq, List.append_eq_nil_iff] at hd
      exact absurd hd.2.2 hs
  cases k
  · have h1 := Postcard.rt (Serde.ty α) hw (Serde.ser a) []
    simp only [toBytes] at h
    rw [List.append_nil, h] at h1
    simp only [fromBytes, key _ (Postcard.mono _) h1, Option.map]
  · have h1 := Cbor.rt_safe (Serde.ty α) hw hn (Serde.ser a) []
    simp only [toBytes] at h
    rw [List.append_nil, h] at h1
    have h2 : Cbor.read (Serde.ty α) p = none := key (Cbor.read (Serde.ty α)) (Cbor.mono _ _) h1
    simp only [fromBytes, h2, Option.map]

/-- **C60** for the messages paladin sends. -/
theorem C60_messages (k : Serializer) {p s : Buf} (hs : s ≠ []) : (∀ t : AnyTask, toBytes k t = p ++ s → fromBytes k AnyTask p = none) ∧
    (∀ r : AnyTaskResult, toBytes k r = p ++ s → fromBytes k AnyTaskResult p = none) ∧
    (∀ c : CommandIpc, toBytes k c = p ++ s → fromBytes k CommandIpc p = none) :=
  ⟨fun _ h => C60_truncated anyTask_wf.1 anyTask_wf.2 k _ h hs, fun _ h => C60_truncated anyTaskResult_wf.1 anyTaskResult_wf.2 k _ h hs,
    fun _ h => C60_truncated commandIpc_wf.1 commandIpc_wf.2 k _ h hs⟩

/-- A truncated command. -/
example : toBytes .postcard (CommandIpc.abort ⟨"ab", by decide +kernel⟩) = [0, 2, 97] ++ [98] ∧ fromBytes .postcard CommandIpc [0, 2, 97] = none := by
  decide +kernel

end Wire
end Paladin
