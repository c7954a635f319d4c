import Verif.Spec.SystemBytes
import Verif.Proofs.Exec
import Verif.Proofs.SystemLive
import Verif.Props.Retry
import Verif.Props.Wire
/-! # Encoding, executing and decoding is executing -/
namespace Paladin
namespace System
open Retry Exec Wire

variable {ε : Type} [Anyhow ε]

theorem mapMetadata_wf : (Serde.ty MapMetadata).WF ∧ (Serde.ty MapMetadata).CborSafe :=
  ⟨⟨by decide +kernel, by simp [Ty.WF], trivial⟩, ⟨trivial, trivial⟩, by decide⟩

theorem mapMeta_lawful : (mapMeta : Codec ε MapMetadata).Lawful := Codec.ofSerde_lawful mapMetadata_wf.1 mapMetadata_wf.2 _ _

theorem foldMeta_lawful : (foldMeta : Codec ε FoldMetadata).Lawful := Codec.ofSerde_lawful foldMetadata_wf.1 foldMetadata_wf.2 _ _

theorem encVar_length (k : Nat) : ∀ n, n < 128 ^ (k + 1) → (Postcard.encVar n).length ≤ k + 1 := by
  induction k with
  | zero => intro n hn; rw [Postcard.encVar]; simp at hn; simp [hn]
  | succ k ih =>
    intro n hn
    rw [Postcard.encVar]
    split
    · simp
    · have := ih (n / 128) (by rw [Nat.div_lt_iff_lt_mul (by decide)]; rw [Nat.pow_succ] at hn; exact hn)
      simp; omega

theorem encHead_length (m n : Nat) : (Cbor.encHead m n).length ≤ 9 := by
  unfold Cbor.encHead
  (repeat' split) <;> simp [Cbor.be]

theorem encInt_length (b : Bool) (n : Nat) : (Cbor.encInt b n).length ≤ 34 := by
  unfold Cbor.encInt
  have h0 := Cbor.bigBytes_length n
  have h1 := encHead_length 6 (if b then 3 else 2)
  have h2 := encHead_length 2 (Cbor.bigBytes n).length
  have h3 := encHead_length 0 n
  have h4 := encHead_length 1 n
  split
  · cases b <;> simp [Cbor.Header.enc] <;> omega
  · simp only [Cbor.Header.enc, List.length_append]; omega

/-- The metadata of a map's task can be serialized. -/
theorem mapMeta_total (k : Serializer) (m : MapMetadata) : ∃ b, (mapMeta : Codec ε MapMetadata).enc k m = .ok b := by
  have h : (toBytes k m).length < 2 ^ 64 := by
    cases k with
    | postcard =>
      have := encVar_length 9 m.idx.1 (Nat.lt_trans m.idx.2 (by decide))
      simp [toBytes, Serde.ser, Serde.ty, Postcard.enc, Postcard.encF, Postcard.encUint]
      omega
    | cbor =>
      have h1 := encHead_length 5 1
      have h2 := encInt_length false m.idx.1
      have h3 : (Cbor.encText "idx").length = 4 := by decide +kernel
      simp [toBytes, Serde.ser, Serde.ty, Cbor.enc, Cbor.encS, Cbor.Header.enc, Fields.count, h3]
      omega
  exact ⟨⟨_, h⟩, by simp only [mapMeta, Codec.ofSerde, dif_pos h]⟩

/-- The metadata of a fold's task can be serialized. -/
theorem foldMeta_total (k : Serializer) (m : FoldMetadata) : ∃ b, (foldMeta : Codec ε FoldMetadata).enc k m = .ok b := by
  have h : (toBytes k m).length < 2 ^ 64 := by
    cases k with
    | postcard =>
      have h1 := encVar_length 9 m.start.1 (Nat.lt_trans m.start.2 (by decide))
      have h2 := encVar_length 9 m.stop.1 (Nat.lt_trans m.stop.2 (by decide))
      simp [toBytes, Serde.ser, Serde.ty, Postcard.enc, Postcard.encF, Postcard.encUint]
      omega
    | cbor =>
      have h1 := encHead_length 5 1
      have h1' := encHead_length 5 2
      have h2 := encInt_length false m.start.1
      have h2' := encInt_length false m.stop.1
      have h3 : (Cbor.encText "range").length = 6 ∧ (Cbor.encText "start").length = 6 ∧ (Cbor.encText "end").length = 4 := by decide +kernel
      simp [toBytes, Serde.ser, Serde.ty, Cbor.enc, Cbor.encS, Cbor.Header.enc, Fields.count, h3]
      omega
  exact ⟨⟨_, h⟩, by simp only [foldMeta, Codec.ofSerde, dif_pos h]⟩

theorem result_roundtrip (k : Serializer) (x : AnyTaskResult) : fromBytes k AnyTaskResult (toBytes k x) = some x := by
  simpa using fromBytes_toBytes anyTaskResult_wf.1 anyTaskResult_wf.2 k x []

theorem textBytes_eq (k : Serializer) (e : OpError ε) : textBytes k e = Anyhow.msg (toStr (displayOp e)).1 := by
  simp [textBytes, result_roundtrip]

theorem message_some {d : OpDef ε} {μ : Type} {k kt : Serializer} {mC : Codec ε μ} {id : U8} {t : Task d μ} {b : Buf} (h : message k kt mC id t = some b) :
    ∃ a, asAnyTask mC id kt t = .ok a ∧ b = toBytes k a := by
  unfold message at h
  split at h <;> simp only [Option.some.injEq, reduceCtorEq] at h
  exact ⟨_, by assumption, h.symm⟩

theorem localAttempt_at {d : OpDef ε} {join : ε} {kt : Serializer} (op : d.Op) (a : d.In) (m : Nat → Nat) :
    localAttempt join (d.at m) kt op a = fun i => localAttempt join d kt op a (m i) := by
  funext i
  cases h : d.execute op a (m i) with
  | ok v => cases h2 : d.outC.enc kt v <;> simp only [localAttempt, h, h2]
  | _ => simp only [localAttempt, h]

theorem executor_at {d : OpDef ε} {μ : Type} {mC : Codec ε μ} {id : U8} {kt : Serializer} {t : Task d μ} {a : AnyTask} {join : ε} (x : Circ) (ho : d.opC.Lawful)
    (hi : d.inC.Lawful) (h : asAnyTask mC id kt t = .ok a) :
    executor join x.env x.fuel (d.at x.moment) a = match (remoteExecute x.env x.fuel fun i => localAttempt join d kt t.op t.input (x.moment i)).2 with
      | none => .running
      | some r => .done (r.map fun v => ⟨a.metadata, outBytes d.outC kt v, kt⟩) := by
  have hx := executor_eq (d := d.at x.moment) (mC := mC) (t := ⟨t.routingKey, t.metadata, t.op, t.input⟩) join x.env x.fuel ho hi h
  have ha := localAttempt_at (join := join) (kt := kt) t.op t.input x.moment
  rw [hx]
  cases hr : (remoteExecute x.env x.fuel fun i => localAttempt join d kt t.op t.input (x.moment i)).2 with
  | none =>
    have h2 : (remoteExecute x.env x.fuel (localAttempt join (d.at x.moment) kt t.op t.input)).2 = none := by rw [ha]; exact hr
    simp only [h2]
  | some r =>
    have h2 : (remoteExecute x.env x.fuel (localAttempt join (d.at x.moment) kt t.op t.input)).2 = some r := by rw [ha]; exact hr
    simp only [h2]

/-- The outcome of executing an encoded task, with its output still encoded. -/
theorem exec_message {d : OpDef ε} {μ : Type} {k kt : Serializer} {mC : Codec ε μ} {id : U8} {t : Task d μ} {b : Buf} {join : ε} {ops : List (OpDef ε)}
    (hreg : Registered ops d id) (hm : mC.Lawful) (h : message k kt mC id t = some b) (x : Circ) :
    match (remoteExecute x.env x.fuel fun i => localAttempt join d kt t.op t.input (x.moment i)).2 with
    | some (.ok v) => ∃ o, execBytes join ops k x b = .ok (toBytes k (AnyTaskResult.ok o)) ∧ intoTaskResult mC d (.ok o) = .ok ⟨t.metadata, v⟩
    | some (.error e) => execBytes join ops k x b = .error e
    | none => execBytes join ops k x b = .error (.fatal join .terminate) := by
  obtain ⟨a, ha, rfl⟩ := message_some h
  have hdec : fromBytes k AnyTask (toBytes k a) = some a := by simpa using fromBytes_toBytes anyTask_wf.1 anyTask_wf.2 k a []
  have hx := executor_at (join := join) x hreg.op hreg.inp ha
  obtain ⟨m, o, i, hm', ho, hi, ha'⟩ := asAnyTask_ok ha
  have hid : (ops.map (OpDef.at · x.moment))[a.operationId.1]? = some (d.at x.moment) := by rw [ha', List.getElem?_map, hreg.found]; rfl
  have hmm : a.metadata = m := by rw [ha']
  simp only [execBytes, hdec, remoteExec, hid, hx]
  cases hr : (remoteExecute x.env x.fuel fun i => localAttempt join d kt t.op t.input (x.moment i)).2 with
  | none => simp
  | some r =>
    cases r with
    | error e => simp [Except.map]
    | ok v =>
      obtain ⟨j, hj, -⟩ := remoteExecute_ok hr
      have henc := (localAttempt_ok_enc hj).2
      refine ⟨_, rfl, ?_⟩
      simp only [intoTaskResult, hmm, hm _ _ _ hm', hreg.out _ _ _ henc]

theorem map_faithful {J : MapJob ε} {ops : List (OpDef ε)} {join : ε} {k kt : Serializer} (hreg : Registered ops J.d J.id) :
    MapFaithful (execBytes join ops k) (textBytes k) (J.run join k kt) (encMap k kt J) (decMap k J) := by
  intro x i a t ht
  unfold encMap at ht
  split at ht <;> try simp only [reduceCtorEq] at ht
  have := exec_message (join := join) hreg mapMeta_lawful ht x
  simp only [outcome, MapJob.run, localOp]
  cases hr : (remoteExecute x.env x.fuel fun i => localAttempt join J.d kt J.op a (x.moment i)).2 with
  | none =>
    rw [hr] at this
    simp only at this
    rw [this]; rfl
  | some r =>
    rw [hr] at this
    cases r with
    | error e =>
      simp only at this
      rw [this]; rfl
    | ok v =>
      obtain ⟨o, h1, h2⟩ := this
      rw [h1]
      simp only [Except.mapError, Except.bind, decMap, leaderBytes, result_roundtrip, Option.map, h2, Except.map]

theorem fold_faithful {J : FoldJob ε} {ops : List (OpDef ε)} {join : ε} {k kt : Serializer} (hreg : Registered ops J.d J.id) :
    FoldFaithful (execBytes join ops k) (textBytes k) (J.run join k kt) (encFold k kt J) (decFold k J) := by
  intro x t m ht
  unfold encFold at ht
  split at ht <;> try simp only [reduceCtorEq] at ht
  have := exec_message (join := join) hreg foldMeta_lawful ht x
  simp only [outcome, FoldJob.run, localOp]
  cases hr : (remoteExecute x.env x.fuel fun i => localAttempt join J.d kt J.op (t.a, t.b) (x.moment i)).2 with
  | none =>
    rw [hr] at this
    simp only at this
    rw [this]; rfl
  | some r =>
    rw [hr] at this
    cases r with
    | error e =>
      simp only at this
      rw [this]; rfl
    | ok v =>
      obtain ⟨o, h1, h2⟩ := this
      rw [h1]
      simp only [Except.mapError, Except.bind, decFold, leaderBytes, result_roundtrip, Option.map, h2, Except.map]

theorem localOp_ok {join : ε} {k kt : Serializer} {d : OpDef ε} {op : d.Op} {x : Circ} {a : d.In} {v : d.Out} (h : localOp join k kt d op x a = .ok v) :
    ∃ i, d.execute op a i = .ok v := by
  unfold localOp at h
  split at h <;> simp only [Except.ok.injEq, reduceCtorEq] at h
  subst h
  rename_i hr
  obtain ⟨j, hj, -⟩ := remoteExecute_ok hr
  exact ⟨_, (localAttempt_ok_enc hj).1⟩

/-- An operation that succeeds, with an output that can be serialized, succeeds. -/
theorem localOp_first {join : ε} {k kt : Serializer} {d : OpDef ε} {op : d.Op} {a : d.In} (h : ∀ i, ∃ v b, d.execute op a i = .ok v ∧ d.outC.enc kt v = .ok b)
    (x : Circ) : ∃ v, localOp join k kt d op x a = .ok v := by
  obtain ⟨v, b, h1, h2⟩ := h (x.moment 0)
  have h0 : localAttempt join d kt op a (x.moment 0) = .ok v := by simp [localAttempt, h1, h2]
  exact ⟨v, by simp only [localOp, (C33_first x.env x.fuel fun i => localAttempt join d kt op a (x.moment i)).1 v h0]⟩

end System
end Paladin
