import Verif.Proofs.Exec
/-! # The task pipeline (C39-C41) -/
namespace Paladin
namespace Exec
open Retry Wire

variable {ε μ : Type} [Anyhow ε]

/-- **C39**: for every operation `d` found at its id, every task, metadata and serializer (`kt` for the task's parts, `k` for the messages), with lawful codecs: if
the leader can serialize the task, then what the worker does with the message is what a typed local execution with the same retrying does. If that ends,
the worker publishes the outcome's view, to the task's routing key; the leader decodes it to the task's own metadata and the typed output, or to the error
with the operation error's text. The worker never panics on such a message. -/
theorem C39_transparent (join : ε) (ops : List (OpDef ε)) (env : BackoffEnv) (fuel : Nat) (k kt : Serializer) {d : OpDef ε} {mC : Codec ε μ} {id : U8} {t : Task d μ}
    {a : AnyTask} (hop : d.opC.Lawful) (hin : d.inC.Lawful) (hout : d.outC.Lawful) (hmeta : mC.Lawful) (hid : ops[id.1]? = some d)
    (ha : asAnyTask mC id kt t = .ok a) :
    match (remoteExecute env fuel (localAttempt join d kt t.op t.input)).2 with
    | none => workerBytes join ops env fuel k (toBytes k a) = some .running
    | some r => ∃ rep, workerBytes join ops env fuel k (toBytes k a) = some (.done rep) ∧
        rep.map (fun p => (p.1, leaderBytes k mC d p.2)) = (outcomeView t.metadata r).map fun v => (t.routingKey, some v) := by
  have hdec := fromBytes_toBytes anyTask_wf.1 anyTask_wf.2 k a []
  have hres : ∀ x : AnyTaskResult, fromBytes k AnyTaskResult (toBytes k x) = some x := by
    intro x; simpa using fromBytes_toBytes anyTaskResult_wf.1 anyTaskResult_wf.2 k x []
  rw [List.append_nil] at hdec
  have hx := executor_eq join env fuel hop hin ha
  obtain ⟨m, o, i, hm, ho, hi, ha'⟩ := asAnyTask_ok ha
  have hid' : ops[a.operationId.1]? = some d := by rw [ha']; exact hid
  have hrk : a.routingKey = t.routingKey := by rw [ha']
  have hmm : a.metadata = m := by rw [ha']
  simp only [workerBytes, hdec, remoteExec, hid', hx]
  cases hr : (remoteExecute env fuel (localAttempt join d kt t.op t.input)).2 with
  | none => simp
  | some r =>
    simp only
    refine ⟨_, rfl, ?_⟩
    cases r with
    | ok v =>
      obtain ⟨j, hj, -⟩ := remoteExecute_ok hr
      have henc := (localAttempt_ok_enc hj).2
      simp only [Except.map, reply, Option.map, leaderBytes, hres, intoTaskResult, hmm, hmeta _ _ _ hm, hout _ _ _ henc, outcomeView, hrk]
    | error e =>
      cases hs : e.fatalStrategy with
      | ignore => simp only [Except.map, reply, hs, Option.map, outcomeView_ignore hs]
      | terminate => simp only [Except.map, reply, hs, Option.map, leaderBytes, hres, intoTaskResult, hrk, outcomeView_terminate hs]

/-- **C39**, success at the first attempt: one result, to the task's routing key, that the leader sees as the task's metadata and `execute(input)`. -/
theorem C39_success (join : ε) (ops : List (OpDef ε)) (env : BackoffEnv) (fuel : Nat) (k kt : Serializer) {d : OpDef ε} {mC : Codec ε μ} {id : U8} {t : Task d μ}
    {a : AnyTask} (hop : d.opC.Lawful) (hin : d.inC.Lawful) (hout : d.outC.Lawful) (hmeta : mC.Lawful) (hid : ops[id.1]? = some d)
    (ha : asAnyTask mC id kt t = .ok a) {v : d.Out} {b : Bytes} (hv : d.execute t.op t.input 0 = .ok v) (hb : d.outC.enc kt v = .ok b) :
    ∃ msg, workerBytes join ops env fuel k (toBytes k a) = some (.done (some (t.routingKey, msg))) ∧ leaderBytes k mC d msg = some (.ok ⟨t.metadata, v⟩) := by
  have h := C39_transparent join ops env fuel k kt hop hin hout hmeta hid ha
  have h0 : localAttempt join d kt t.op t.input 0 = .ok v := by simp [localAttempt, hv, hb]
  rw [(C33_first env fuel _).1 v h0] at h
  obtain ⟨rep, hw, hv⟩ := h
  cases rep with
  | none => simp [outcomeView] at hv
  | some p =>
    simp only [Option.map, outcomeView, Option.some.injEq, Prod.mk.injEq] at hv
    exact ⟨p.2, by rw [hw, ← hv.1], hv.2⟩

/-- **C39**, soundness whatever the attempts do: a result the leader can read carries the task's routing key, and either the task's metadata and an output that an attempt
returned, all earlier ones having failed; or the text of a fatal error with strategy `Terminate` whose underlying error is one of an attempt (or a panic's). -/
theorem C39_sound (join : ε) (ops : List (OpDef ε)) (env : BackoffEnv) (fuel : Nat) (k kt : Serializer) {d : OpDef ε} {mC : Codec ε μ} {id : U8} {t : Task d μ}
    {a : AnyTask} (hop : d.opC.Lawful) (hin : d.inC.Lawful) (hout : d.outC.Lawful) (hmeta : mC.Lawful) (hid : ops[id.1]? = some d)
    (ha : asAnyTask mC id kt t = .ok a) {key : Str} {msg : Buf} (hw : workerBytes join ops env fuel k (toBytes k a) = some (.done (some (key, msg)))) :
    key = t.routingKey ∧
    ((∃ v i, leaderBytes k mC d msg = some (.ok ⟨t.metadata, v⟩) ∧ d.execute t.op t.input i = .ok v ∧
        ∀ j < i, ∃ e, localAttempt join d kt t.op t.input j = .error e) ∨
     (∃ e i, leaderBytes k mC d msg = some (.err (Anyhow.msg (toStr ("Fatal operation error: " ++ Anyhow.display (OpError.intoErr e))).1)) ∧
        localAttempt join d kt t.op t.input i = .error e ∧ ∀ j < i, ∃ e, localAttempt join d kt t.op t.input j = .error e)) := by
  have h := C39_transparent join ops env fuel k kt hop hin hout hmeta hid ha
  cases hr : (remoteExecute env fuel (localAttempt join d kt t.op t.input)).2 with
  | none => rw [hr] at h; simp [h] at hw
  | some r =>
    rw [hr] at h
    obtain ⟨rep, hw', hv⟩ := h
    rw [hw] at hw'
    simp only [Option.some.injEq, Run.done.injEq] at hw'
    subst hw'
    cases r with
    | ok v =>
      simp only [Option.map, outcomeView, Option.some.injEq, Prod.mk.injEq] at hv
      obtain ⟨i, hi, hf, -⟩ := remoteExecute_ok hr
      exact ⟨hv.1, .inl ⟨v, i, hv.2, (localAttempt_ok_enc hi).1, hf⟩⟩
    | error e =>
      obtain ⟨i, e0, e1, -, hi, hf, rfl⟩ := remoteExecute_err hr
      cases hs : e0.fatalStrategy with
      | ignore => simp [hs, outcomeView] at hv
      | terminate =>
        simp only [hs, Option.map, outcomeView, Option.some.injEq, Prod.mk.injEq] at hv
        exact ⟨hv.1, .inr ⟨e1, i, hv.2, hi, hf⟩⟩

/-- The lawfulness hypotheses hold for every type with serde's derives (with no directly nested options, and nested at most 256 levels deep). -/
theorem C39_derived_lawful {α : Type} [Serde α] (hw : (Serde.ty α).WF) (hn : (Serde.ty α).CborSafe) (big und : ε) : (Codec.ofSerde α big und).Lawful :=
  Codec.ofSerde_lawful hw hn big und

instance : Anyhow String := ⟨fun s => s, fun s => s, fun _ => rfl⟩

/-- An operation for the examples: adds its field to a `u64`, modulo 2^64; fails on 13, panics on 14. -/
def exOp : OpDef String := ⟨"AddTo", USz, USz, USz, .ofSerde USz "big" "undecodable", .ofSerde USz "big" "undecodable", .ofSerde USz "big" "undecodable",
  fun op x _ => if x.1 = 13 then .err (.fatal "unlucky" .terminate) else if x.1 = 14 then .panic else .ok ⟨(op.1 + x.1) % 2 ^ 64, Nat.mod_lt _ (by decide)⟩⟩

def exEnv : BackoffEnv := ⟨fun _ => 0, fun _ => 0, fun _ c => c, fun c => c⟩

def exTask (x : USz) : Task exOp USz := ⟨⟨"job", by decide +kernel⟩, ⟨7, by decide⟩, (⟨5, by decide⟩ : USz), x⟩

/-- The key of the example task's result and the leader's view of it. -/
def exView (x : USz) : Option (String × Except String (Nat × Nat)) :=
  match asAnyTask (.ofSerde USz "big" "undecodable") ⟨0, by decide⟩ .postcard (exTask x) with
  | .ok a => match workerBytes "join" [exOp] exEnv 0 .cbor (toBytes .cbor a) with
    | some (.done (some p)) => match leaderBytes (ε := String) .cbor (.ofSerde USz "big" "undecodable") exOp p.2 with
      | some (.ok (o : TaskOutput exOp USz)) => some (p.1.1, .ok (o.metadata.1, (show USz from o.output).1))
      | some (.err e) => some (p.1.1, .error e)
      | _ => none
    | _ => none
  | _ => none

/-- A success, an error and a panic, seen by the leader. -/
example : exView ⟨30, by decide⟩ = some ("job", .ok (7, 35)) ∧ exView ⟨13, by decide⟩ = some ("job", .error "Fatal operation error: unlucky") ∧
    exView ⟨14, by decide⟩ = some ("job", .error "Fatal operation error: operation AddTo panicked") := by
  decide +kernel

/-- **C40**, what holds (partial): if the first attempt panics, the worker reports to the task's routing key an error that the leader sees with the text naming the
operation; there is no crash and no further attempt. Missing: panics of later attempts (see the witness). -/
theorem C40_first_panic_partial (join : ε) (ops : List (OpDef ε)) (env : BackoffEnv) (fuel : Nat) (k kt : Serializer) {d : OpDef ε} {mC : Codec ε μ} {id : U8}
    {t : Task d μ} {a : AnyTask} (hop : d.opC.Lawful) (hin : d.inC.Lawful) (hout : d.outC.Lawful) (hmeta : mC.Lawful) (hid : ops[id.1]? = some d)
    (ha : asAnyTask mC id kt t = .ok a) (hp : d.execute t.op t.input 0 = .panic)
    (hshort : ("Fatal operation error: " ++ ("operation " ++ d.name ++ " panicked")).utf8ByteSize < 2 ^ 64) :
    (∃ msg e, workerBytes join ops env fuel k (toBytes k a) = some (.done (some (t.routingKey, msg))) ∧ leaderBytes k mC d msg = some (.err e) ∧
      Anyhow.display e = "Fatal operation error: " ++ ("operation " ++ d.name ++ " panicked")) ∧
    calls (remoteExecute env fuel (localAttempt join d kt t.op t.input)).1 = 1 := by
  have h := C39_transparent join ops env fuel k kt hop hin hout hmeta hid ha
  have h0 : localAttempt join d kt t.op t.input 0 = .error (.fatal (Anyhow.msg ("operation " ++ d.name ++ " panicked")) .terminate) := by
    simp [localAttempt, hp]
  rw [(C33_first env fuel _).2 _ _ h0] at h
  refine ⟨?_, by rw [(C33_first env fuel _).2 _ _ h0]; rfl⟩
  obtain ⟨rep, hw, hv⟩ := h
  cases rep with
  | none => simp [outcomeView] at hv
  | some p =>
    simp only [Option.map, outcomeView, Option.some.injEq, Prod.mk.injEq] at hv
    refine ⟨p.2, _, by rw [hw, ← hv.1], hv.2, ?_⟩
    rw [Anyhow.display_msg, Anyhow.display_msg]
    exact toStr_val hshort

/-- **C40**: a panic never leads to a crash of the worker, at whatever attempt it happens, and a panicked attempt is never reported as success: a reported output was
returned by an attempt that did not panic. -/
theorem C40_contained_partial (join : ε) (ops : List (OpDef ε)) (env : BackoffEnv) (fuel : Nat) (k kt : Serializer) {d : OpDef ε} {mC : Codec ε μ} {id : U8}
    {t : Task d μ} {a : AnyTask} (hop : d.opC.Lawful) (hin : d.inC.Lawful) (hout : d.outC.Lawful) (hmeta : mC.Lawful) (hid : ops[id.1]? = some d)
    (ha : asAnyTask mC id kt t = .ok a) :
    workerBytes join ops env fuel k (toBytes k a) ≠ some .crash ∧
    ∀ key msg m v, workerBytes join ops env fuel k (toBytes k a) = some (.done (some (key, msg))) → leaderBytes k mC d msg = some (.ok ⟨m, v⟩) →
      ∃ i, d.execute t.op t.input i = .ok v := by
  constructor
  · have h := C39_transparent join ops env fuel k kt hop hin hout hmeta hid ha
    cases hr : (remoteExecute env fuel (localAttempt join d kt t.op t.input)).2 with
    | none => rw [hr] at h; rw [h]; simp
    | some r => rw [hr] at h; obtain ⟨rep, hw, -⟩ := h; rw [hw]; simp
  · intro key msg m v hw hl
    obtain ⟨-, ⟨v', i, hv, hi, -⟩ | ⟨e, i, hv, -⟩⟩ := C39_sound join ops env fuel k kt hop hin hout hmeta hid ha hw
    · rw [hl] at hv
      simp only [Option.some.injEq, Call.ok.injEq, TaskOutput.mk.injEq] at hv
      rw [hv.2]; exact ⟨i, hi⟩
    · rw [hl] at hv; simp at hv

/-- An operation whose first attempt fails with a transient error (one retry, then `Ignore`) and whose later attempts panic. -/
def lateOp : OpDef String := ⟨"Late", USz, USz, USz, .ofSerde USz "big" "undecodable", .ofSerde USz "big" "undecodable", .ofSerde USz "big" "undecodable",
  fun _ _ i => if i = 0 then .err (.transient "busy" (.immediate 1) .ignore) else .panic⟩

/-- An operation type whose `Deserialize` panics. -/
def badOp : OpDef String := ⟨"Bad", Unit, Unit, Unit, ⟨fun _ _ => .ok ⟨[], by decide⟩, fun _ _ => .panic⟩, .ofSerde Unit "big" "undecodable",
  .ofSerde Unit "big" "undecodable", fun _ _ _ => .ok ()⟩

/-- **C40** is false: (1) a panic in a retry takes over the fatal strategy of the first, transient, error: here nothing at all is published for it; (2) a panic
while deserializing the operation is outside `catch_unwind` and takes the worker down; (3) so does an operation id without executor. -/
theorem C40_witness :
    (∃ a, asAnyTask (.ofSerde USz "big" "undecodable") ⟨0, by decide⟩ .postcard (⟨⟨"job", by decide +kernel⟩, ⟨7, by decide⟩, (⟨5, by decide⟩ : USz), (⟨5, by decide⟩ : USz)⟩ : Task lateOp USz) = .ok a ∧
      workerBytes "join" [lateOp] exEnv 0 .postcard (toBytes .postcard a) = some (.done none) ∧
      lateOp.execute (⟨5, by decide⟩ : USz) (⟨5, by decide⟩ : USz) 2 = .panic) ∧
    (∃ a, asAnyTask (.ofSerde USz "big" "undecodable") ⟨0, by decide⟩ .postcard (⟨⟨"job", by decide +kernel⟩, ⟨7, by decide⟩, (), ()⟩ : Task badOp USz) = .ok a ∧
      workerBytes "join" [badOp] exEnv 0 .postcard (toBytes .postcard a) = some .crash ∧
      workerBytes "join" [] exEnv 0 .postcard (toBytes .postcard a) = some .crash) := by
  refine ⟨⟨⟨⟨"job", by decide +kernel⟩, ⟨[7], by decide⟩, ⟨[5], by decide⟩, ⟨0, by decide⟩, ⟨[5], by decide⟩, .postcard⟩, ?_, ?_, ?_⟩,
    ⟨⟨⟨"job", by decide +kernel⟩, ⟨[7], by decide⟩, ⟨[], by decide⟩, ⟨0, by decide⟩, ⟨[], by decide⟩, .postcard⟩, ?_, ?_, ?_⟩⟩
  all_goals first | rfl | decide +kernel

/-! ## C41 -/

/-- **C41**, exactly when it can hold: some link order dispatches every task to the operation that created it if and only if all operations are derived in one
crate and they are at most 256. -/
theorem C41_possible_iff (sizes : List Nat) : (∃ slice, Linked sizes slice ∧ DispatchesRight sizes slice) ↔
    ∃ c, ∀ o, Declared sizes o → o.1 = c ∧ o.2 < 256 := by
  constructor
  · rintro ⟨slice, -, hr⟩
    have hinj : ∀ o o', Declared sizes o → Declared sizes o' → o.2 % 256 = o'.2 % 256 → o = o' := by
      intro o o' ho ho' he
      have h1 := hr o _ ((opId_eq sizes o _).2 ⟨ho, rfl⟩)
      have h2 := hr o' _ ((opId_eq sizes o' _).2 ⟨ho', rfl⟩)
      rw [he, h2] at h1
      exact (Option.some.inj h1).symm
    have hsmall : ∀ o, Declared sizes o → o.2 < 256 := by
      rintro ⟨c, j⟩ ⟨n, hn, hj⟩
      simp only at hn hj ⊢
      have := hinj (c, j % 256) (c, j) ⟨n, hn, by simp only; omega⟩ ⟨n, hn, hj⟩ (by simp only; omega)
      simp only [Prod.mk.injEq, true_and] at this
      omega
    by_cases hex : ∃ o, Declared sizes o
    · obtain ⟨⟨c, j⟩, hd⟩ := hex
      have h0 : Declared sizes (c, 0) := by obtain ⟨n, hn, hj⟩ := hd; exact ⟨n, hn, by simp only at hj ⊢; omega⟩
      refine ⟨c, fun o ho => ⟨?_, hsmall o ho⟩⟩
      obtain ⟨n, hn, hj⟩ := ho
      have := hinj (o.1, 0) (c, 0) ⟨n, hn, by simp only; omega⟩ h0 rfl
      exact (Prod.mk.inj this).1
    · exact ⟨0, fun o ho => absurd ⟨o, ho⟩ hex⟩
  · rintro ⟨c, hc⟩
    refine ⟨(List.range (sizes[c]?.getD 0)).map fun j => (c, j), ⟨?_, ?_⟩, ?_⟩
    · exact List.Pairwise.map _ (fun a b h => by simp [h]) List.nodup_range
    · rintro ⟨c', j⟩
      simp only [List.mem_map, List.mem_range, Prod.mk.injEq]
      constructor
      · rintro ⟨j', hj', rfl, rfl⟩
        cases hs : sizes[c]? with
        | none => simp [hs] at hj'
        | some n => exact ⟨n, hs, by simpa [hs] using hj'⟩
      · intro hd
        have := (hc _ hd).1
        simp only at this
        subst this
        obtain ⟨n, hn, hj⟩ := hd
        simp only at hn hj
        exact ⟨j, by simpa [hn] using hj, rfl, rfl⟩
    · rintro ⟨c', j⟩ id hid
      obtain ⟨hd, rfl⟩ := (opId_eq sizes _ _).1 hid
      obtain ⟨h1, h2⟩ := hc _ hd
      simp only at h1 h2
      subst h1
      obtain ⟨n, hn, hj⟩ := hd
      simp only at hn hj
      simp [dispatch, Nat.mod_eq_of_lt h2, hn, hj]

/-- **C41**, what holds (partial): with all operations in one crate, at most 256 of them, and a linker that keeps the order of expansion, every task is executed by the
operation that created it. Missing: several crates, more operations, and other link orders. -/
theorem C41_one_crate_partial (n : Nat) (hn : n ≤ 256) : DispatchesRight [n] ((List.range n).map fun j => (0, j)) := by
  rintro ⟨c, j⟩ id hid
  obtain ⟨⟨m, hm, hj⟩, rfl⟩ := (opId_eq _ _ _).1 hid
  simp only at hm hj
  cases c with
  | succ c => simp at hm
  | zero =>
    simp at hm; subst hm
    simp [dispatch, Nat.mod_eq_of_lt (show j < 256 by omega), hj]

/-- Three operations in one crate. -/
example : dispatch ((List.range 3).map fun j => (0, j)) 2 = some (0, 2) ∧ opId [3] (0, 2) = some 2 := by decide

/-- **C41** is false: for two crates with an operation each, and for one crate with 257, every link order sends the tasks of some operation to another operation. -/
theorem C41_witness (slice : List OpName) : (Linked [1, 1] slice → ¬ DispatchesRight [1, 1] slice) ∧ (Linked [257] slice → ¬ DispatchesRight [257] slice) := by
  constructor
  · intro hl hr
    obtain ⟨c, hc⟩ := (C41_possible_iff [1, 1]).1 ⟨slice, hl, hr⟩
    have h0 := (hc (0, 0) ⟨1, rfl, by decide⟩).1
    have h1 := (hc (1, 0) ⟨1, rfl, by decide⟩).1
    simp only at h0 h1
    omega
  · intro hl hr
    obtain ⟨c, hc⟩ := (C41_possible_iff [257]).1 ⟨slice, hl, hr⟩
    have := (hc (0, 256) ⟨257, rfl, by decide⟩).2
    simp at this

/-- With two crates, in the order of declaration: the second crate's operation has the id, and gets the executor, of the first's. -/
example : Linked [1, 1] [(0, 0), (1, 0)] ∧ opId [1, 1] (1, 0) = some 0 ∧ dispatch [(0, 0), (1, 0)] 0 = some (0, 0) := by
  refine ⟨⟨by decide, fun ⟨c, j⟩ => ?_⟩, by decide, by decide⟩
  constructor
  · intro h
    simp at h
    rcases h with ⟨rfl, rfl⟩ | ⟨rfl, rfl⟩
    · exact ⟨1, rfl, by decide⟩
    · exact ⟨1, rfl, by decide⟩
  · rintro ⟨n, hn, hj⟩
    simp only at hn hj
    match c with
    | 0 => simp at hn; subst hn; simp; omega
    | 1 => simp at hn; subst hn; simp; omega
    | c + 2 => simp at hn

end Exec
end Paladin
