import Verif.Props.Exec
/-! # Tasks and results from other programs (C78) -/
namespace Paladin
namespace Exec
open Retry Wire

variable {ε μ : Type} [Anyhow ε]

/-- **C78**, when the worker goes down: for every task that can be decoded, whoever made it, exactly if no operation of the worker has the task's id or a deserializer of
the operation with that id panics. -/
theorem C78_crash (join : ε) (ops : List (OpDef ε)) (env : BackoffEnv) (fuel : Nat) (k : Serializer) {msg : Buf} {a : AnyTask} (ha : fromBytes k AnyTask msg = some a) :
    workerBytes join ops env fuel k msg = some .crash ↔ ops.length ≤ a.operationId.1 ∨ ∃ d, ops[a.operationId.1]? = some d ∧ Panics d a := by
  simp only [workerBytes, ha, remoteExec]
  cases hd : ops[a.operationId.1]? with
  | none => simp [List.getElem?_eq_none_iff.1 hd]
  | some d =>
    have hlt : ¬ ops.length ≤ a.operationId.1 := fun h => by rw [List.getElem?_eq_none_iff.2 h] at hd; simp at hd
    have hc : executor join env fuel d a = .crash ↔ Panics d a := by
      simp only [executor, Panics]
      cases h0 : getResult join d a 0 with
      | none =>
        simp only [getResult] at h0
        simp only [true_iff]
        split at h0 <;> rename_i hop <;> try simp at h0
        · exact .inl hop
        · split at h0 <;> rename_i hin <;> try simp at h0
          exact .inr ⟨_, hop, hin⟩
      | some r =>
        simp only
        constructor
        · intro h; split at h <;> simp at h
        · rintro (hop | ⟨op, hop, hin⟩)
          · simp [getResult, hop] at h0
          · simp [getResult, hop, hin] at h0
    simp only [hlt, false_or, Option.some.injEq, exists_eq_left']
    rw [← hc]
    cases executor join env fuel d a <;> simp

/-- **C78**, rejected tasks: if the operation with the task's id rejects the operation's or the input's bytes, then whatever `execute` would do, the worker publishes, to the
task's routing key, one error with the text of the rejection, which the leader sees whatever type it expects. There is one attempt: nothing is retried. -/
theorem C78_rejected (join : ε) (ops : List (OpDef ε)) (env : BackoffEnv) (fuel : Nat) (k : Serializer) {msg : Buf} {a : AnyTask} {d : OpDef ε} {e : ε}
    (ha : fromBytes k AnyTask msg = some a) (hd : ops[a.operationId.1]? = some d) (hr : Rejected d a e) :
    (∃ res, workerBytes join ops env fuel k msg = some (.done (some (a.routingKey, res))) ∧
      ∀ (d' : OpDef ε) (mC : Codec ε μ), leaderBytes k mC d' res = some (.err (Anyhow.msg (toStr ("Fatal operation error: " ++ Anyhow.display e)).1))) ∧
    (∀ i, getResult join d a i = some (.error (.fatal e .terminate))) ∧
    calls (remoteExecute env fuel fun i => (getResult join d a i).getD (.error (.fatal join .terminate))).1 = 1 := by
  have hg : ∀ i, getResult join d a i = some (.error (.fatal e .terminate)) := by
    intro i
    rcases hr with hop | ⟨op, hop, hin⟩
    · simp [getResult, hop, FatalStrategy.default]
    · simp [getResult, hop, hin, FatalStrategy.default]
  have hres : ∀ x : AnyTaskResult, fromBytes k AnyTaskResult (toBytes k x) = some x := by
    intro x; simpa using fromBytes_toBytes anyTaskResult_wf.1 anyTaskResult_wf.2 k x []
  have h1 := (C33_first env fuel (fun i => (getResult join d a i).getD (.error (.fatal join .terminate)))).2 e .terminate (by simp [hg])
  refine ⟨⟨toBytes k (AnyTaskResult.err (toStr ("Fatal operation error: " ++ Anyhow.display e))), ?_, ?_⟩, hg, ?_⟩
  · have hx : remoteExec join ops env fuel a = .done (.error (.fatal e .terminate)) := by simp only [remoteExec, hd, executor, hg 0, h1, Except.map]
    have hrep : reply a (.error (.fatal e .terminate)) = some (a.routingKey, AnyTaskResult.err (toStr ("Fatal operation error: " ++ Anyhow.display e))) := by
      have hs : (OpError.fatal e .terminate).fatalStrategy = .terminate := rfl
      have hdsp : displayOp (OpError.fatal e .terminate) = "Fatal operation error: " ++ Anyhow.display e := rfl
      simp only [reply, hs, hdsp]
    simp only [workerBytes, ha, hx, hrep]
    rw [Option.map_some]
  · intro d' mC
    simp only [leaderBytes, hres, Option.map, intoTaskResult]
  · simp only [h1, calls, List.countP_cons, List.countP_nil]; simp

/-- **C78**, what is returned with an output: for every message a worker reads from the task queue, a result it publishes goes to the routing key in that message, and if
it is an output, it carries the metadata bytes and the serializer of that message, whether or not they mean anything to the worker. -/
theorem C78_envelope (join : ε) (ops : List (OpDef ε)) (env : BackoffEnv) (fuel : Nat) (k : Serializer) {msg : Buf} {key : Str} {res : Buf}
    (h : workerBytes join ops env fuel k msg = some (.done (some (key, res)))) :
    ∃ a r, fromBytes k AnyTask msg = some a ∧ key = a.routingKey ∧ fromBytes k AnyTaskResult res = some r ∧
      ∀ o, r = .ok o → o.metadata = a.metadata ∧ o.serializer = a.serializer := by
  have hres : ∀ x : AnyTaskResult, fromBytes k AnyTaskResult (toBytes k x) = some x := by
    intro x; simpa using fromBytes_toBytes anyTaskResult_wf.1 anyTaskResult_wf.2 k x []
  simp only [workerBytes] at h
  split at h <;> try simp at h
  rename_i a ha
  refine ⟨a, ?_⟩
  split at h <;> try simp only [Option.some.injEq, reduceCtorEq, Run.done.injEq] at h
  rename_i r hr
  cases r with
  | error e =>
    simp only [reply] at h
    split at h <;> simp only [Option.map, Option.some.injEq, reduceCtorEq, Prod.mk.injEq] at h
    obtain ⟨rfl, rfl⟩ := h
    exact ⟨_, ha, rfl, hres _, fun o ho => by simp at ho⟩
  | ok o =>
    simp only [reply, Option.map, Option.some.injEq, Prod.mk.injEq] at h
    obtain ⟨rfl, rfl⟩ := h
    refine ⟨_, ha, rfl, hres _, ?_⟩
    intro o' ho'
    cases ho'
    simp only [remoteExec] at hr
    split at hr <;> try simp at hr
    simp only [executor] at hr
    split at hr <;> try simp at hr
    split at hr <;> simp at hr
    rename_i x _
    cases x with
    | error _ => simp [Except.map] at hr
    | ok v => simp only [Except.map, Except.ok.injEq] at hr; subst hr; exact ⟨rfl, rfl⟩

/-- **C78**, the leader: a result is read as an output exactly if both its metadata and its output can be deserialized, and then it is made of them; the error of
the first that cannot is the error of the result; and an error sent by a worker is an error with that text. -/
theorem C78_leader (k : Serializer) (mC : Codec ε μ) (d : OpDef ε) {msg : Buf} {r : AnyTaskResult} (hr : fromBytes k AnyTaskResult msg = some r) :
    (∀ s, r = .err s → leaderBytes k mC d msg = some (.err (Anyhow.msg s.1))) ∧
    ∀ o, r = .ok o →
      (∀ m v, leaderBytes k mC d msg = some (.ok ⟨m, v⟩) ↔ mC.dec o.serializer o.metadata = .ok m ∧ d.outC.dec o.serializer o.output = .ok v) ∧
      (∀ e, leaderBytes k mC d msg = some (.err e) ↔
        mC.dec o.serializer o.metadata = .err e ∨ ∃ m, mC.dec o.serializer o.metadata = .ok m ∧ d.outC.dec o.serializer o.output = .err e) := by
  constructor
  · rintro s rfl; simp [leaderBytes, hr, intoTaskResult]
  · rintro o rfl
    simp only [leaderBytes, hr, Option.map, Option.some.injEq, intoTaskResult]
    cases mC.dec o.serializer o.metadata with
    | panic => simp
    | err e' => simp
    | ok m' =>
      cases d.outC.dec o.serializer o.output with
      | panic => simp
      | err e' => simp
      | ok v' => simp

/-- A task of another program: the id and the operation are those of `exOp`, the input is empty. -/
def foreignTask : AnyTask := ⟨⟨"job", by decide +kernel⟩, ⟨[9, 9], by decide⟩, ⟨[5], by decide⟩, ⟨0, by decide⟩, ⟨[], by decide⟩, .postcard⟩

/-- The hypotheses of `C78_rejected` hold for it, and of `C78_crash` for a worker with fewer operations. -/
example : fromBytes .postcard AnyTask (toBytes .postcard foreignTask) = some foreignTask ∧ [exOp][foreignTask.operationId.1]? = some exOp ∧
    Rejected exOp foreignTask "undecodable" ∧ workerBytes "join" [] exEnv 0 .postcard (toBytes .postcard foreignTask) = some .crash := by
  refine ⟨?_, rfl, .inr ⟨(⟨5, by decide⟩ : USz), rfl, rfl⟩, ?_⟩
  · simpa using fromBytes_toBytes anyTask_wf.1 anyTask_wf.2 .postcard foreignTask []
  · decide +kernel

/-- What the leader sees. -/
example : (match workerBytes "join" [exOp] exEnv 0 .postcard (toBytes .postcard foreignTask) with
    | some (.done (some p)) => match leaderBytes (ε := String) .postcard (.ofSerde USz "big" "undecodable") exOp p.2 with
      | some (.err e) => some (p.1.1, e)
      | _ => none
    | _ => none) = some ("job", "Fatal operation error: undecodable") := by decide +kernel

/-- Metadata that the worker cannot read come back as they were, and the leader then reports them. -/
example : (match workerBytes "join" [exOp] exEnv 0 .postcard (toBytes .postcard { foreignTask with input := ⟨[1], by decide⟩, metadata := ⟨[], by decide⟩ }) with
    | some (.done (some p)) => match leaderBytes (ε := String) .postcard (.ofSerde USz "big" "metadata") exOp p.2 with
      | some (.err e) => some (p.1.1, e)
      | _ => none
    | _ => none) = some ("job", "metadata") := by decide +kernel

end Exec
end Paladin
