import Verif.Spec.Exec
import Verif.Props.Wire
import Verif.Props.Retry
/-! # Lemmas on the task pipeline -/
namespace Paladin
namespace Retry

theorem simpleLoop_map (f : ω → υ) (out : Nat → Except ε ω) (max : Nat) (d : Option Nat) (tr : Bool) (num : Nat) (es : List (Ev ε)) (r : Except ε ω) :
    simpleLoop (fun i => (out i).map f) max d tr num es (r.map f) = ((simpleLoop out max d tr num es r).1, (simpleLoop out max d tr num es r).2.map f) := by
  induction hn : max - num generalizing num es r with
  | zero =>
    cases r with
    | ok v => simp [simpleLoop, Except.map]
    | error e =>
      have : num ≥ max := by omega
      simp [simpleLoop, Except.map, this]
  | succ n ih =>
    cases r with
    | ok v => simp [simpleLoop, Except.map]
    | error e =>
      have : ¬ num ≥ max := by omega
      rw [Except.map, simpleLoop, simpleLoop]
      simp only [this, if_false]
      exact ih (num + 1) _ (out (num + 1)) (by omega)

theorem backoffLoop_map (f : ω → υ) (env : BackoffEnv) (out : Nat → Except ε ω) (maxE : Nat) (tracer : Bool) (fuel i now cur : Nat) (tr : List (Ev ε)) :
    backoffLoop env (fun i => (out i).map f) maxE tracer fuel i now cur tr =
      ((backoffLoop env out maxE tracer fuel i now cur tr).1, (backoffLoop env out maxE tracer fuel i now cur tr).2.map (Except.map f)) := by
  induction fuel generalizing i now cur tr with
  | zero => rfl
  | succ n ih =>
    simp only [backoffLoop]
    cases h : out i with
    | ok v => simp [Except.map]
    | error e =>
      simp only [Except.map]
      split
      · rfl
      · split
        · exact ih _ _ _ _
        · rfl

theorem retryWithStrategy_map (f : ω → υ) (env : BackoffEnv) (fuel : Nat) (out : Nat → Except ε ω) (s : RetryStrategy) (tracer : Bool) :
    retryWithStrategy env fuel (fun i => (out i).map f) s tracer =
      ((retryWithStrategy env fuel out s tracer).1, (retryWithStrategy env fuel out s tracer).2.map (Except.map f)) := by
  cases s with
  | immediate n => simp only [retryWithStrategy, retrySimple, simpleLoop_map, Option.map]
  | after n d => simp only [retryWithStrategy, retrySimple, simpleLoop_map, Option.map]
  | exponential lo hi => simp only [retryWithStrategy, backoffLoop_map]

/-- Retrying does not look at successful values. -/
theorem remoteExecute_map (f : ω → υ) (env : BackoffEnv) (fuel : Nat) (out : Nat → Except (OpError ε) ω) :
    remoteExecute env fuel (fun i => (out i).map f) = ((remoteExecute env fuel out).1, (remoteExecute env fuel out).2.map (Except.map f)) := by
  cases h : out 0 with
  | ok v =>
    have h' : (fun i => (out i).map f) 0 = .ok (f v) := by simp [h, Except.map]
    simp only [remoteExecute, h, h', Except.map, Option.map]
  | error e =>
    have h' : (fun i => (out i).map f) 0 = .error e := by simp [h, Except.map]
    cases e with
    | fatal e s => simp only [remoteExecute, h, retryInternal, Except.map, Option.map]
    | transient e rs fs =>
      have hm := retryWithStrategy_map f env fuel (fun i => out (i + 1)) rs true
      have hem : Except.map f (Except.error (OpError.transient e rs fs)) = .error (OpError.transient e rs fs) := rfl
      simp only [remoteExecute, h, hem, retryInternal, hm, Option.map_map]
      refine Prod.ext rfl ?_
      simp only
      congr 1
      funext r
      cases r <;> rfl

/-- A returned success is the outcome of some attempt before which all failed. -/
theorem remoteExecute_ok {env : BackoffEnv} {fuel : Nat} {out : Nat → Except (OpError ε) ω} {v : ω} (h : (remoteExecute env fuel out).2 = some (.ok v)) :
    ∃ k, out k = .ok v ∧ (∀ i < k, ∃ e, out i = .error e) ∧ calls (remoteExecute env fuel out).1 = k + 1 := by
  cases h0 : out 0 with
  | ok w =>
    have := (C33_first env fuel out).1 w h0
    rw [this] at h ⊢
    simp at h; subst h
    exact ⟨0, h0, by simp, rfl⟩
  | error e =>
    cases e with
    | fatal e s =>
      have := (C33_first env fuel out).2 e s h0
      rw [this] at h; simp at h
    | transient e rs fs =>
      have key : ∀ k, (∀ i < k, ∃ e, out i = .error e) → .ok v = settle fs (out k) → calls (remoteExecute env fuel out).1 = k + 1 →
          ∃ k, out k = .ok v ∧ (∀ i < k, ∃ e, out i = .error e) ∧ calls (remoteExecute env fuel out).1 = k + 1 := by
        intro k hf hs hc
        refine ⟨k, ?_, hf, hc⟩
        cases hk : out k with
        | ok w => rw [hk] at hs; simp only [settle, Except.ok.injEq] at hs; rw [hs]
        | error e => rw [hk] at hs; simp [settle] at hs
      cases rs with
      | immediate n =>
        obtain ⟨k, hk, -, hr, hc⟩ := C33_attempts env fuel out h0 (.inl rfl)
        rw [h] at hr
        exact key k hk.failed (Option.some.inj hr) hc
      | after n d =>
        obtain ⟨k, hk, -, hr, hc⟩ := C33_attempts env fuel out h0 (.inr ⟨d, rfl⟩)
        rw [h] at hr
        exact key k hk.failed (Option.some.inj hr) hc
      | exponential lo hi =>
        obtain ⟨k, -, hf, hr, hc⟩ := C33_exponential env fuel out h0 h
        exact key k hf hr hc

/-- A returned error is fatal, and its underlying error is that of some attempt. -/
theorem remoteExecute_err {env : BackoffEnv} {fuel : Nat} {out : Nat → Except (OpError ε) ω} {err : OpError ε} (h : (remoteExecute env fuel out).2 = some (.error err)) :
    ∃ k e0 e, out 0 = .error e0 ∧ out k = .error e ∧ (∀ i < k, ∃ e, out i = .error e) ∧ err = .fatal e.intoErr e0.fatalStrategy := by
  cases h0 : out 0 with
  | ok w =>
    have := (C33_first env fuel out).1 w h0
    rw [this] at h; simp at h
  | error e0 =>
    cases e0 with
    | fatal e s =>
      have := (C33_first env fuel out).2 e s h0
      rw [this] at h; simp at h
      exact ⟨0, _, _, rfl, h0, by simp, h.symm⟩
    | transient e rs fs =>
      have key : ∀ k, (∀ i < k, ∃ e, out i = .error e) → .error err = settle fs (out k) →
          ∃ k e0 e', Except.error (α := ω) (OpError.transient e rs fs) = .error e0 ∧ out k = .error e' ∧ (∀ i < k, ∃ e, out i = .error e) ∧
            err = .fatal e'.intoErr e0.fatalStrategy := by
        intro k hf hs
        cases hk : out k with
        | ok w => rw [hk] at hs; simp [settle] at hs
        | error e' =>
          rw [hk] at hs; simp only [settle, Except.error.injEq] at hs
          exact ⟨k, _, e', rfl, hk, hf, hs⟩
      cases rs with
      | immediate n =>
        obtain ⟨k, hk, -, hr, hc⟩ := C33_attempts env fuel out h0 (.inl rfl)
        rw [h] at hr
        exact key k hk.failed (Option.some.inj hr)
      | after n d =>
        obtain ⟨k, hk, -, hr, hc⟩ := C33_attempts env fuel out h0 (.inr ⟨d, rfl⟩)
        rw [h] at hr
        exact key k hk.failed (Option.some.inj hr)
      | exponential lo hi =>
        obtain ⟨k, -, hf, hr, hc⟩ := C33_exponential env fuel out h0 h
        exact key k hf hr

end Retry

namespace Exec
open Retry Wire

theorem Codec.ofSerde_lawful {α : Type} [Serde α] (hw : (Serde.ty α).WF) (hn : (Serde.ty α).CborSafe) (big und : ε) :
    (Codec.ofSerde α big und).Lawful := by
  intro k a b h
  simp only [Codec.ofSerde] at h ⊢
  split at h
  · have := fromBytes_toBytes hw hn k a []
    rw [List.append_nil] at this
    injection h with h
    rw [← h]; simp only [this]
  · simp at h

/-- The bytes of an output that can be serialized. -/
def outBytes (c : Codec ε α) (k : Serializer) (v : α) : Bytes :=
  match c.enc k v with
  | .ok b => b
  | _ => ⟨[], by decide⟩

theorem blocking_eq [Anyhow ε] (join : ε) (d : OpDef ε) (k : Serializer) (op : d.Op) (input : d.In) (i : Nat) :
    blocking join d k op input i = (localAttempt join d k op input i).map (outBytes d.outC k) := by
  unfold blocking localAttempt
  cases d.execute op input i with
  | panic => rfl
  | err e => rfl
  | ok v =>
    cases h : d.outC.enc k v with
    | panic => simp [h, Except.map]
    | err e => simp [h, Except.map, FatalStrategy.default]
    | ok b => simp [h, Except.map, outBytes]

theorem asAnyTask_ok {d : OpDef ε} {mC : Codec ε μ} {id : U8} {k : Serializer} {t : Task d μ} {a : AnyTask} (h : asAnyTask mC id k t = .ok a) :
    ∃ m o i, mC.enc k t.metadata = .ok m ∧ d.opC.enc k t.op = .ok o ∧ d.inC.enc k t.input = .ok i ∧ a = ⟨t.routingKey, m, o, id, i, k⟩ := by
  unfold asAnyTask at h
  split at h <;> try simp at h
  split at h <;> try simp at h
  split at h <;> try simp at h
  exact ⟨_, _, _, ‹_›, ‹_›, ‹_›, h.symm⟩

theorem executor_eq [Anyhow ε] (join : ε) (env : BackoffEnv) (fuel : Nat) {d : OpDef ε} {mC : Codec ε μ} {id : U8} {k : Serializer} {t : Task d μ} {a : AnyTask}
    (ho : d.opC.Lawful) (hi : d.inC.Lawful) (h : asAnyTask mC id k t = .ok a) :
    executor join env fuel d a = match (remoteExecute env fuel (localAttempt join d k t.op t.input)).2 with
      | none => .running
      | some r => .done (r.map fun v => ⟨a.metadata, outBytes d.outC k v, k⟩) := by
  obtain ⟨m, o, i, hm, hoe, hie, rfl⟩ := asAnyTask_ok h
  have hg : ∀ j, getResult join d ⟨t.routingKey, m, o, id, i, k⟩ j = some ((localAttempt join d k t.op t.input j).map (outBytes d.outC k)) := by
    intro j
    simp only [getResult, ho k _ _ hoe, hi k _ _ hie, blocking_eq]
  simp only [executor, hg, Option.getD_some, remoteExecute_map]
  cases (remoteExecute env fuel (localAttempt join d k t.op t.input)).2 with
  | none => rfl
  | some r => cases r <;> rfl

/-- A success of the retried local execution can be serialized. -/
theorem localAttempt_ok_enc [Anyhow ε] {join : ε} {d : OpDef ε} {k : Serializer} {op : d.Op} {input : d.In} {i : Nat} {v : d.Out}
    (h : localAttempt join d k op input i = .ok v) : d.execute op input i = .ok v ∧ d.outC.enc k v = .ok (outBytes d.outC k v) := by
  unfold localAttempt at h
  cases he : d.execute op input i with
  | panic => simp [he] at h
  | err e => simp [he] at h
  | ok w =>
    cases hb : d.outC.enc k w with
    | panic => simp [he, hb] at h
    | err e => simp [he, hb] at h
    | ok b =>
      simp [he, hb] at h
      subst h
      exact ⟨rfl, by simp [outBytes, hb]⟩

theorem toStr_val {s : String} (h : s.utf8ByteSize < 2 ^ 64) : (toStr s).1 = s := by
  simp only [toStr, h, if_true]

theorem outcomeView_ignore [Anyhow ε] {d : OpDef ε} {m : μ} {e : OpError ε} (h : e.fatalStrategy = .ignore) : outcomeView (d := d) m (.error e) = none := by
  cases e <;> simp only [OpError.fatalStrategy] at h <;> subst h <;> rfl

theorem outcomeView_terminate [Anyhow ε] {d : OpDef ε} {m : μ} {e : OpError ε} (h : e.fatalStrategy = .terminate) :
    outcomeView (d := d) m (.error e) = some (.err (Anyhow.msg (toStr (displayOp e)).1)) := by
  cases e <;> simp only [OpError.fatalStrategy] at h <;> subst h <;> rfl

theorem idsFrom_get (n c i : Nat) (hc : c < 256) : (idsFrom c n)[i]? = if i < n then some ((c + i) % 256) else none := by
  induction n generalizing c i with
  | zero => simp [idsFrom]
  | succ n ih =>
    cases i with
    | zero => simp [idsFrom, Nat.mod_eq_of_lt hc]
    | succ i =>
      simp only [idsFrom, List.getElem?_cons_succ, ih ((c + 1) % 256) i (Nat.mod_lt _ (by omega)), Nat.add_lt_add_iff_right]
      split
      · congr 1; omega
      · rfl

theorem opId_eq (sizes : List Nat) (o : OpName) (id : Nat) : opId sizes o = some id ↔ Declared sizes o ∧ id = o.2 % 256 := by
  unfold opId Declared
  cases h : sizes[o.1]? with
  | none => simp
  | some n =>
    simp only [Option.bind, idsFrom_get n 0 o.2 (by omega), Nat.zero_add, Option.some.injEq, exists_eq_left']
    by_cases hlt : o.2 < n
    · simp [hlt, eq_comm]
    · simp [hlt]

end Exec
end Paladin
