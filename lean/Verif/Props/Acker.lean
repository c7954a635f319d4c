import Verif.Model.Acker
import Verif.Proofs.Coord
/-! # Composed acknowledgement (C25) -/
namespace Paladin
namespace Acking

/-! ## Specification: any nesting of compositions of observed ackers -/

/-- A nesting of `ComposedAcker`s; each leaf has a name and the outcomes of its `ack` and `nack`. -/
inductive Nest (ε : Type) where
  | leaf (name : Nat) (onAck onNack : Except ε Unit)
  | node (fst snd : Nest ε)

/-- The acker that logs its calls; `true` for `ack`. -/
def logged (name : Nat) (onAck onNack : Except ε Unit) : Acker (List (Nat × Bool)) ε :=
  { ack := fun log => (onAck, log ++ [(name, true)]), nack := fun log => (onNack, log ++ [(name, false)]) }

def Nest.acker : Nest ε → Acker (List (Nat × Bool)) ε
  | .leaf n a b => logged n a b
  | .node f g => compose id f.acker g.acker

def Nest.leaves : Nest ε → List (Nat × Except ε Unit × Except ε Unit)
  | .leaf n a b => [(n, a, b)]
  | .node f g => f.leaves ++ g.leaves

/-- Calls in order up to and including the first failure. -/
def upToFailure : List (Nat × Except ε Unit) → List Nat
  | [] => []
  | (n, .ok _) :: l => n :: upToFailure l
  | (n, .error _) :: _ => [n]

/-- The first failure, if any. -/
def firstFailure : List (Nat × Except ε Unit) → Except ε Unit
  | [] => .ok ()
  | (_, .ok _) :: l => firstFailure l
  | (_, .error e) :: _ => .error e

theorem upToFailure_append_ok {a b : List (Nat × Except ε Unit)} (h : firstFailure a = .ok ()) : upToFailure (a ++ b) = upToFailure a ++ upToFailure b := by
  induction a with
  | nil => rfl
  | cons x a ih =>
    obtain ⟨n, o⟩ := x
    cases o with
    | ok u => simp [upToFailure, firstFailure] at h ⊢; exact ih h
    | error e => simp [firstFailure] at h

theorem upToFailure_append_error {a b : List (Nat × Except ε Unit)} (h : firstFailure a = .error e) : upToFailure (a ++ b) = upToFailure a := by
  induction a with
  | nil => simp [firstFailure] at h
  | cons x a ih =>
    obtain ⟨n, o⟩ := x
    cases o with
    | ok u => simp [upToFailure, firstFailure] at h ⊢; exact ih h
    | error e => simp [upToFailure]

theorem firstFailure_append (a b : List (Nat × Except ε Unit)) :
    firstFailure (a ++ b) = match firstFailure a with | .ok _ => firstFailure b | .error e => .error e := by
  induction a with
  | nil => rfl
  | cons x a ih =>
    obtain ⟨n, o⟩ := x
    cases o with
    | ok u => simp [firstFailure]; exact ih
    | error e => simp [firstFailure]

/-- **C25**: for every nesting of composed ackers and all outcomes, `ack` calls the component ackers' `ack` from left to right, each only if all before it
succeeded, and returns the first error; the same for `nack`. -/
theorem C25_sequential (t : Nest ε) (log : List (Nat × Bool)) :
    t.acker.ack log = (firstFailure (t.leaves.map fun x => (x.1, x.2.1)), log ++ (upToFailure (t.leaves.map fun x => (x.1, x.2.1))).map fun n => (n, true)) ∧
    t.acker.nack log = (firstFailure (t.leaves.map fun x => (x.1, x.2.2)), log ++ (upToFailure (t.leaves.map fun x => (x.1, x.2.2))).map fun n => (n, false)) := by
  induction t generalizing log with
  | leaf n a b => constructor <;> [cases a; cases b] <;> simp [Nest.acker, logged, Nest.leaves, firstFailure, upToFailure]
  | node f g ihf ihg =>
    constructor
    · simp only [Nest.acker, compose, andThen, Nest.leaves, List.map_append, (ihf log).1, firstFailure_append]
      cases hf : firstFailure (f.leaves.map fun x => (x.1, x.2.1)) with
      | ok u => simp [(ihg _).1, upToFailure_append_ok hf]
      | error e => simp [upToFailure_append_error hf]
    · simp only [Nest.acker, compose, andThen, Nest.leaves, List.map_append, (ihf log).2, firstFailure_append]
      cases hf : firstFailure (f.leaves.map fun x => (x.1, x.2.2)) with
      | ok u => simp [(ihg _).2, upToFailure_append_ok hf]
      | error e => simp [upToFailure_append_error hf]

/-- Non-trivial case: three ackers, the second fails on `ack`. -/
example : ((Nest.node (.leaf 1 (.ok ()) (.ok ())) (.node (.leaf 2 (.error "e") (.ok ())) (.leaf 3 (.ok ()) (.ok ())))).acker.ack []).2 = [(1, true), (2, true)] := by
  decide

/-- **C25**, the acker handed out by `lease_coordinated_task_channel`: when the broker's ack fails, its error is returned and the coordinated channel is
untouched; when it succeeds the message has been counted as handled exactly once at the end, and it returns `Ok`. This holds for `ack` and `nack`, whatever other
tasks do in between (`between`), for every message that has been yielded. -/
theorem C25_leased {pre between : List Coord.Label} {s s' : Coord.St} {env : Coord.St → Coord.St} {m : Nat}
    (h0 : Coord.run Coord.init pre = some s) (hm : m ∈ s.yields) (hb : Coord.run s between = some s') (he : env s = s') :
    (∀ e : ε, (leased env (.error e) m).ack s = (.error e, s) ∧ (leased env (.error e) m).nack s = (.error e, s)) ∧
    ∃ s'' : Coord.St, (leased env (.ok () : Except ε Unit) m).ack s = (.ok (), s'') ∧ (leased env (.ok () : Except ε Unit) m).nack s = (.ok (), s'') ∧
      (s'.status[m]? = some .yielded → s''.status[m]? = some .acked ∧ s''.pending = s'.pending - 1) ∧
      (s'.status[m]? ≠ some .yielded → s'' = s') := by
  refine ⟨fun e => by simp [leased, compose, andThen, broker], (Coord.call s' (.ack m)).getD s', ?_, ?_, ?_, ?_⟩
  · simp [leased, compose, andThen, broker, coordinated, he]
  · simp [leased, compose, andThen, broker, coordinated, he]
  · intro hy
    have hlt : m < s'.status.length := by
      by_contra hc; rw [List.getElem?_eq_none (by omega)] at hy; simp at hy
    have h1 : Coord.call s' (.ack m) = some { s' with
        status := (s'.status.set m .acking).set m .acked, pending := s'.pending - 1, woken := s'.woken || decide (s'.pending = 1) } := by
      simp only [Coord.call, Coord.Call.steps, hy, if_true, Coord.run, Coord.step, Option.bind_some]
      rw [if_pos (by simp [hlt])]; rfl
    rw [h1]
    simp [hlt]
  · intro hy
    have hi := Coord.inv_run (show Coord.run Coord.init (pre ++ between) = some s' by rw [Coord.run_append, h0]; exact hb)
    have hm' : m ∈ s'.yields := by
      refine Coord.run_inv (P := fun s => m ∈ s.yields) hm ?_ hb
      intro s l s' _ hm h
      cases Coord.stepR_of_step h <;> simp_all
    rcases (hi.yields m).1 hm' with h | h | h
    · exact absurd h hy
    · simp [Coord.call, Coord.Call.steps, h, Coord.run, Coord.step]
    · simp [Coord.call, Coord.Call.steps, h, Coord.run, Coord.step]

/-- The hypotheses are met: one message published, answered and yielded; nothing happens in between. -/
example : (Coord.run Coord.init [.pubCheck, .pubCount, .pubSend 0, .respond 0, .pollInner]).map (·.yields) = some [0] := by decide

end Acking
end Paladin
