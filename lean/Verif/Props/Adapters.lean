import Verif.Model.Adapters
/-! # Property C56: adapters are transparent -/
namespace Paladin
namespace Adapters

/-- **C56.** `With` applies its function before the inner publish and publishes its result; if the function fails, the call returns its error and has no effect at
all; closing is forwarded. For every monad of effects. -/
theorem C56_with [Monad m] (p : Publisher m ε O) (f : I → Except ε O) :
    (∀ x y, f x = .ok y → (withFn p f).publish x = p.publish y) ∧ (∀ x e, f x = .error e → (withFn p f).publish x = pure (.error e)) ∧ (withFn p f).close = p.close := by
  refine ⟨fun x y h => ?_, fun x e h => ?_, rfl⟩ <;> simp [withFn, h]

/-- Two `With` in a row are one, with the composed function. -/
theorem C56_with_with [Monad m] (p : Publisher m ε O) (f : J → Except ε O) (g : I → Except ε J) :
    withFn (withFn p f) g = withFn p (fun x => (g x).bind f) := by
  simp only [withFn, Publisher.mk.injEq, and_true]
  funext x
  cases h : g x <;> rfl

/-- **C56.** Boxing, pinning and sharing change nothing. -/
theorem C56_boxed (p : Publisher m ε T) (a : Acker m ε) : boxPub p = p ∧ pinPub p = p ∧ boxAck a = a ∧ arcAck a = a := ⟨rfl, rfl, rfl, rfl⟩

/-- **C56.** The task sender of a runtime publishes what `as_any_task` makes of the task, nothing if that fails, and closes the queue's publisher. -/
theorem C56_task_sender [Monad m] (queue : Publisher m ε O) (conv : I → Except ε O) :
    (∀ x y, conv x = .ok y → (taskSender queue conv).publish x = queue.publish y) ∧ (∀ x e, conv x = .error e → (taskSender queue conv).publish x = pure (.error e)) ∧
    (taskSender queue conv).close = queue.close := by
  refine ⟨fun x y h => ?_, fun x e h => ?_, rfl⟩ <;> simp [taskSender, boxPub, withFn, h]

/-- **C56.** Composing ackers is associative for every lawful monad of effects, and boxing parts of it changes nothing. -/
theorem C56_composed_assoc [Monad m] [LawfulMonad m] (a b c : Acker m ε) :
    composed (composed a b) c = composed a (composed b c) ∧ composed (boxAck a) (arcAck b) = composed a b := by
  refine ⟨?_, rfl⟩
  simp only [composed, Acker.mk.injEq, bind_assoc]
  constructor
  · congr 1; funext r; cases r <;> simp
  · congr 1; funext r; cases r <;> simp

/-- An acker that succeeds at once. -/
def okAck [Monad m] : Acker m ε := ⟨pure (.ok ()), pure (.ok ())⟩

/-- An acker that fails at once. -/
def failAck [Monad m] (e : ε) : Acker m ε := ⟨pure (.error e), pure (.error e)⟩

/-- **C56.** An acker composed with one that succeeds at once, on either side, acts like itself, in `ack` and in `nack`; one that fails keeps the second from being called, but not the first. -/
theorem C56_composed_unit [Monad m] [LawfulMonad m] (a : Acker m ε) (e : ε) :
    composed okAck a = a ∧ composed a okAck = a ∧ composed (failAck e) a = failAck e ∧
    (composed a (failAck e)).ack = (do match ← a.ack with | .ok _ => pure (.error e) | .error e' => pure (.error e')) ∧
    (composed a (failAck e)).nack = (do match ← a.nack with | .ok _ => pure (.error e) | .error e' => pure (.error e')) := by
  obtain ⟨x, y⟩ := a
  have key : ∀ x : m (Except ε Unit), (x >>= fun r => match r with | .ok _ => pure (.ok ()) | .error e => pure (.error e)) = x := by
    intro x
    conv => rhs; rw [← bind_pure x]
    congr 1; funext r; rcases r with e | ⟨⟩ <;> rfl
  refine ⟨by simp [composed, okAck], ?_, by simp [composed, failAck], rfl, rfl⟩
  simp only [composed, okAck, Acker.mk.injEq]
  exact ⟨key x, key y⟩

/-- A publisher that keeps a list of messages: publishing through `With` a function that fails on 0. -/
def exPub : Publisher (StateM (List Nat)) String Nat := ⟨fun x => do modify (· ++ [x]); pure (.ok ()), do modify (· ++ [99]); pure (.ok ())⟩
def exFn (x : Nat) : Except String Nat := if x = 0 then .error "zero" else .ok (x * 10)

example : ((withFn exPub exFn).publish 3).run [1] = (.ok (), [1, 30]) ∧ ((withFn exPub exFn).publish 0).run [1] = (.error "zero", [1]) ∧
    (withFn exPub exFn).close.run [1] = (.ok (), [1, 99]) := ⟨rfl, rfl, rfl⟩

end Adapters
end Paladin
