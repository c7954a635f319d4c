/-!
# Model of the adapters of publishers and ackers

Code: `paladin-core/src/queue/publisher.rs`, `paladin-core/src/acker.rs`. The effects of an asynchronous call (messages sent, suspensions, …) are an arbitrary monad `m`; a call
of `publish`, `close`, `ack`, `nack` is an action of `m` that ends with a `Result`. `.await` is bind.
-/
namespace Paladin
namespace Adapters

/-- The trait `Publisher`, publisher.rs:90-101. -/
structure Publisher (m : Type → Type) (ε T : Type) where
  publish : T → m (Except ε Unit)
  close : m (Except ε Unit)

/-- The trait `Acker`, acker.rs:81-86. -/
structure Acker (m : Type → Type) (ε : Type) where
  ack : m (Except ε Unit)
  nack : m (Except ε Unit)

/-- Code: `With`, publisher.rs:17-33; `f` is not asynchronous. -/
def withFn [Monad m] (p : Publisher m ε O) (f : I → Except ε O) : Publisher m ε I where
  publish x := match f x with
    | .ok y => p.publish y
    | .error e => pure (.error e)
  close := p.close

/-- Code: `impl Publisher for Box<P>`, publisher.rs:103-112. -/
def boxPub (p : Publisher m ε T) : Publisher m ε T where
  publish x := p.publish x
  close := p.close

/-- Code: `impl Publisher for Pin<P>`, publisher.rs:114-127. -/
def pinPub (p : Publisher m ε T) : Publisher m ε T where
  publish x := p.publish x
  close := p.close

/-- Code: `impl Acker for Box<T>`, acker.rs:92-101. -/
def boxAck (a : Acker m ε) : Acker m ε where
  ack := a.ack
  nack := a.nack

/-- Code: `impl Acker for Arc<T>`, acker.rs:104-113. -/
def arcAck (a : Acker m ε) : Acker m ε where
  ack := a.ack
  nack := a.nack

/-- `ComposedAcker`, acker.rs:130-143 (`TryFutureExt::and_then`). -/
def composed [Monad m] (a b : Acker m ε) : Acker m ε where
  ack := do
    match ← a.ack with
    | .ok _ => b.ack
    | .error e => pure (.error e)
  nack := do
    match ← a.nack with
    | .ok _ => b.nack
    | .error e => pure (.error e)

/-- Code: `get_task_sender`, runtime/mod.rs:219-232: `channel` is the boxed publisher of `DynamicChannel::sender` (dynamic_channel.rs:55-60), `conv` is `Task::as_any_task`. -/
def taskSender [Monad m] (queue : Publisher m ε O) (conv : I → Except ε O) : Publisher m ε I := boxPub (withFn (boxPub queue) conv)

end Adapters
end Paladin
