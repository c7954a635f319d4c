import Verif.Model.Lts
/-!
# Model of the in-memory message queue

Code: `paladin-core/src/queue/in_memory.rs`: `ExactlyOnceQueue`, `BroadcastConsumer` (both hold a `SegQueue` of messages and a semaphore counting them) and
`InMemoryConsumer`.

Simplifications. `SegQueue` is a linearizable FIFO. Serialization is left out: a message is the payload (round trips are C37, C38, C59). The semaphore is tokio's: it
hands a released permit to the consumer that has waited longest, if any, and counts it as free otherwise; the waiting consumer finds the permit when it is next polled,
and gives it back if it is dropped before. Each access to the queue or the semaphore is one step.
-/
namespace Paladin
namespace InMem

/-- A `SegQueue` with its semaphore (in_memory.rs:114-123, 176-183) and the consumers polling it. A consumer is one `InMemoryConsumer` value (several may share the
queue), named by a number. -/
structure Chan (M : Type) where
  /-- `messages` -/
  msgs : List M
  /-- free permits of `num_messages` -/
  permits : Nat
  /-- consumers whose last poll found no permit and which wait in the semaphore, in order -/
  waiters : List Nat
  /-- consumers that were waiting, have been given a permit and woken, and have not been polled since -/
  granted : List Nat
  /-- consumers between acquiring the permit and popping the message: inside `poll_next`, in_memory.rs:572-575, 541-544 -/
  holding : List Nat
  /-- publishers between `messages.push` and `add_permits` -/
  owed : Nat
  /-- observed: what each consumer's `poll_next` returned, in the order of the `pop`s -/
  received : List (Nat × M)
  /-- the `unreachable!` of in_memory.rs:559-563 was reached -/
  panicked : Bool
  deriving DecidableEq, Repr

/-- A queue with `msgs` in it and `n` permits; `ExactlyOnceQueue::new` (in_memory.rs:137-144) is `fresh [] 0`. -/
def Chan.fresh (msgs : List M) (n : Nat) : Chan M :=
  { msgs := msgs, permits := n, waiters := [], granted := [], holding := [], owed := 0, received := [], panicked := false }

/-- tokio's `Semaphore::add_permits(1)`. -/
def Chan.addPermit (c : Chan M) : Chan M :=
  match c.waiters with
  | [] => { c with permits := c.permits + 1 }
  | w :: ws => { c with waiters := ws, granted := w :: c.granted }

/-- `self.messages.push(bytes.clone())`, in_memory.rs:148 and 268. -/
def Chan.push (c : Chan M) (m : M) : Chan M := { c with msgs := c.msgs ++ [m], owed := c.owed + 1 }

/-- `self.num_messages.add_permits(1)` by a publisher that has pushed, in_memory.rs:149 and 269. -/
def Chan.releaseOne (c : Chan M) : Chan M := { c with owed := c.owed - 1 }.addPermit

/-- The same, as a step some publisher takes. Code: in_memory.rs:149, 269. -/
def Chan.release (c : Chan M) : Option (Chan M) :=
  if c.owed = 0 then none else some c.releaseOne

/-- `this.num_messages.poll_acquire(cx)` by consumer `h`, in_memory.rs:569: a waiting consumer looks whether it was given a permit; another one takes a free permit or joins
the waiting ones (`Poll::Pending`). -/
def Chan.poll (c : Chan M) (h : Nat) : Option (Chan M) :=
  if h ∈ c.holding then none
  else if h ∈ c.granted then some { c with granted := c.granted.erase h, holding := h :: c.holding }
  else if h ∈ c.waiters then some c
  else if c.permits = 0 then some { c with waiters := c.waiters ++ [h] }
  else some { c with permits := c.permits - 1, holding := h :: c.holding }

/-- The rest of `poll_next` once the permit is there: pop a message, forget the permit, return the message or panic, in_memory.rs:541-565. -/
def Chan.pop (c : Chan M) (h : Nat) : Option (Chan M) :=
  if h ∈ c.holding then
    match c.msgs with
    | [] => some { c with holding := c.holding.erase h, panicked := true }
    | m :: ms => some { c with msgs := ms, holding := c.holding.erase h, received := c.received ++ [(h, m)] }
  else none

/-- Consumer `h` is dropped, not during a poll: its place among the waiting ones is given up, and a permit given to it is given back. The drop of the fields of `InMemoryConsumer`, in_memory.rs:526-532. -/
def Chan.drop (c : Chan M) (h : Nat) : Option (Chan M) :=
  if h ∈ c.holding then none
  else if h ∈ c.granted then some { c with granted := c.granted.erase h }.addPermit
  else some { c with waiters := c.waiters.erase h }

/-- What the threads using a queue can do next. Code: in_memory.rs:146-151, 268-269, 537-581. -/
inductive Op (M : Type) where
  | push (m : M)
  | release
  | poll (h : Nat)
  | pop (h : Nat)
  | drop (h : Nat)
  deriving DecidableEq, Repr

/-- One step of `ExactlyOnceQueue::publish` (in_memory.rs:146-151), of a consumer's `poll_next` (in_memory.rs:537-582), or a drop. -/
def Chan.step (c : Chan M) : Op M → Option (Chan M)
  | .push m => some (c.push m)
  | .release => c.release
  | .poll h => c.poll h
  | .pop h => c.pop h
  | .drop h => c.drop h

/-- Executions of in_memory.rs:114-164 with 534-582. -/
def Chan.run (c : Chan M) (os : List (Op M)) : Option (Chan M) := Lts.run Chan.step c os

/-- The payload a step publishes. Code: in_memory.rs:146-148. -/
def Op.published : Op M → Option M
  | .push m => some m
  | _ => none

end InMem
end Paladin
