import Verif.Model.Worker
/-!
# Model of consumers whose connection is lost

Code: `AMQPConsumer::poll_next`, `paladin-core/src/queue/amqp.rs` 512-537, below the worker's main loop (`paladin-core/src/runtime/mod.rs` 662-812, the model `Worker`) and below the coordinated
channel of a directive (`paladin-core/src/channel/coordinated_channel/coordinated_stream.rs` 125-159).

lapin is not in the sandbox. Assumed from general knowledge, unchecked: it puts what arrives for a consumer into a queue and then calls the waker of the last poll; when the connection or the AMQP channel is closed with an error it puts an error and,
at once, the end of the stream; when the broker cancels the consumer (its queue is deleted), the end only. A task is polled after its waker was called, and not otherwise.
-/
namespace Paladin
namespace Notice
open Worker (Pc)

/-- What lapin's consumer holds for the next polls. Code: the arms of amqp.rs:517-534. -/
inductive Item (τ : Type) where
  | msg (t : τ)
  /-- a delivery that cannot be decoded -/
  | bad
  | err
  | fin
deriving DecidableEq, Repr

/-- The connection: open; open, but the broker has cancelled this consumer; or lost. Code: amqp.rs:155-189. -/
inductive Conn where
  | up
  | cancelled
  | down
deriving DecidableEq, Repr

/-- A consumer. `asleep`: it was polled, returned `Pending`, and the waker has not been called since. Code: `AMQPConsumer`, amqp.rs:504-510. -/
structure Str (τ : Type) where
  items : List (Item τ)
  asleep : Bool
  conn : Conn
deriving DecidableEq, Repr

/-- `declare_consumer` has returned, amqp.rs:482-501. -/
def Str.init : Str τ := ⟨[], false, .up⟩

/-- What a poll returns, amqp.rs:517-534. -/
inductive Out (τ : Type) where
  | item (t : τ)
  | none
  | pending
deriving DecidableEq, Repr

/-- `poll_next`, amqp.rs:515-536. After an error or a delivery that cannot be decoded it returns `Pending` although lapin may have more. -/
def Str.poll (s : Str τ) : Str τ × Out τ :=
  match s.items with
  | [] => ({ s with asleep := true }, .pending)
  | .msg t :: r => ({ s with items := r, asleep := false }, .item t)
  | .bad :: r => ({ s with items := r, asleep := true }, .pending)
  | .err :: r => ({ s with items := r, asleep := true }, .pending)
  | .fin :: r => ({ s with items := r, asleep := false }, .none)

/-- What happens to a consumer from outside. lapin's side of amqp.rs:517. -/
inductive Event (τ : Type) where
  | arrive (t : τ)
  | arriveBad
  | cancel
  | lose
deriving DecidableEq, Repr

/-- lapin's side of amqp.rs:517: the event is put into the queue, and the waker called. -/
def Str.event (s : Str τ) : Event τ → Option (Str τ)
  | .arrive t => if s.conn = .up then some { s with items := s.items ++ [.msg t], asleep := false } else none
  | .arriveBad => if s.conn = .up then some { s with items := s.items ++ [.bad], asleep := false } else none
  | .cancel => if s.conn = .up then some { s with items := s.items ++ [.fin], asleep := false, conn := .cancelled } else none
  | .lose => if s.conn ≠ .down then some { s with items := s.items ++ [.err, .fin], asleep := false, conn := .down } else none

/-! ## A worker -/

/-- The main loop, runtime/mod.rs:662-812, and its stream of tasks, 663. -/
structure WSt (κ ο χ : Type) where
  w : Worker.St κ ο χ
  str : Str κ
deriving DecidableEq, Repr

/-- runtime/mod.rs:662-725. -/
def winit : WSt κ ο χ := ⟨Worker.init, .init⟩

/-- The steps: something happens to the stream, the loop polls it (726), or another step of `main_loop` (728-812). -/
inductive WLabel (κ ο χ : Type) where
  | event (e : Event κ)
  | poll
  | work (l : Worker.Label κ ο χ)
deriving DecidableEq, Repr

/-- Steps of the loop that are a call to the broker which succeeds. Code: runtime/mod.rs:736, 776-777, 788-789, 799, through queue/amqp.rs:333-341, 351-359, 545-552. -/
def call : Worker.Label κ ο χ → Bool
  | .skipNack | .ack | .pubOk | .nack | .pubErr | .pubAbort | .intNack => true
  | _ => false

/-- One step of runtime/mod.rs:662-812 over amqp.rs:512-537. Calls to the broker succeed only while there is a connection. The loop's reception of tasks is that of `Worker`, at a poll. -/
def wstep [DecidableEq κ] (c : Worker.Cfg κ) (s : WSt κ ο χ) : WLabel κ ο χ → Option (WSt κ ο χ)
  | .event e => (s.str.event e).map fun x => { s with str := x }
  | .poll =>
    if (s.w.pc matches .waiting) ∧ s.str.asleep = false then
      match s.str.poll.2 with
      | .item k => (Worker.step c s.w (.deliver k)).map fun w => ⟨w, s.str.poll.1⟩
      | .none => (Worker.step c s.w .streamEnd).map fun w => ⟨w, s.str.poll.1⟩
      | .pending => some { s with str := s.str.poll.1 }
    else none
  | .work l =>
    if l matches .deliver _ | .streamEnd then none
    else if call l ∧ s.str.conn = .down then none
    else (Worker.step c s.w l).map fun w => { s with w := w }

/-- Executions, runtime/mod.rs:662-812. -/
abbrev wrun [DecidableEq κ] (c : Worker.Cfg κ) (s : WSt κ ο χ) (ls : List (WLabel κ ο χ)) : Option (WSt κ ο χ) := Lts.run (wstep c) s ls

/-! ## A directive -/

/-- What the directives have in common when they work with their tasks and results: tasks that are still to be published, tasks published whose result has not been acknowledged (`num_pending_sends`,
coordinated_channel/mod.rs:30-51), results received and being acknowledged. `errs`: errors the caller has seen; `over`: the result stream has ended. Code: literal/functor.rs:25-33, indexed_stream/functor.rs:40-67, foldable.rs:233-296. Simplified:
results are not identified, and that the results of a fold give rise to further tasks is left out. -/
structure DSt where
  todo : Nat
  pending : Nat
  acking : Nat
  errs : Nat
  over : Bool
  str : Str Unit
deriving DecidableEq, Repr

/-- A directive with `n` tasks. Code: literal/functor.rs:15-16, indexed_stream/functor.rs:32-33. -/
def dinit (n : Nat) : DSt := ⟨n, 0, 0, 0, false, .init⟩

/-- Its steps: an event of the result stream; a task is published, or that fails; a poll of the result stream; an acknowledgement, or its failure. Code: literal/functor.rs:25-30, indexed_stream/functor.rs:48, 57-62, foldable.rs:242-284. -/
inductive DLabel where
  | event (e : Event Unit)
  | publish
  | publishFails
  | poll
  | ack
  | ackFails
deriving DecidableEq, Repr

/-- One step. The result stream is polled when lapin's waker was called, and also whenever the task is woken for something else: while tasks are being published or results acknowledged. A failed publish ends the publishing
(and the failed task stays counted, coordinated_publisher.rs:61-66). The end of the inner stream is hidden while sends are pending, coordinated_stream.rs:151-157; `Pending` becomes the end when everything was sent and acknowledged,
135-146. -/
def dstep (s : DSt) : DLabel → Option DSt
  | .event e => (s.str.event e).map fun x => { s with str := x }
  | .publish => if 0 < s.todo ∧ s.str.conn ≠ .down then some { s with todo := s.todo - 1, pending := s.pending + 1 } else none
  | .publishFails => if 0 < s.todo ∧ s.str.conn = .down then some { s with todo := 0, pending := s.pending + 1, errs := s.errs + 1 } else none
  | .poll =>
    if s.over = false ∧ (s.str.asleep = false ∨ 0 < s.todo ∨ 0 < s.acking) then
      match s.str.poll.2 with
      | .item _ => some { s with acking := s.acking + 1, str := s.str.poll.1 }
      | .none => some { s with over := s.pending = 0, str := { s.str.poll.1 with asleep := true } }
      | .pending => some { s with over := s.todo = 0 ∧ s.pending = 0, str := s.str.poll.1 }
    else none
  | .ack => if 0 < s.acking ∧ s.str.conn ≠ .down then some { s with acking := s.acking - 1, pending := s.pending - 1, str := { s.str with asleep := s.str.asleep && s.pending ≠ 1 } } else none
  | .ackFails => if 0 < s.acking ∧ s.str.conn = .down then some { s with acking := s.acking - 1, errs := s.errs + 1 } else none

/-- Executions, literal/functor.rs:15-34, indexed_stream/functor.rs:40-67. -/
abbrev drun (s : DSt) (ls : List DLabel) : Option DSt := Lts.run dstep s ls

end Notice
end Paladin
