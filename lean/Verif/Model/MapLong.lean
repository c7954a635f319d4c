import Verif.Model.PubAll
/-!
# Model of `IndexedStream::map` with the loop inside each poll

Code: `f_map` in `directive/indexed_stream/functor.rs`: `select(sender_stream, result_stream)`, where the sending side is `publish_all` (`Verif/Model/PubAll.lean`), a future whose
poll is a loop. `Verif/Model/MapPoll.lean` takes a poll of the sending side as one step; here it is as many steps as the loop takes, so that a poll need not return.

futures' `select` polls one side and, unless that yields an item, the other; which one is first alternates, the sending side being first in the first poll; a side that has ended is not
polled again. This is from general knowledge of the library.

Simplified: messages are counted; a task gives at most one result; acknowledging and closing do not wait; a task counts as sent even if its publish then fails.
-/
namespace Paladin
namespace MapLong

/-- Where the task polling the stream is: outside `poll_next`, in the sending side, or in the result side; `second`: the other side has been polled in this poll and was pending.
Code: indexed_stream/functor.rs:64-67. -/
inductive At where
  | outside
  | left (second : Bool)
  | right (second : Bool)
  deriving DecidableEq, Repr

/-- What a poll returns. Code: indexed_stream/mod.rs:196-198. -/
inductive Out (ε : Type) where
  | pending
  | result
  | err (e : ε)
  | done
  deriving DecidableEq, Repr

/-- The stream of indexed_stream/functor.rs:64-67 with the queues below it. -/
structure St (α ε : Type) where
  /-- the sending side, functor.rs:40-51 -/
  pub : PubAll.St α ε
  pos : At
  /-- the next poll begins with the sending side -/
  leftFirst : Bool
  /-- results that have arrived at the result queue and were not received -/
  results : Nat
  /-- results that have arrived at all -/
  arrived : Nat
  /-- results yielded to the user -/
  yielded : Nat
  /-- what the polls that have returned returned, the last one first -/
  outs : List (Out ε)
  deriving DecidableEq, Repr

/-- `f_map` has returned the stream, indexed_stream/functor.rs:64-67. -/
def init : St α ε := ⟨PubAll.init, .outside, true, 0, 0, 0, []⟩

/-- What can happen. Code: indexed_stream/functor.rs:40-67. -/
inductive Label (α ε : Type) where
  /-- the user polls the stream -/
  | poll
  /-- a step of the loop of `publish_all`, inside a poll -/
  | inner (l : PubAll.Label α ε)
  /-- the poll of the sending side returns -/
  | leave
  /-- the result side is polled -/
  | recv
  /-- something happens to the input or to a running publish -/
  | outer (l : PubAll.Label α ε)
  /-- the result of a task arrives -/
  | arrive
  deriving Repr

/-- A step of the loop of publisher.rs:66-71. -/
def isLoop : PubAll.Label α ε → Bool
  | .stream | .fut _ | .futNone | .futPending | .futYield => true
  | _ => false

/-- A step of the input stream or of a running publish, publisher.rs:66-71. -/
def isOuter : PubAll.Label α ε → Bool
  | .answer _ | .send _ | .resolve _ _ => true
  | _ => false

/-- The sending side is over (and has closed the channel, functor.rs:50, or dropped it): it is not polled again. Code: functor.rs:49-51. -/
def St.leftOver (s : St α ε) : Bool := s.pub.pc == .returned

/-- Begin to poll the sending side, functor.rs:65. -/
def St.enterLeft (s : St α ε) (second : Bool) : St α ε := { s with pos := .left second, pub := { s.pub with pc := .top, woken := false } }

/-- The poll returns `o`. Code: indexed_stream/mod.rs:196-198. -/
def St.give (s : St α ε) (o : Out ε) : St α ε := { s with pos := .outside, outs := o :: s.outs }

/-- One step. Code: indexed_stream/functor.rs:40-67. -/
def step (limit : Option Nat) (s : St α ε) : Label α ε → Option (St α ε)
  | .poll => match s.pos with
    | .outside =>
      if s.leftOver then some { s with pos := .right true }
      else if s.leftFirst then some ({ s with leftFirst := false }.enterLeft false)
      else some { s with leftFirst := true, pos := .right false }
    | _ => none
  | .inner l => match s.pos with
    | .left _ => if isLoop l then (PubAll.step limit s.pub l).map fun p => { s with pub := p } else none
    | _ => none
  | .leave => match s.pos with
    | .left second => match s.pub.pc, s.pub.ret with
      | .asleep, _ => some (if second then s.give .pending else { s with pos := .right true })
      | .returned, some (.error e) => some (s.give (.err e))
      | .returned, _ => some (if second then s.give .pending else { s with pos := .right true })
      | _, _ => none
    | _ => none
  | .recv => match s.pos with
    | .right second =>
      if 0 < s.results then some ({ s with results := s.results - 1, yielded := s.yielded + 1 }.give .result)
      else if s.leftOver && s.yielded == s.pub.sent.length then some (s.give .done)
      else if second then some (s.give .pending)
      else some (s.enterLeft true)
    | _ => none
  | .outer l => if isOuter l then (PubAll.step limit s.pub l).map fun p => { s with pub := p } else none
  | .arrive => if s.arrived < s.pub.sent.length then some { s with arrived := s.arrived + 1, results := s.results + 1 } else none

/-- Executions of indexed_stream/functor.rs:40-67. -/
abbrev run (limit : Option Nat) (s : St α ε) (ls : List (Label α ε)) : Option (St α ε) := Lts.run (step limit) s ls

/-- `MAX_CONCURRENCY`, indexed_stream/functor.rs:24. -/
def limit : Option Nat := some 10

end MapLong
end Paladin
