import Verif.Model.Lts
import Verif.Model.Prelude
/-!
# Model of `PublisherExt::publish_all`

Code: `paladin-core/src/queue/publisher.rs` 58-74, which is `TryStreamExt::try_for_each_concurrent` of `futures` 0.3.31 (`try_for_each_concurrent.rs`, trusted to be
as written down here) with one `publish` per item.

The future is a loop that runs inside `poll`: at most one item is taken from the stream if there is room (`top`), then the set of running publishes is polled
(`futures`), and if neither made progress the poll returns `Pending` (`asleep`). The environment decides when the stream has its next answer (`answer`), when a publish
hands its message to the broker (`send`), when it is finished (`resolve`), and when the task polls.
-/
namespace Paladin
namespace PubAll

/-- A running publish of item number `idx`; `sent`: its message has been handed to the broker; `res`: it is finished, and this is what it returns when polled. Code: publisher.rs:67-70. -/
structure Fut (ε : Type) where
  idx : Nat
  sent : Bool
  res : Option (Except ε Unit)
deriving DecidableEq, Repr

/-- An answer of the stream: an item, an error, or the end. Code: publisher.rs:60. -/
inductive Answer (α ε : Type) where
  | item (a : α)
  | err (e : ε)
  | fin
deriving DecidableEq, Repr

/-- Where the loop inside `poll` is: about to look at the stream, about to poll the publishes, waiting for the next poll, over. publisher.rs:66-71. -/
inductive Pc where
  | top
  | futures (progress : Bool)
  | asleep
  | returned
deriving DecidableEq, Repr

/-- The future of publisher.rs:66-71 and its environment. -/
structure St (α ε : Type) where
  pc : Pc
  /-- the stream has not answered `None` -/
  opened : Bool
  /-- the answer the stream gives when polled next -/
  ready : Option (Answer α ε)
  /-- the stream's last answer was `Pending`: it holds the waker -/
  parked : Bool
  /-- the task has been woken since it went to sleep -/
  woken : Bool
  futs : List (Fut ε)
  /-- the items taken from the stream -/
  items : List α
  /-- numbers of the items whose message was handed to the broker -/
  sent : List Nat
  ret : Option (Except ε Unit)
deriving DecidableEq, Repr

/-- The future has been made and not polled, publisher.rs:66-70. -/
def init : St α ε := ⟨.asleep, true, none, false, true, [], [], [], none⟩

/-- The atomic pieces of the future of publisher.rs:66-71, and of its environment. -/
inductive Label (α ε : Type) where
  /-- the stream gets its next answer -/
  | answer (a : Answer α ε)
  /-- a running publish hands its message to the broker -/
  | send (k : Nat)
  /-- a running publish finishes -/
  | resolve (k : Nat) (r : Except ε Unit)
  /-- the task polls the future -/
  | poll
  /-- the stream is polled -/
  | stream
  /-- the set of publishes is polled and yields the `k`-th -/
  | fut (k : Nat)
  /-- it yields `None` -/
  | futNone
  /-- it is pending -/
  | futPending
  /-- it is pending although something may be ready, because it has used up its budget; it wakes the task -/
  | futYield
  /-- the future is dropped -/
  | drop
deriving Repr

/-- There is room for one more publish. A limit of 0 means no limit (`NonZeroUsize::new` gives `None`). Code: `max_concurrency`, publisher.rs:61, 67. -/
def room (limit : Option Nat) (n : Nat) : Bool := match limit with
  | none => true
  | some 0 => true
  | some l => decide (n < l)

/-- The end of one round of the loop. Code: publisher.rs:66-71. -/
def again (progress : Bool) (s : St α ε) : St α ε := { s with pc := if progress then .top else .asleep }

/-- One step, publisher.rs:66-71. -/
def step (limit : Option Nat) (s : St α ε) (l : Label α ε) : Option (St α ε) :=
  match l with
  | .answer a => if s.ready.isNone && s.opened then some { s with ready := some a, woken := s.woken || s.parked } else none
  | .send k => match s.futs[k]? with
    | some f => if f.sent || f.res.isSome then none else some { s with futs := s.futs.set k { f with sent := true }, sent := s.sent ++ [f.idx] }
    | none => none
  -- A publish returns `Ok` only if it has handed over its message; this is what is assumed of `publish`.
  | .resolve k r => match s.futs[k]? with
    | some f => if f.res.isSome || (r.isOk && !f.sent) then none else some { s with futs := s.futs.set k { f with res := some r }, woken := true }
    | none => none
  | .poll => if s.pc = .asleep then some { s with pc := .top, woken := false } else none
  | .stream => match s.pc with
    | .top =>
      if room limit s.futs.length then
        if s.opened then
          match s.ready with
          | some (.item a) => some { s with
              pc := .futures true, ready := none, parked := false, futs := s.futs ++ [⟨s.items.length, false, none⟩], items := s.items ++ [a] }
          | some (.err e) => some { s with pc := .returned, opened := false, ready := none, parked := false, futs := [], ret := some (.error e) }
          | some .fin => some { s with pc := .futures false, opened := false, ready := none, parked := false }
          | none => some { s with pc := .futures false, parked := true }
        else some { s with pc := .futures false }
      else some { s with pc := .futures false }
    | _ => none
  | .fut k => match s.pc, s.futs[k]? with
    | .futures _, some f => match f.res with
      | some (.ok _) => some { s with pc := .top, futs := s.futs.eraseIdx k }
      | some (.error e) => some { s with pc := .returned, opened := false, futs := [], ret := some (.error e) }
      | none => none
    | _, _ => none
  | .futNone => match s.pc with
    | .futures p => if s.futs.isEmpty then (if s.opened then some (again p s) else some { s with pc := .returned, ret := some (.ok ()) }) else none
    | _ => none
  | .futPending => match s.pc with
    | .futures p => if !s.futs.isEmpty && s.futs.all (fun f => f.res.isNone) then some (again p s) else none
    | _ => none
  | .futYield => match s.pc with
    | .futures p => if !s.futs.isEmpty then some { again p s with woken := true } else none
    | _ => none
  | .drop => if s.pc = .returned then none else some { s with pc := .returned, opened := false, futs := [] }

/-- Executions. publisher.rs:58-74. -/
abbrev run (limit : Option Nat) (s : St α ε) (ls : List (Label α ε)) : Option (St α ε) := Lts.run (step limit) s ls

end PubAll
end Paladin
