import Verif.Model.Broadcast
/-! # What users of the in-memory queues observe -/
namespace Paladin
namespace InMem

/-- The messages the handles on consumer `name` have received, with their ids, in order. -/
def BSt.receivedBy (s : BSt M) (name : Nat) : List (Nat × M) :=
  match s.find name with
  | some c => c.chan.received.map Prod.snd
  | none => []

/-- The messages waiting for the handles on consumer `name`. -/
def BSt.queuedFor (s : BSt M) (name : Nat) : List (Nat × M) :=
  match s.find name with
  | some c => c.chan.msgs
  | none => []

/-- The messages published by an execution; the position in this list is the message's id. -/
def publishedBy (os : List (BOp M)) : List M := os.filterMap BOp.published

/-- The messages taken from the history by declarations that have not returned. -/
def BSt.inDeclarations (s : BSt M) : List (Nat × M) :=
  s.decls.flatMap fun d => match d.pc with
    | .check => []
    | .drain b _ => b
    | .insert b _ => b

/-- One step of executions in which calls of `publish` do not overlap each other and calls of `declare_consumer` do not overlap each other. -/
def BSt.stepAlone (cfg : Cfg) (s : BSt M) (o : BOp M) : Option (BSt M) :=
  match o with
  | .publish _ => if s.pubs.isEmpty then s.step cfg o else none
  | .declare _ => if s.decls.isEmpty then s.step cfg o else none
  | _ => s.step cfg o

/-- A step of a call of `publish` or `declare_consumer` that is under way. -/
def BOp.isCallStep : BOp M → Bool
  | .pub _ _ | .decl _ => true
  | _ => false

def BOp.isDeclare : BOp M → Bool
  | .declare _ => true
  | _ => false

def BOp.isPublish : BOp M → Bool
  | .publish _ => true
  | _ => false

end InMem
end Paladin
