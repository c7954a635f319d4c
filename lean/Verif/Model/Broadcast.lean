import Verif.Model.InMem
/-!
# Model of the in-memory broadcast queue

Code: `BroadcastQueue` in `paladin-core/src/queue/in_memory.rs`.

`publish` and `declare_consumer` run in any number of threads. `consumers` is a DashMap: consumers are kept in shards, each with a read-write lock; `entry` holds the write
lock of the name's shard until the entry is dropped, `iter` holds the read lock of the shard it is in, `is_empty` adds up the sizes of the shards, locking one after the
other. Each lock, atomic, queue and semaphore access is one step.

Simplifications: names are numbers; the consumers of a shard are visited in any order; message ids do not wrap (64-bit counter); a message in a consumer's queue carries
its id, which in the code only the publisher and `seen` know; serialization is left out.
-/
namespace Paladin
namespace InMem

/-- `DeliveryMode::Persistent` or not, the number of shards less one, and the hash of names. Code: `options`, in_memory.rs:227; the rest is the DashMap of in_memory.rs:218. -/
structure Cfg where
  persistent : Bool
  lastShard : Nat
  hash : Nat → Nat

/-- The shard of a name. DashMap of in_memory.rs:218. -/
def Cfg.shard (cfg : Cfg) (name : Nat) : Nat := cfg.hash name % (cfg.lastShard + 1)

/-- `BroadcastConsumer`, in_memory.rs:176-183. -/
structure Cons (M : Type) where
  name : Nat
  chan : Chan (Nat × M)
  seen : List Nat
  deriving DecidableEq, Repr

/-- Where a thread is in `publish`, in_memory.rs:241-273. -/
inductive PubPc where
  /-- inside `consumers.is_empty()`: about to look at shard `k`, having counted `acc` consumers -/
  | count (k acc : Nat)
  /-- about to push to the history -/
  | hist
  /-- about to lock the first shard for the iteration -/
  | enter
  /-- iterating over shard `k`, with these consumers left in it -/
  | iter (k : Nat) (todo : List Nat)
  /-- about to push the message to consumer `name` -/
  | push (k name : Nat) (todo : List Nat)
  /-- about to release the permit of consumer `name` -/
  | permit (k name : Nat) (todo : List Nat)
  deriving DecidableEq, Repr

/-- A call of `publish` that has not returned. Code: in_memory.rs:241-273. -/
structure Pub (M : Type) where
  id : Nat
  msg : M
  pc : PubPc
  deriving DecidableEq, Repr

/-- Where a thread is in `declare_consumer` once it holds a vacant entry, in_memory.rs:290-332. -/
inductive DeclPc (M : Type) where
  /-- about to look whether the history is empty -/
  | check
  /-- draining the history into `buf` -/
  | drain (buf : List (Nat × M)) (seen : List Nat)
  /-- about to insert the consumer and release the entry -/
  | insert (buf : List (Nat × M)) (seen : List Nat)
  deriving DecidableEq, Repr

/-- A call of `declare_consumer` that has not returned. Code: in_memory.rs:275-334. -/
structure Decl (M : Type) where
  name : Nat
  pc : DeclPc M
  deriving DecidableEq, Repr

/-- The queue (in_memory.rs:216-230) and the threads using it. -/
structure BSt (M : Type) where
  /-- `message_counter` -/
  ctr : Nat
  /-- `history` -/
  hist : List (Nat × M)
  /-- `consumers` -/
  cons : List (Cons M)
  pubs : List (Pub M)
  decls : List (Decl M)
  /-- observed: ids of the calls of `publish` that have returned -/
  returned : List Nat
  /-- observed: names for which a call of `declare_consumer` has returned -/
  declared : List Nat
  deriving DecidableEq, Repr

/-- Code: `BroadcastQueue::new`, in_memory.rs:233-239. -/
def BSt.init : BSt M := { ctr := 0, hist := [], cons := [], pubs := [], decls := [], returned := [], declared := [] }

/-- A thread holds the write lock of shard `k`. Code: the entry of in_memory.rs:279, held until 324 or the end of the match. -/
def BSt.writeLocked (s : BSt M) (cfg : Cfg) (k : Nat) : Bool := s.decls.any fun d => cfg.shard d.name == k

/-- The shard whose read lock a publisher holds while it iterates. Code: the iterator of in_memory.rs:254. -/
def PubPc.reading : PubPc → Option Nat
  | .iter k _ | .push k _ _ | .permit k _ _ => some k
  | _ => none

/-- A publisher holds the read lock of shard `k`, in_memory.rs:254. -/
def BSt.readLocked (s : BSt M) (k : Nat) : Bool := s.pubs.any fun p => p.pc.reading == some k

/-- The names of the consumers in shard `k`. DashMap of in_memory.rs:218. -/
def BSt.inShard (s : BSt M) (cfg : Cfg) (k : Nat) : List Nat := (s.cons.map (·.name)).filter fun n => cfg.shard n == k

/-- Apply `f` to the consumer `name`. As reached through the iterator, in_memory.rs:254, or through its `Arc`s, in_memory.rs:283-284. -/
def BSt.onCons (s : BSt M) (name : Nat) (f : Cons M → Cons M) : BSt M :=
  { s with cons := s.cons.map fun c => if c.name = name then f c else c }

/-- The consumer `name`. DashMap of in_memory.rs:218. -/
def BSt.find (s : BSt M) (name : Nat) : Option (Cons M) := s.cons.find? fun c => c.name == name

/-- A call of `publish` takes its id, in_memory.rs:245; `is_empty` is evaluated only in persistent mode, in_memory.rs:250. -/
def BSt.publish (cfg : Cfg) (s : BSt M) (m : M) : BSt M :=
  { s with ctr := s.ctr + 1, pubs := s.pubs ++ [⟨s.ctr, m, if cfg.persistent then .count 0 0 else .enter⟩] }

/-- Publisher number `i` goes on at `pc`. Code: in_memory.rs:241-273. -/
def BSt.goto (s : BSt M) (i : Nat) (p : Pub M) (pc : PubPc) : BSt M := { s with pubs := s.pubs.set i { p with pc := pc } }

/-- Lock shard `k` for reading and iterate over it, giving up the lock of the shard before it. Code: the iterator of in_memory.rs:254. -/
def BSt.iterate (cfg : Cfg) (s : BSt M) (i : Nat) (p : Pub M) (k : Nat) : Option (BSt M) :=
  if s.writeLocked cfg k then none else some (s.goto i p (.iter k (s.inShard cfg k)))

/-- The next step of publisher number `i`, which is `p`; `j` chooses the next consumer within a shard. in_memory.rs:250-272. -/
def BSt.pubStep (cfg : Cfg) (s : BSt M) (i j : Nat) (p : Pub M) : Option (BSt M) :=
  match p.pc with
  | .count k acc =>
    if s.writeLocked cfg k then none
    else
      let acc := acc + (s.inShard cfg k).length
      if k < cfg.lastShard then some (s.goto i p (.count (k + 1) acc))
      else if acc = 0 then some (s.goto i p .hist)
      else some (s.goto i p .enter)
  | .hist => some { s.goto i p .enter with hist := s.hist ++ [(p.id, p.msg)] }
  | .enter => s.iterate cfg i p 0
  | .iter k [] =>
    if k < cfg.lastShard then s.iterate cfg i p (k + 1)
    else some { s with pubs := s.pubs.eraseIdx i, returned := s.returned ++ [p.id] }
  | .iter k todo =>
    match todo[j]? with
    | none => none
    | some name =>
      match s.find name with
      | none => none
      | some c =>
        if cfg.persistent then
          if p.id ∈ c.seen then some (s.goto i p (.iter k (todo.eraseIdx j)))
          else some ((s.goto i p (.push k name (todo.eraseIdx j))).onCons name fun c => { c with seen := p.id :: c.seen })
        else some (s.goto i p (.push k name (todo.eraseIdx j)))
  | .push k name todo => some ((s.goto i p (.permit k name todo)).onCons name fun c => { c with chan := c.chan.push (p.id, p.msg) })
  | .permit k name todo => some ((s.goto i p (.iter k todo)).onCons name fun c => { c with chan := c.chan.releaseOne })

/-- A call of `declare_consumer` takes the entry of `name`, in_memory.rs:279-290: if the consumer exists the call returns a handle to it. -/
def BSt.declare (cfg : Cfg) (s : BSt M) (name : Nat) : Option (BSt M) :=
  if s.writeLocked cfg (cfg.shard name) || s.readLocked (cfg.shard name) then none
  else if (s.find name).isSome then some { s with declared := s.declared ++ [name] }
  else some { s with decls := s.decls ++ [⟨name, if cfg.persistent then .check else .insert [] []⟩] }

/-- The next step of the call of `declare_consumer` number `i`, which is `d`, in_memory.rs:290-332. -/
def BSt.declStep (s : BSt M) (i : Nat) (d : Decl M) : BSt M :=
  match d.pc with
  | .check => { s with decls := s.decls.set i { d with pc := if s.hist = [] then .insert [] [] else .drain [] [] } }
  | .drain buf seen =>
    match s.hist with
    | [] => { s with decls := s.decls.set i { d with pc := .insert buf seen } }
    | x :: rest =>
      { s with hist := rest, decls := s.decls.set i { d with pc := if x.1 ∈ seen then .drain buf seen else .drain (buf ++ [x]) (x.1 :: seen) } }
  | .insert buf seen =>
    { s with
      cons := s.cons ++ [⟨d.name, Chan.fresh buf seen.length, seen⟩], decls := s.decls.eraseIdx i, declared := s.declared ++ [d.name] }

/-- A step on the queue of consumer `name`. Code: `InMemoryConsumer` holds the queue and the semaphore of the consumer, in_memory.rs:282-288, 325-331. -/
def BSt.onChan (s : BSt M) (name : Nat) (f : Chan (Nat × M) → Option (Chan (Nat × M))) : Option (BSt M) :=
  match s.find name with
  | none => none
  | some c =>
    match f c.chan with
    | none => none
    | some ch => some (s.onCons name fun c => { c with chan := ch })

/-- What can happen next. Code: in_memory.rs:241-334, 537-581. -/
inductive BOp (M : Type) where
  /-- a thread calls `publish` and takes the id -/
  | publish (m : M)
  /-- publisher number `i` goes on -/
  | pub (i j : Nat)
  /-- a thread calls `declare_consumer` and takes the entry -/
  | declare (name : Nat)
  /-- declaring thread number `i` goes on -/
  | decl (i : Nat)
  /-- handle `h` on consumer `name`, as in `Op` -/
  | poll (name h : Nat)
  | pop (name h : Nat)
  | drop (name h : Nat)
  deriving DecidableEq, Repr

/-- One step, in_memory.rs:241-334, 537-581. -/
def BSt.step (cfg : Cfg) (s : BSt M) : BOp M → Option (BSt M)
  | .publish m => some (s.publish cfg m)
  | .pub i j => match s.pubs[i]? with
    | none => none
    | some p => s.pubStep cfg i j p
  | .declare name => s.declare cfg name
  | .decl i => match s.decls[i]? with
    | none => none
    | some d => some (s.declStep i d)
  | .poll name h => s.onChan name fun c => c.poll h
  | .pop name h => s.onChan name fun c => c.pop h
  | .drop name h => s.onChan name fun c => c.drop h

/-- Executions of in_memory.rs:216-335 with its consumers. -/
def BSt.run (cfg : Cfg) (s : BSt M) (os : List (BOp M)) : Option (BSt M) := Lts.run (BSt.step cfg) s os

/-- The payload a step starts to publish; the `n`-th such step publishes the message with id `n`. Code: in_memory.rs:241-245. -/
def BOp.published : BOp M → Option M
  | .publish m => some m
  | _ => none

end InMem
end Paladin
