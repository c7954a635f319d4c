/-!
# Model of the in-memory connection

Code: `InMemoryConnection` in `paladin-core/src/queue/in_memory.rs`. A queue is an arbitrary object: `new` makes one from the options and `act` performs an operation
(publish, declare a consumer, poll a consumer, …) on it, giving a result. Queues are reached through `Arc`s: handles refer to cells, and cloned connections share the map.
Each call is one step, because each does a single operation on the DashMap under its lock.
-/
namespace Paladin
namespace Connection

/-- Calls on a connection and on handles; handle `k` is the one the `k`-th `declare_queue` returned. Code: in_memory.rs:90, 101, 485, 507. -/
inductive Op (N Opts O : Type) where
  | declare (name : N) (options : Opts)
  | delete (name : N)
  | use (handle : Nat) (op : O)

/-- What a call returns. Code: in_memory.rs:90, 101, 485, 507. -/
inductive Out (R : Type) where
  | handle (k : Nat)
  | done
  | result (r : R)
  | noHandle
  deriving DecidableEq, Repr

/-- The queues that were ever created, the map from names to queues (in_memory.rs:63-71), and the handles given out. -/
structure St (N Q : Type) where
  cells : List Q
  map : List (N × Nat)
  handles : List Nat
  deriving DecidableEq, Repr

/-- Code: `InMemoryConnection::new`, in_memory.rs:74-79. -/
def init : St N Q := { cells := [], map := [], handles := [] }

/-- `declare_queue`, in_memory.rs:90-99; `delete_queue`, in_memory.rs:101-105; an operation through a handle. -/
def step [DecidableEq N] (new : Opts → Q) (act : Q → O → Q × R) (s : St N Q) : Op N Opts O → St N Q × Out R
  | .declare name options =>
    match s.map.lookup name with
    | some i => ({ s with handles := s.handles ++ [i] }, .handle s.handles.length)
    | none =>
      ({ cells := s.cells ++ [new options], map := (name, s.cells.length) :: s.map, handles := s.handles ++ [s.cells.length] }, .handle s.handles.length)
  | .delete name => ({ s with map := s.map.filter fun e => e.1 ≠ name }, .done)
  | .use h o =>
    match s.handles[h]? with
    | none => (s, .noHandle)
    | some i =>
      match s.cells[i]? with
      | none => (s, .noHandle)
      | some q => ({ s with cells := s.cells.set i (act q o).1 }, .result (act q o).2)

/-- What the calls of a history return. Code: in_memory.rs:83-106. -/
def outputs [DecidableEq N] (new : Opts → Q) (act : Q → O → Q × R) (s : St N Q) : List (Op N Opts O) → List (Out R)
  | [] => []
  | o :: os => (step new act s o).2 :: outputs new act (step new act s o).1 os

end Connection
end Paladin
