import Verif.Model.Coord
/-!
# Model of ackers and their composition

Code: `paladin-core/src/acker.rs`. An `ack` future is a function of the state in which it is first polled, giving its outcome and the state at its end.
What other tasks do between the end of the first future and the start of the second is the function `env`.
-/
namespace Paladin
namespace Acking

/-- The trait `Acker`, acker.rs:81-86. -/
structure Acker (σ ε : Type) where
  ack : σ → Except ε Unit × σ
  nack : σ → Except ε Unit × σ

/-- `TryFutureExt::and_then` of two such futures. Used in acker.rs:135 and 141. -/
def andThen (env : σ → σ) (f g : σ → Except ε Unit × σ) (s : σ) : Except ε Unit × σ :=
  match f s with
  | (.ok _, s1) => g (env s1)
  | (.error e, s1) => (.error e, s1)

/-- Code: `ComposedAcker`, acker.rs:119-143. -/
def compose (env : σ → σ) (fst snd : Acker σ ε) : Acker σ ε :=
  { ack := andThen env fst.ack snd.ack, nack := andThen env fst.nack snd.nack }

/-- Code: `NoopAcker`, acker.rs:148-168. -/
def noop : Acker σ ε := { ack := fun s => (.ok (), s), nack := fun s => (.ok (), s) }

/-- Code: `impl Acker for CoordinatedAcker` of message `m`, coordinated_stream.rs:91-120: `nack` is `ack`. -/
def coordinated (m : Nat) : Acker Coord.St ε :=
  { ack := fun s => (.ok (), (Coord.call s (.ack m)).getD s), nack := fun s => (.ok (), (Coord.call s (.ack m)).getD s) }

/-- A broker's acker that answers `o` and does not touch the coordinated channel. Code: `fst` of the `ComposedAcker` made in runtime/mod.rs:351-358, i.e. `AMQPAcker` (amqp.rs:541-554) or `NoopAcker`. -/
def broker (o : Except ε Unit) : Acker σ ε := { ack := fun s => (o, s), nack := fun s => (o, s) }

/-- The acker of the items of `lease_coordinated_task_channel`, runtime/mod.rs:351-358. -/
def leased (env : Coord.St → Coord.St) (o : Except ε Unit) (m : Nat) : Acker Coord.St ε := compose env (broker o) (coordinated m)

end Acking
end Paladin
