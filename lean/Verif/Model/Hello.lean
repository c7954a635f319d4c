import Verif.Model.SystemBytes
/-!
# Model of the example program `hello-world-rabbitmq`

Code: `examples/hello-world-rabbitmq/ops/src/lib.rs` and `examples/hello-world-rabbitmq/leader/src/main.rs`. The operations, the monoid and the leader's `main`; the runtime, the broker and the
workers (`worker/src/main.rs` is `WorkerRuntime::main_loop`) are those of `Verif/Model/SystemBytes.lean`. The length of the pauses and logging are left out.
-/
namespace Paladin
namespace Hello
open Retry Exec Wire System

/-- The text of the error of an aborted `CharToString`, ops/src/lib.rs:33. `dbg` is `Debug for char`, left open. -/
def abortText (dbg : Char → String) (c : Char) (i : Nat) : String :=
  "aborted per request at CharToString iteration " ++ toString i ++ " for input " ++ dbg c

/-- `char::to_string`. Used in ops/src/lib.rs:39. -/
def charStr (c : Char) : Str := ⟨String.singleton c, by have := Char.utf8Size_le_four c; simp; omega⟩

/-- `CharToString::execute`, ops/src/lib.rs:17-40: nine times (`1..10`) a pause and a look at the abort flag. `flag m i`: in the call made at moment `m`, there is an abort flag and it is
set at iteration `i`. -/
def charToString [Anyhow ε] (flag : Nat → Nat → Bool) (dbg : Char → String) (c : Char) (m : Nat) : Call (OpError ε) Str :=
  match (List.range' 1 9).find? (flag m) with
  | some i => .err (.fatal (Anyhow.msg (abortText dbg c i)) .terminate)
  | none => .ok (charStr c)

/-- `StringConcat::combine`, ops/src/lib.rs:53-60: `a + &b`, which panics ("capacity overflow") if the result would have more than `isize::MAX` bytes. -/
def concat (a b : Str) : Call (OpError ε) Str :=
  if h : (a.1 ++ b.1).utf8ByteSize < 2 ^ 63 then .ok ⟨a.1 ++ b.1, Nat.lt_trans h (by decide)⟩ else .panic

/-- A type with serde's derives or one of serde's own. Code: ops/src/lib.rs:10, 43, and serializer/mod.rs:75-96. -/
abbrev codec [Anyhow ε] (α : Type) [Serde α] : Codec ε α := .ofSerde α (Anyhow.msg "too big") (Anyhow.msg "undecodable")

/-- `CharToString` with `#[derive(RemoteExecute)]`, ops/src/lib.rs:10-41. A unit struct is serialized like `()`. -/
def charOp [Anyhow ε] (flag : Nat → Nat → Bool) (dbg : Char → String) : OpDef ε :=
  ⟨"CharToString", Unit, Char, Str, codec Unit, codec Char, codec Str, fun _ c m => charToString flag dbg c m⟩

/-- `StringConcat` with `#[derive(RemoteExecute)]`, ops/src/lib.rs:43-61. -/
abbrev concatOp [Anyhow ε] : OpDef ε := .ofMonoid "StringConcat" Unit Str (codec Unit) (codec (Str × Str)) (codec Str) fun _ a b _ => concat a b

/-- `.map(&CharToString)` in the leader's `main`, leader/src/main.rs:59-60; `id` is `CharToString::ID`. -/
abbrev mapJob [Anyhow ε] (flag : Nat → Nat → Bool) (dbg : Char → String) (key : Str) (id : U8) : MapJob ε := ⟨key, charOp flag dbg, (), id⟩

/-- `.fold(&StringConcat)`, leader/src/main.rs:61; `empty` is ops/src/lib.rs:49-51; `id` is `StringConcat::ID`. -/
abbrev foldJob [Anyhow ε] (key : Str) (id : U8) : FoldJob ε :=
  ⟨key, "StringConcat", Unit, Str, codec Unit, codec (Str × Str), codec Str, fun _ a b _ => concat a b, (), id, ⟨"", by decide⟩⟩

/-- How the leader's `main` ends: `Ok(())`, an error, the panic of its `assert_eq!`, or a panic of the computation. Code: leader/src/main.rs:67-78. -/
inductive Exit (ε : Type) where
  | ok
  | err (e : ε)
  | assertFailed
  | panicked
deriving DecidableEq, Repr

/-- The end of the leader's `main`, leader/src/main.rs:67-78: the outcome of the computation is that of its fold; the runtime is closed, an error there is returned before the result is looked
at; then the result is compared with the input. -/
def exit (input : String) (o : Fold.Outcome Str ε) (close : Except ε Unit) : Exit ε :=
  match o, close with
  | .panic, _ => .panicked
  | _, .error e => .err e
  | .err e, .ok () => .err e
  | .ok v, .ok () => if v.1 = input then .ok else .assertFailed

end Hello
end Paladin
