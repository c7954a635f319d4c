import Verif.Model.Hello
import Verif.Spec.Feeds
import Verif.Spec.SystemBytes
/-! # Specification: leaders of `hello-world-rabbitmq` -/
namespace Paladin
namespace Hello
open Retry Exec Wire System

section
variable {ε L : Type} [DecidableEq L] [Anyhow ε]

/-- Any number of leaders `L`, each with the routing keys of its map and its fold, share the broker and the workers. -/
abbrev helloRun (join dupErr : ε) (ops : List (OpDef ε)) (k kt : Serializer) (flag : Nat → Nat → Bool) (dbg : Char → String) (keyM keyF : L → Str) (idM idF : U8) (cfg : Worker.Cfg (L ⊕ L))
    (ls : List (Label (L ⊕ L) (DirLabel (fun l => (mapJob (ε := ε) flag dbg (keyM l) idM).d.In) (fun l => (foldJob (ε := ε) (keyF l) idF).Elem) ε Circ) Buf ε Circ)) :=
  bytesRun join dupErr ops k kt (fun l => mapJob flag dbg (keyM l) idM) (fun l => foldJob (keyF l) idF) cfg ls

/-- Leader `l` runs `IndexedStream::from(input.chars()).map(&CharToString).fold(&StringConcat)`: its map reads the characters, its fold what the map yields. -/
structure Runs (l : L) (input : String) (flag : Nat → Nat → Bool) (dbg : Char → String) (keyM keyF : L → Str) (idM idF : U8)
    (ls : List (Label (L ⊕ L) (DirLabel (fun l => (mapJob (ε := ε) flag dbg (keyM l) idM).d.In) (fun l => (foldJob (ε := ε) (keyF l) idF).Elem) ε Circ) Buf ε Circ))
    (s : St (L ⊕ L) (DirSt (fun l => (mapJob (ε := ε) flag dbg (keyM l) idM).d.In) (fun l => (mapJob (ε := ε) flag dbg (keyM l) idM).d.Out) (fun l => (foldJob (ε := ε) (keyF l) idF).Elem) ε) Buf Buf ε ε) :
    Prop where
  mapped : MapS.Feeds (mapSteps ls l) ((indexed 0 input.toList).map .ok) true
  folded : Fold.Feeds (foldSteps ls l) (mapOf s l).outs (mapOf s l).ended

/-- One step of `helloRun`. -/
abbrev helloStep (join dupErr : ε) (ops : List (OpDef ε)) (k kt : Serializer) (flag : Nat → Nat → Bool) (dbg : Char → String) (keyM keyF : L → Str) (idM idF : U8) (cfg : Worker.Cfg (L ⊕ L))
    (s : St (L ⊕ L) (DirSt (fun l => (mapJob (ε := ε) flag dbg (keyM l) idM).d.In) (fun l => (mapJob (ε := ε) flag dbg (keyM l) idM).d.Out) (fun l => (foldJob (ε := ε) (keyF l) idF).Elem) ε) Buf Buf ε ε)
    (x : Label (L ⊕ L) (DirLabel (fun l => (mapJob (ε := ε) flag dbg (keyM l) idM).d.In) (fun l => (foldJob (ε := ε) (keyF l) idF).Elem) ε Circ) Buf ε Circ) :=
  step (dirs (fun l => (mapJob (ε := ε) flag dbg (keyM l) idM).run join k kt) (fun l => (foldJob (ε := ε) (keyF l) idF).run join k kt) (fun l => (foldJob (ε := ε) (keyF l) idF).empty) dupErr
    (fun l => encMap k kt (mapJob flag dbg (keyM l) idM)) (fun l => decMap k (mapJob flag dbg (keyM l) idM)) (fun l => encFold k kt (foldJob (keyF l) idF))
    (fun l => decFold k (foldJob (keyF l) idF))) cfg (execBytes join ops k) (textBytes k) s x

end
end Hello
end Paladin
