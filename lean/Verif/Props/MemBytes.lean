import Verif.Spec.MemBytes
import Verif.Props.SystemBytes
import Verif.Props.SystemMem
import Verif.Props.Solo
/-!
# Properties C72, C97: in one process, through bytes

What C72 says over abstract queues, over the in-memory queues of one process, where it needs no assumption about redeliveries; and the order of C97 for operations whose values travel as bytes.
Vocabulary: `Verif/Spec/MemBytes.lean`.
-/
namespace Paladin
namespace SystemMem
open Retry Exec Wire Paladin.System

section
variable {ε A B : Type} [DecidableEq A] [DecidableEq B] [Anyhow ε] {join dupErr : ε} {ops : List (OpDef ε)} {k kt : Serializer} {M : A → MapJob ε} {F : B → FoldJob ε}
  {cfg : Worker.Cfg (A ⊕ B)}

/-- **C72, map, in memory.** If `IndexedStream::from(xs).map(op)` drained with `into_values_sorted` returns `Ok(vs)` in a process with in-memory queues, then `vs` has one value per element of `xs`, in order, and
each is a value some call of `execute` returned for that element; whatever other jobs run, and whether or not workers die or are told to stop. Assumed: the operation is registered with matching `Serialize` and
`Deserialize`, and the consumer of its results lasts. -/
theorem C72_memory_map (a : A) (hreg : Registered ops (M a).d (M a).id) (ls : List (BLabel ε M F)) (s : BSt ε M F) (h : memBytesRun join dupErr ops k kt M F cfg ls = some s)
    (hc : ∀ l ∈ mapSteps (actions ls) a, l.connected = true) (xs : List (M a).d.In) (vs : List (M a).d.Out) (hin : (MapS.inputs (mapSteps (actions ls) a)).Perm (indexed 0 xs))
    (hv : MapS.Collects (mapOf s.sys a).outs (mapOf s.sys a).ended (.ok vs)) : List.Forall₂ (M a).Gives xs vs :=
  (C79_map a (map_faithful hreg) ls s h hc xs vs hin hv).imp fun _ _ => gives_map

/-- **C72, fold, in memory.** If a fold returns `Ok(v)`, then `v` is a tree of successful calls of `combine` over exactly the elements of its input, in order. -/
theorem C72_memory_fold (b : B) (hreg : Registered ops (F b).d (F b).id) (ls : List (BLabel ε M F)) (s : BSt ε M F) (h : memBytesRun join dupErr ops k kt M F cfg ls = some s) (v : (F b).Elem)
    (hv : (foldOf s.sys b).outcome = some (.ok v)) (start : Nat) (xs : List (F b).Elem) (hin : (Fold.inputs (foldSteps (actions ls) b)).Perm (indexed start xs)) (hne : xs ≠ []) :
    Tree (F b).Gives xs v :=
  Tree.mono (fun _ _ _ => gives_fold) (C79_fold b (fold_faithful hreg) ls s h v hv start xs hin hne)

/-- **C97, through bytes.** A process with in-memory queues and the one worker `w`; publishes do not wait. The values a map has yielded, in the order in which it yielded them (no sorting), belong to increasing
positions of its input; once there are as many as inputs they are, one by one, values that calls of `execute` returned for the inputs. -/
theorem C97_bytes (w : Nat) (a : A) (hreg : Registered ops (M a).d (M a).id) (ls : List (BLabel ε M F)) (s : BSt ε M F) (hw : ∀ w', .deliver w' ∈ ls → w' = w)
    (ho : ∀ k, .send k ∈ mapSteps (actions ls) a → k = 0) (h : memBytesRun join dupErr ops k kt M F cfg ls = some s) (xs : List (M a).d.In)
    (hin : MapS.inputs (mapSteps (actions ls) a) = indexed 0 xs) :
    (((mapOf s.sys a).outs.filterMap Except.toOption).map Prod.fst).Pairwise (· < ·) ∧
      (((mapOf s.sys a).outs.filterMap Except.toOption).length = xs.length → List.Forall₂ (fun x o => (M a).Gives x o.2) xs ((mapOf s.sys a).outs.filterMap Except.toOption)) := by
  obtain ⟨h1, h2⟩ := C97_input w a (map_faithful hreg) ls s hw ho h xs hin
  exact ⟨h1, fun hl => (h2 hl).imp fun _ _ ⟨c, hc⟩ => gives_map ⟨c, hc⟩⟩
end

namespace BytesDemo
open System.BytesDemo

abbrev BLab := BLabel (A := Unit) (B := Bool) String M F
abbrev mapB (l : MapS.Label USz String Circ) : BLab := .lead (.inl ()) l
abbrev foldB (l : Fold.Label USz String Circ) : BLab := .lead (.inr true) l

def serveB (j : Unit ⊕ Bool) : List BLab :=
  [.taskPoll 0, .deliver 0, .work 0 .checkFlag, .work 0 .checkTerm, .work 0 .start, .finish 0 env, .work 0 .pubOk, .work 0 .ack, .work 0 .settled, .resRelease j]

/-- A map of `[300, 7]` and a fold of `[3, 4]` in one process with the worker 0. -/
def both : List BLab :=
  [.taskPoll 0, .resPoll (.inl ()), mapB (.item 0 (sz 300)), mapB (.send 0), mapB (.item 1 (sz 7)), mapB (.send 0), .taskRelease, .taskRelease, mapB .confirm, mapB .confirm, mapB .inputEnd,
   foldB (.item 0 (sz 3)), foldB (.item 1 (sz 4)), foldB (.publish 0), .taskRelease, foldB .inputEnd] ++ serveB (.inl ()) ++
  [.resPoll (.inl ()), .recv (.inl ()) (.recv 0), .resPoll (.inl ())] ++ serveB (.inl ()) ++ [.resPoll (.inl ()), .recv (.inl ()) (.recv 0), mapB .recvEnd, mapB .finish] ++
  serveB (.inr true) ++ [.resPoll (.inr true), .recv (.inr true) (.recv 0), foldB .finish]

abbrev goB (ls : List BLab) := memBytesRun "join" "twice" ops .cbor .postcard M F System.Demo.cfg ls

theorem goB_some : (goB both).isSome = true := by decide +kernel

def restB := (goB both).get goB_some

/-- The hypotheses of `C72_memory_map`, `C72_memory_fold` and `C97_bytes` are met, and this is what the two jobs return. -/
theorem C97_bytes_example : goB both = some restB ∧ (∀ w', .deliver w' ∈ both → w' = 0) ∧ (∀ k, .send k ∈ mapSteps (actions both) () → k = 0) ∧
    MapS.inputs (mapSteps (actions both) ()) = indexed 0 [sz 300, sz 7] ∧ (∀ l ∈ mapSteps (actions both) (), l.connected = true) ∧
    (mapOf restB.sys ()).outs = [.ok (0, (sz 305 : USz)), .ok (1, (sz 12 : USz))] ∧ (mapOf restB.sys ()).ended = true ∧ (foldOf restB.sys true).outcome = some (.ok (sz 7 : USz)) := by
  have e : mapSteps (actions both) () = [.item 0 (sz 300), .send 0, .item 1 (sz 7), .send 0, .confirm, .confirm, .inputEnd, .recv 0, .recv 0, .recvEnd, .finish] := rfl
  refine ⟨by simp [restB], ?_, by rw [e]; simp, by rw [e]; rfl, by rw [e]; simp [MapS.Label.connected], by decide +kernel, by decide +kernel, by decide +kernel⟩
  intro w' hw
  simp [both, serveB] at hw
  omega

/-- `C97_bytes` for this execution: the values of the map are those of the inputs, in their order. -/
example : List.Forall₂ (fun x o => (M ()).Gives x o.2) [sz 300, sz 7] ((mapOf restB.sys ()).outs.filterMap Except.toOption) := by
  obtain ⟨h1, h2, h3, h4, _, h6, _⟩ := C97_bytes_example
  exact (C97_bytes 0 () registered_map both restB h2 h3 h1 [sz 300, sz 7] h4).2 (by rw [h6]; rfl)

end BytesDemo
end SystemMem
end Paladin
