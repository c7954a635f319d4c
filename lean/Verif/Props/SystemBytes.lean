import Verif.Proofs.SystemBytes
import Verif.Props.Exec
import Verif.Props.System
import Verif.Props.SystemLive
/-!
# Property C72: maps and folds compute what the operation computes, through bytes, queues and workers

The whole system with its messages as bytes (`Verif/Model/SystemBytes.lean`). Vocabulary: `Verif/Spec/SystemBytes.lean`.
-/
namespace Paladin
namespace System
open Retry Exec Wire

section
variable {ε A B : Type} [DecidableEq A] [DecidableEq B] [Anyhow ε] {join dupErr : ε} {ops : List (OpDef ε)} {k kt : Serializer} {M : A → MapJob ε} {F : B → FoldJob ε}
  {cfg : Worker.Cfg (A ⊕ B)}

instance : Inhabited Circ := ⟨⟨fun _ => 0, fun _ => 0, fun _ _ => 0, fun _ => 0⟩, 0, id⟩

theorem gives_map {J : MapJob ε} {a : J.d.In} {b : J.d.Out} (h : MapS.Returns (J.run join k kt) a b) : J.Gives a b := by
  obtain ⟨x, hx⟩ := h
  exact localOp_ok hx

theorem gives_fold {J : FoldJob ε} {a b c : J.Elem} (h : Fold.Returns (J.run join k kt) a b c) : J.Gives a b c := by
  obtain ⟨x, hx⟩ := h
  exact localOp_ok hx

/-- **C72, map.** Maps and folds of any operations run side by side; what they send is serialized, goes through the task queue to some worker, is decoded, executed with retries, and
the result comes back serialized. If `IndexedStream::from(xs).map(op)` drained with `into_values_sorted` returns `Ok(vs)`, then `vs` has one value per element of `xs`, in order, and each is
a value some call of `execute` returned for that element. Assumed: the operation is registered under its id with matching `Serialize` and `Deserialize`, the leader's connection
to the broker lasts, and no delivery of this map was returned to the queue. -/
theorem C72_map (a : A) (hreg : Registered ops (M a).d (M a).id) (ls) (s) (h : bytesRun join dupErr ops k kt M F cfg ls = some s) (hn : NoReturn (.inl a) s)
    (hc : ∀ l ∈ mapSteps ls a, l.connected = true) (xs : List (M a).d.In) (vs : List (M a).d.Out) (hin : (MapS.inputs (mapSteps ls a)).Perm (indexed 0 xs))
    (hv : MapS.Collects (mapOf s a).outs (mapOf s a).ended (.ok vs)) : List.Forall₂ (M a).Gives xs vs :=
  (C68_map_sorted a (map_faithful hreg) ls s h hn hc xs vs hin hv).imp fun _ _ => gives_map

/-- **C72, map of a function.** If all successful calls of `execute` agree with `f`, the result is `f` mapped over the input. -/
theorem C72_map_pure (a : A) (hreg : Registered ops (M a).d (M a).id) (ls) (s) (h : bytesRun join dupErr ops k kt M F cfg ls = some s) (hn : NoReturn (.inl a) s)
    (hc : ∀ l ∈ mapSteps ls a, l.connected = true) (xs : List (M a).d.In) (vs : List (M a).d.Out) (hin : (MapS.inputs (mapSteps ls a)).Perm (indexed 0 xs))
    (hv : MapS.Collects (mapOf s a).outs (mapOf s a).ended (.ok vs)) (f : (M a).d.In → (M a).d.Out) (hf : ∀ x y, (M a).Gives x y → y = f x) : vs = xs.map f := by
  have := C72_map a hreg ls s h hn hc xs vs hin hv
  clear hin hv
  induction this with
  | nil => rfl
  | cons h1 _ ih => rw [List.map_cons, hf _ _ h1, ih]

/-- **C72, fold.** If a fold returns `Ok(v)`, then `v` is a tree of successful calls of `combine` over exactly the elements of its input, in order. Nothing is assumed about the broker. -/
theorem C72_fold (b : B) (hreg : Registered ops (F b).d (F b).id) (ls) (s) (h : bytesRun join dupErr ops k kt M F cfg ls = some s) (v : (F b).Elem)
    (hv : (foldOf s b).outcome = some (.ok v)) (start : Nat) (xs : List (F b).Elem) (hin : (Fold.inputs (foldSteps ls b)).Perm (indexed start xs)) (hne : xs ≠ []) :
    Tree (F b).Gives xs v :=
  Tree.mono (fun _ _ _ => gives_fold) (C68_fold b (fold_faithful hreg) ls s h v hv start xs hin hne)

/-- **C72, fold with a monoid.** If all successful calls of `combine` agree with an associative `g` with left identity `empty`, the value is the left-to-right fold. -/
theorem C72_fold_monoid (b : B) (hreg : Registered ops (F b).d (F b).id) (ls) (s) (h : bytesRun join dupErr ops k kt M F cfg ls = some s)
    (g : (F b).Elem → (F b).Elem → (F b).Elem) (hassoc : ∀ x y z, g (g x y) z = g x (g y z)) (hid : ∀ x, g (F b).empty x = x)
    (hg : ∀ x y z, (F b).Gives x y z → z = g x y) (v : (F b).Elem) (hv : (foldOf s b).outcome = some (.ok v)) (start : Nat) (xs : List (F b).Elem)
    (hin : (Fold.inputs (foldSteps ls b)).Perm (indexed start xs)) : v = xs.foldl g (F b).empty :=
  C68_fold_monoid b (fold_faithful hreg) ls s h g hassoc hid (fun w x y z hz => hg x y z (gives_fold ⟨w, hz⟩)) v hv start xs hin

theorem addressed {d : OpDef ε} {μ : Type} {mC : Codec ε μ} {id : U8} {t : Task d μ} {b : Buf} (h : message k kt mC id t = some b) :
    ∃ a, fromBytes k AnyTask b = some a ∧ a.routingKey = t.routingKey ∧ a.operationId = id := by
  obtain ⟨a, ha, rfl⟩ := message_some h
  obtain ⟨m, o, i, -, -, -, rfl⟩ := asAnyTask_ok ha
  exact ⟨_, by simpa using fromBytes_toBytes anyTask_wf.1 anyTask_wf.2 k _ [], rfl, rfl⟩

/-- **C72, addresses.** Every message in the task queue, and every message ever delivered, decodes to a task that carries the routing key and the operation id of the job that
published it. So if the routing keys of the jobs differ, the key in a message tells its job. -/
theorem C72_addressed (ls) (s) (h : bytesRun join dupErr ops k kt M F cfg ls = some s) (m : Msg (A ⊕ B) Buf) (hm : m ∈ s.queue ∨ ∃ d ∈ s.dels, d.msg = m) :
    ∃ t, fromBytes k AnyTask m.task = some t ∧ t.routingKey = keyOf M F m.key ∧ t.operationId = idOf M F m.key ∧
      (Function.Injective (keyOf M F) → ∀ j, keyOf M F j = t.routingKey → j = m.key) := by
  have key : ∃ t, fromBytes k AnyTask m.task = some t ∧ t.routingKey = keyOf M F m.key ∧ t.operationId = idOf M F m.key := by
    have := published_run (P := fun j b => ∃ t, fromBytes k AnyTask b = some t ∧ t.routingKey = keyOf M F j ∧ t.operationId = idOf M F j) ?_ h
    · rcases hm with hm | ⟨d, hd, rfl⟩
      · exact this.1 m hm
      · exact this.2 d hd
    · intro j x l rs x' ts rs' hs b hb
      cases j with
      | inl a =>
        obtain ⟨u, hu⟩ := sent_map hs b hb
        simp only [encMap] at hu
        split at hu <;> try simp only [reduceCtorEq] at hu
        exact addressed hu
      | inr a =>
        obtain ⟨u, hu⟩ := sent_fold hs b hb
        simp only [encFold] at hu
        split at hu <;> try simp only [reduceCtorEq] at hu
        exact addressed hu
  obtain ⟨t, h1, h2, h3⟩ := key
  exact ⟨t, h1, h2, h3, fun hi j hj => hi (hj.trans h2)⟩

theorem encMap_some {J : MapJob ε} {p : Nat × J.d.In} (hi : p.1 < 2 ^ 64) (hb : ∃ b, J.d.inC.enc kt p.2 = .ok b) (ho : ∃ b, J.d.opC.enc kt J.op = .ok b) :
    (encMap k kt J p).isSome = true := by
  obtain ⟨b, hb⟩ := hb
  obtain ⟨o, ho⟩ := ho
  obtain ⟨m, hm⟩ := mapMeta_total (ε := ε) kt ⟨⟨p.1, hi⟩⟩
  simp only [encMap, dif_pos hi]
  simp [message, asAnyTask, hm, hb, ho]

theorem encFold_some {J : FoldJob ε} {t : Fold.CTask J.Elem} (hl : t.lo < 2 ^ 64) (hh : t.hi < 2 ^ 64) (hc : ∃ c, J.pairC.enc kt (t.a, t.b) = .ok c)
    (ho : ∃ b, J.opC.enc kt J.op = .ok b) : (encFold k kt J t).isSome = true := by
  obtain ⟨c, hc⟩ := hc
  obtain ⟨o, ho⟩ := ho
  have hlt : t.lo < 2 ^ 64 ∧ t.hi < 2 ^ 64 := ⟨hl, hh⟩
  obtain ⟨m, hm⟩ := foldMeta_total (ε := ε) kt ⟨⟨t.lo, hl⟩, ⟨t.hi, hh⟩⟩
  simp only [encFold, dif_pos hlt]
  simp [message, asAnyTask, hm, hc, ho, FoldJob.d, OpDef.ofMonoid]

/-- **C71, map, through bytes.** As `C71_map`, through bytes: if the operation always returns on the inputs with outputs that can be serialized, if the inputs can be serialized and there are
fewer than `2^64` indices, then when the healthy workers and the leader have nothing left to do, each input so far has exactly one output, and no error was yielded. -/
theorem C71_map_bytes (a : A) (hreg : Registered ops (M a).d (M a).id) (ls) (s) (h : bytesRun join dupErr ops k kt M F cfg ls = some s)
    (W : Nat → Bool) (hW : ∃ w, W w = true) (hst : ∀ l ∈ ls, l.steady W = true) (hrel : ∀ l ∈ mapSteps ls a, l.reliable = true)
    (hok : ∀ p ∈ MapS.inputs (mapSteps ls a), ∀ i, ∃ v b, (M a).d.execute (M a).op p.2 i = .ok v ∧ (M a).d.outC.enc kt v = .ok b)
    (hidx : ∀ p ∈ MapS.inputs (mapSteps ls a), p.1 < 2 ^ 64 ∧ ∃ b, (M a).d.inC.enc kt p.2 = .ok b) (hopenc : ∃ b, (M a).d.opC.enc kt (M a).op = .ok b)
    (hwork : ∀ l, l.serves W = true → step (dirs (fun a => (M a).run join k kt) (fun b => (F b).run join k kt) (fun b => (F b).empty) dupErr (fun a => encMap k kt (M a))
      (fun a => decMap k (M a)) (fun b => encFold k kt (F b)) (fun b => decFold k (F b))) cfg (execBytes join ops k) (textBytes k) s l = none)
    (hlead : ∀ l : MapS.Label (M a).d.In ε Circ, l.internal = true → step (dirs (fun a => (M a).run join k kt) (fun b => (F b).run join k kt)
      (fun b => (F b).empty) dupErr (fun a => encMap k kt (M a)) (fun a => decMap k (M a)) (fun b => encFold k kt (F b)) (fun b => decFold k (F b))) cfg (execBytes join ops k)
      (textBytes k) s (.lead (.inl a) l) = none) :
    ((mapOf s a).ended = true ↔ .inputEnd ∈ mapSteps ls a) ∧ MapS.OneEach (M a).Gives (MapS.inputs (mapSteps ls a)) (MapS.oks (mapOf s a).outs) ∧
      MapS.errs (mapOf s a).outs = [] := by
  have hop : ∀ p ∈ MapS.inputs (mapSteps ls a), ∀ x, ∃ u, (M a).run join k kt x p.2 = .ok u := fun p hp x => localOp_first (hok p hp) x
  have henc : ∀ p ∈ MapS.inputs (mapSteps ls a), (encMap k kt (M a) p).isSome = true := fun p hp => encMap_some (hidx p hp).1 (hidx p hp).2 hopenc
  obtain ⟨h1, ⟨T, h2, h3, h4⟩, h5⟩ := C71_map a (map_faithful hreg) ls s h W hW hst hrel henc hop hwork hlead
  exact ⟨h1, ⟨T, h2, h3, fun t ht => gives_map (h4 t ht)⟩, h5⟩

/-- **C71, fold, through bytes (partial).** As `C71_fold_partial`, through bytes. The same cases are missing. -/
theorem C71_fold_bytes_partial (b : B) (hreg : Registered ops (F b).d (F b).id)
    (hopenc : ∃ c, (F b).opC.enc kt (F b).op = .ok c) (ls) (s) (h : bytesRun join dupErr ops k kt M F cfg ls = some s) (W : Nat → Bool) (hW : ∃ w, W w = true)
    (hst : ∀ l ∈ ls, l.steady W = true) (hrel : ∀ l ∈ foldSteps ls b, l.reliable = true) (pre post : List (Fold.Label (F b).Elem ε Circ))
    (hsplit : foldSteps ls b = pre ++ .inputEnd :: post) (start : Nat) (xs : List (F b).Elem) (hin : (Fold.inputs pre).Perm (indexed start xs))
    (hsz : start + xs.length ≤ 2 ^ 64) (hrc : xs = [] ∨ (xs.length = 1 ∧ start = 0) ∨ Fold.recvs pre + 1 < xs.length)
    (hok : ∀ t, Fold.Asked (F b).Gives (indexed start xs) t → ∀ i, ∃ v c, (F b).combine (F b).op t.a t.b i = .ok v ∧ (F b).elemC.enc kt v = .ok c)
    (henc : ∀ t, Fold.Asked (F b).Gives (indexed start xs) t → ∃ c, (F b).pairC.enc kt (t.a, t.b) = .ok c)
    (hwork : ∀ l, l.serves W = true → step (dirs (fun a => (M a).run join k kt) (fun b => (F b).run join k kt) (fun b => (F b).empty) dupErr (fun a => encMap k kt (M a))
      (fun a => decMap k (M a)) (fun b => encFold k kt (F b)) (fun b => decFold k (F b))) cfg (execBytes join ops k) (textBytes k) s l = none)
    (hlead : ∀ l : Fold.Label (F b).Elem ε Circ, l.internal = true → step (dirs (fun a => (M a).run join k kt) (fun b => (F b).run join k kt)
      (fun b => (F b).empty) dupErr (fun a => encMap k kt (M a)) (fun a => decMap k (M a)) (fun b => encFold k kt (F b)) (fun b => decFold k (F b))) cfg (execBytes join ops k)
      (textBytes k) s (.lead (.inr b) l) = none) :
    ∃ v, (foldOf s b).outcome = some (.ok v) ∧ ((xs = [] ∧ v = (F b).empty) ∨ Tree (F b).Gives xs v) := by
  have hasked : ∀ t, Fold.Asked (Fold.Returns ((F b).run join k kt)) (indexed start xs) t → Fold.Asked (F b).Gives (indexed start xs) t := fun t ht =>
    ht.mono (fun _ _ _ => gives_fold) fun _ h => h
  have hop : ∀ t, Fold.Asked (Fold.Returns ((F b).run join k kt)) (indexed start xs) t → ∀ x, ∃ c, (F b).run join k kt x t.a t.b = .ok c := fun t ht x =>
    localOp_first (d := (F b).d) (a := (t.a, t.b)) (hok t (hasked t ht)) x
  have henc : ∀ t, Fold.Asked (Fold.Returns ((F b).run join k kt)) (indexed start xs) t → (encFold k kt (F b) t).isSome = true := by
    intro t ht
    obtain ⟨h1, h2, h3⟩ := bounds_of_asked ht
    exact encFold_some (by omega) (by omega) (henc t (hasked t ht)) hopenc
  obtain ⟨v, h1, h2⟩ := C71_fold_partial b (fold_faithful hreg) ls s h W hW hst hrel pre post hsplit start xs hin hrc henc hop hwork hlead
  exact ⟨v, h1, h2.imp id (Tree.mono fun _ _ _ => gives_fold)⟩
end

namespace BytesDemo

abbrev sz (n : Nat) : USz := ⟨n % 2 ^ 64, Nat.mod_lt _ (by decide)⟩
abbrev usz : Codec String USz := .ofSerde USz "big" "undecodable"

/-- A map that adds a fixed number modulo `2^64`, and a fold that adds; both can be executed by the workers. -/
def addTo : OpDef String := ⟨"AddTo", USz, USz, USz, usz, usz, usz, fun op x _ => .ok (sz (op.1 + x.1))⟩
def M (_ : Unit) : MapJob String := ⟨⟨"m", by decide +kernel⟩, addTo, sz 5, ⟨0, by decide⟩⟩
def F (b : Bool) : FoldJob String := ⟨⟨if b then "f" else "g", by cases b <;> decide +kernel⟩, "Sum", Unit, USz, .ofSerde Unit "big" "undecodable", .ofSerde (USz × USz) "big" "undecodable", usz,
  fun _ x y _ => .ok (sz (x.1 + y.1)), (), ⟨1, by decide⟩, sz 0⟩
def ops : List (OpDef String) := [addTo, (F true).d]
def env : Circ := ⟨⟨fun _ => 0, fun _ => 0, fun _ c => c, fun c => c⟩, 0, fun i => i⟩

abbrev Lab := Label (Unit ⊕ Bool) (DirLabel (fun a : Unit => (M a).d.In) (fun b : Bool => (F b).Elem) String Circ) Buf String Circ
abbrev mapL (l : MapS.Label USz String Circ) : Lab := .lead (.inl ()) l
abbrev foldL (l : Fold.Label USz String Circ) : Lab := .lead (.inr true) l

def serve (w : Nat) : List Lab :=
  [.work w .checkFlag, .work w .checkTerm, .work w .start, .finish w env, .work w .pubOk, .work w .ack, .work w .settled]

/-- A map of `[300]` and a fold of `[3, 4]` side by side on the workers 0 and 1. -/
def calm : List Lab :=
  [mapL (.item 0 (sz 300)), mapL (.send 0), mapL .confirm, foldL (.item 0 (sz 3)), foldL (.item 1 (sz 4)), foldL (.publish 0), foldL .inputEnd, .deliver 0 1, .deliver 1 0] ++
  serve 0 ++ serve 1 ++ [mapL .inputEnd, mapL (.recv 0), foldL (.recv 0), mapL .recvEnd, mapL .finish, foldL .finish]

abbrev go (ls : List Lab) := bytesRun "join" "twice" ops .cbor .postcard M F Demo.cfg ls

def rest := (go calm).get (by decide +kernel)

theorem usz_lawful : usz.Lawful := Codec.ofSerde_lawful (α := USz) (by simp [Serde.ty, Ty.WF]) ⟨trivial, by decide⟩ _ _

theorem usz_short (n : USz) : (toBytes .postcard n).length < 2 ^ 64 := by
  have := encVar_length 9 n.1 (Nat.lt_trans n.2 (by decide))
  simp [toBytes, Serde.ser, Serde.ty, Postcard.enc, Postcard.encUint]
  omega

theorem pair_short (n m : USz) : (toBytes .postcard (n, m)).length < 2 ^ 64 := by
  have := encVar_length 9 n.1 (Nat.lt_trans n.2 (by decide))
  have := encVar_length 9 m.1 (Nat.lt_trans m.2 (by decide))
  simp [toBytes, Serde.ser, Serde.ty, Postcard.enc, Postcard.encF, Postcard.encUint]
  omega

theorem registered_map : Registered ops (M ()).d (M ()).id := ⟨rfl, usz_lawful, usz_lawful, usz_lawful⟩

theorem registered_fold : Registered ops (F true).d (F true).id :=
  ⟨rfl, Codec.ofSerde_lawful (α := Unit) trivial ⟨trivial, by decide⟩ _ _,
    Codec.ofSerde_lawful (α := USz × USz) ⟨by decide +kernel, by simp [Serde.ty, Ty.WF], by simp [Serde.ty, Ty.WF], trivial⟩ ⟨⟨trivial, trivial, trivial⟩, by decide⟩ _ _, usz_lawful⟩

instance : DecidableEq (M ()).d.Out := inferInstanceAs (DecidableEq USz)
instance : DecidableEq (F true).Elem := inferInstanceAs (DecidableEq USz)

theorem rest_queue : rest.queue = [] := by decide +kernel
theorem rest_ended : (mapOf rest ()).ended = true := by decide +kernel
theorem rest_outs : (mapOf rest ()).outs = [.ok (0, (sz 305 : USz))] := by decide +kernel
theorem rest_folded : (foldOf rest true).outcome = some (.ok (sz 7 : USz)) := by decide +kernel
theorem rest_waiting : (rest.worker 0).pc = .waiting ∧ (rest.worker 1).pc = .waiting := by decide +kernel

theorem rest_work (l : Lab) (hl : l.serves (fun w => w < 2) = true) :
    step (dirs (fun a => (M a).run "join" .cbor .postcard) (fun b => (F b).run "join" .cbor .postcard) (fun b => (F b).empty) "twice" (fun a => encMap .cbor .postcard (M a))
      (fun a => decMap .cbor (M a)) (fun b => encFold .cbor .postcard (F b)) (fun b => decFold .cbor (F b))) Demo.cfg (execBytes "join" ops .cbor) (textBytes .cbor) rest l = none := by
  have hq := rest_queue
  have hpc : ∀ w, decide (w < 2) = true → (rest.worker w).pc = .waiting := by
    intro w hw
    have : w = 0 ∨ w = 1 := by simp at hw; omega
    rcases this with rfl | rfl
    · exact rest_waiting.1
    · exact rest_waiting.2
  cases l with
  | lead j l => simp [Label.serves] at hl
  | deliver w k => simp [step, hq, Fold.takeAt]
  | finish w x =>
    have := hpc w hl
    simp only [step]
    split
    · simp [Worker.step, this]
    · rfl
  | work w l =>
    have hl' : decide (w < 2) = true ∧ routine l = true := by simpa [Label.serves] using hl
    have := hpc w hl'.1
    cases l <;> first | (simp [routine] at hl'; done) | simp [step, Worker.step, this]
  | requeue n => simp [Label.serves] at hl

/-- Hypotheses of the theorems on maps: met by `calm`. -/
example : go calm = some rest ∧ Registered ops (M ()).d (M ()).id ∧ NoReturn (.inl ()) rest ∧ (∀ l ∈ mapSteps calm (), l.connected = true) ∧
    MapS.inputs (mapSteps calm ()) = indexed 0 [(sz 300 : USz)] ∧ MapS.Collects (mapOf rest ()).outs (mapOf rest ()).ended (.ok [(sz 305 : USz)]) ∧
    (∀ x y, (M ()).Gives x y → y = (show USz from sz (5 + (show USz from x).1))) := by
  refine ⟨by simp [rest], registered_map, ?_, ?_, rfl, ?_, ?_⟩
  · unfold NoReturn; decide +kernel
  · decide +kernel
  · rw [rest_outs, rest_ended]; exact .ok (oks := [(0, (sz 305 : USz))]) (sorted := [(0, (sz 305 : USz))]) (.refl _) (by simp)
  · rintro x y ⟨i, h⟩
    cases h; rfl

example : (∀ x i, ∃ v b, (M ()).d.execute (M ()).op x i = .ok v ∧ (M ()).d.outC.enc .postcard v = .ok b) ∧ (∀ l ∈ calm, l.steady (fun w => w < 2) = true) ∧
    (∀ l ∈ mapSteps calm (), l.reliable = true) ∧
    (∀ l : MapS.Label USz String Circ, l.internal = true →
      step (dirs (fun a => (M a).run "join" .cbor .postcard) (fun b => (F b).run "join" .cbor .postcard) (fun b => (F b).empty) "twice" (fun a => encMap .cbor .postcard (M a))
        (fun a => decMap .cbor (M a)) (fun b => encFold .cbor .postcard (F b)) (fun b => decFold .cbor (F b))) Demo.cfg (execBytes "join" ops .cbor) (textBytes .cbor) rest
        (mapL l) = none) := by
  refine ⟨fun x i => ?_, by decide +kernel, by decide +kernel, fun l _ => ?_⟩
  · have h : (toBytes .postcard (sz (5 + (show USz from x).1))).length < 2 ^ 64 := by
      exact usz_short _
    exact ⟨_, _, rfl, dif_pos h⟩
  · have he := rest_ended
    have : (mapClient ((M ()).run "join" .cbor .postcard) (encMap .cbor .postcard (M ())) (decMap .cbor (M ()))).step (mapOf rest ()) l (rest.results (.inl ())) = none := by
      simp [mapClient, MapS.step, he]
    exact lead_none this

/-- Hypotheses of the theorems on folds: met by `calm`. -/
example : Registered ops (F true).d (F true).id ∧ (∀ l ∈ foldSteps calm true, l.reliable = true) ∧
    foldSteps calm true = [.item 0 (sz 3 : USz), .item 1 (sz 4 : USz), .publish 0] ++ .inputEnd :: [.recv 0, .finish] ∧
    (∀ x y, ∃ c, (F true).pairC.enc .postcard (x, y) = .ok c) ∧
    (∀ l : Fold.Label USz String Circ, l.internal = true →
      step (dirs (fun a => (M a).run "join" .cbor .postcard) (fun b => (F b).run "join" .cbor .postcard) (fun b => (F b).empty) "twice" (fun a => encMap .cbor .postcard (M a))
        (fun a => decMap .cbor (M a)) (fun b => encFold .cbor .postcard (F b)) (fun b => decFold .cbor (F b))) Demo.cfg (execBytes "join" ops .cbor) (textBytes .cbor) rest
        (foldL l) = none) ∧ (foldOf rest true).outcome = some (.ok (sz 7 : USz)) := by
  refine ⟨registered_fold, by decide +kernel, rfl, fun x y => ?_, fun l _ => ?_, rest_folded⟩
  · exact ⟨_, dif_pos (pair_short x y)⟩
  · have he := rest_folded
    have : (foldClient ((F true).run "join" .cbor .postcard) (F true).empty "twice" (encFold .cbor .postcard (F true)) (decFold .cbor (F true))).step (foldOf rest true) l
        (rest.results (.inr true)) = none := by
      simp [foldClient, Fold.step, he]
    exact lead_none this

/-- The two keys differ, and the messages in the queue are recognized by them: after the map's and the fold's messages have been published. -/
example : Function.Injective (keyOf M F) ∧
    (go (calm.take 7)).map (fun s => s.queue.map fun m => ((fromBytes .cbor AnyTask m.task).map fun t => (t.routingKey.1, t.operationId.1))) = some [some ("m", 0), some ("f", 1)] := by
  refine ⟨?_, by decide +kernel⟩
  rintro (⟨⟨⟩⟩ | (_ | _)) (⟨⟨⟩⟩ | (_ | _)) h <;> first | rfl | (replace h := congrArg Subtype.val h; revert h; decide +kernel)

end BytesDemo

end System
end Paladin
