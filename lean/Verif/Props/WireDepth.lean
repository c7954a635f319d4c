import Verif.Proofs.WireDepth
import Verif.Props.Wire
import Verif.Props.Exec
import Verif.Proofs.SystemBytes
/-! # Deeply nested values (C88) -/
namespace Paladin
namespace Wire

/-- **C88**, what holds for CBOR (partial): a value nested at most 256 levels deep survives, whatever the type (an unfolding of a recursive type may be higher). -/
theorem C88_cbor_partial (t : Ty) (h : t.WF) (hn : t.NoNestedOption) (v : t.den) (hl : t.levels v ≤ 256) (rest : Buf) : Cbor.read t (Cbor.enc t v ++ rest) = some (v, rest) :=
  C59_cbor_partial t h hn v hl rest

/-- **C88** is false for CBOR, for every deeper value of every type: it is written, and what was written is refused. -/
theorem C88_cbor_limit (t : Ty) (h : t.WF) (hn : t.NoNestedOption) (v : t.den) (hl : 256 < t.levels v) (rest : Buf) : Cbor.read t (Cbor.enc t v ++ rest) = none := by
  rw [Cbor.read, Cbor.rt t h hn, if_neg (Nat.not_le.2 hl)]

/-- **C88**: Postcard has no such limit. -/
theorem C88_postcard (t : Ty) (h : t.WF) (v : t.den) (rest : Buf) : Postcard.dec t (Postcard.enc t v ++ rest) = some (v, rest) := Postcard.rt t h v rest

/-- **C88** for `enum List { Nil, Cons(u8, Box<List>) }`, whichever unfolding has the list: its bytes are those of the list; Postcard reads them back always, CBOR up to 127 elements and never beyond. -/
theorem C88_list (n : Nat) (l : List (Ty.uint 8).den) (h : l.length ≤ n) (rest : Buf) :
    Postcard.enc (listTy n) (listVal n l) = listPostcard l ∧ Postcard.dec (listTy n) (listPostcard l ++ rest) = some (listVal n l, rest) ∧
    Cbor.enc (listTy n) (listVal n l) = listCbor l ∧ Cbor.read (listTy n) (listCbor l ++ rest) = if l.length ≤ 127 then some (listVal n l, rest) else none := by
  have h1 := listVal_cbor n l h
  have h2 := listVal_postcard n l h
  have h3 := listVal_levels n l h
  refine ⟨h2, h2 ▸ Postcard.rt _ (listTy_wf n) _ rest, h1, ?_⟩
  rw [← h1, Cbor.read, Cbor.rt _ (listTy_wf n) (listTy_flat n), h3]
  have e : 2 * l.length + 1 ≤ 256 ↔ l.length ≤ 127 := by omega
  simp only [e]

/-- A list of two elements as bytes. -/
example : listCbor [⟨1, by decide⟩, ⟨200, by decide⟩] =
    [0xa1, 0x64, 0x43, 0x6f, 0x6e, 0x73, 0x82, 1, 0xa1, 0x64, 0x43, 0x6f, 0x6e, 0x73, 0x82, 0x18, 200, 0x63, 0x4e, 0x69, 0x6c] ∧ listPostcard [⟨1, by decide⟩, ⟨200, by decide⟩] = [1, 1, 1, 200, 0] := by
  decide +kernel

/-- A list of sevens. -/
def sevens (n : Nat) : List (Ty.uint 8).den := List.replicate n (⟨7, by decide⟩ : { n : Nat // n < 2 ^ 8 })

theorem sevens_length (n : Nat) : (sevens n).length = n := List.length_replicate ..

/-- Lists of 127 and 128 elements. -/
example : Cbor.read (listTy 1000) (listCbor (sevens 127)) = some (listVal 1000 (sevens 127), []) ∧ Cbor.read (listTy 1000) (listCbor (sevens 128)) = none := by
  refine ⟨?_, ?_⟩
  · have := (C88_list 1000 (sevens 127) (by rw [sevens_length]; decide) []).2.2.2
    rwa [List.append_nil, sevens_length, if_pos (Nat.le_refl _)] at this
  · have := (C88_list 1000 (sevens 128) (by rw [sevens_length]; decide) []).2.2.2
    rwa [List.append_nil, sevens_length, if_neg (by decide)] at this

/-- **C88**: what a fold's workers send back may be too deep for the next round. The argument of a `combine` is a pair, one level deeper than its elements: an element with exactly 256 levels is read back,
no pair with it is. -/
theorem C88_pair {α : Type} [Serde α] (hw : (Serde.ty α).WF) (hn : (Serde.ty α).NoNestedOption) (a b : α) (hl : (Serde.ty α).levels (Serde.ser a) = 256) :
    fromBytes .cbor α (toBytes .cbor a) = some a ∧ fromBytes .cbor (α × α) (toBytes .cbor (a, b)) = none ∧ fromBytes .cbor (α × α) (toBytes .cbor (b, a)) = none := by
  have hp : (Serde.ty (α × α)).WF := ⟨by simp [Fields.count], hw, hw, trivial⟩
  have hpn : (Serde.ty (α × α)).NoNestedOption := ⟨hn, hn, trivial⟩
  refine ⟨?_, ?_, ?_⟩
  · have := C88_cbor_partial (Serde.ty α) hw hn (Serde.ser a) (Nat.le_of_eq hl) []
    rw [List.append_nil] at this
    simp only [fromBytes, toBytes, this, Option.map, Serde.de_ser]
  · have := C88_cbor_limit (Serde.ty (α × α)) hp hpn (Serde.ser (a, b)) (by
      change 256 < max ((Serde.ty α).levels (Serde.ser a)) (max ((Serde.ty α).levels (Serde.ser b)) 0) + 1
      omega) []
    rw [List.append_nil] at this
    simp only [fromBytes, toBytes, this, Option.map]
  · have := C88_cbor_limit (Serde.ty (α × α)) hp hpn (Serde.ser (b, a)) (by
      change 256 < max ((Serde.ty α).levels (Serde.ser b)) (max ((Serde.ty α).levels (Serde.ser a)) 0) + 1
      omega) []
    rw [List.append_nil] at this
    simp only [fromBytes, toBytes, this, Option.map]

end Wire

namespace Exec
open Retry Wire

variable {ε μ : Type} [Anyhow ε]

/-- **C88**, what it means for a task: the leader serializes it without an error; the worker refuses the input without calling `execute`, and the leader's job gets a fatal error. -/
theorem C88_task (join : ε) (ops : List (OpDef ε)) (env : BackoffEnv) (fuel : Nat) (k : Serializer) {α Op Out : Type} [Serde α] (hw : (Serde.ty α).WF) (hn : (Serde.ty α).NoNestedOption)
    (name : String) (big und : ε) (opC : Codec ε Op) (outC : Codec ε Out) (execute : Op → α → Nat → Call (OpError ε) Out) {mC : Codec ε μ} {id : U8}
    {t : Task ⟨name, Op, α, Out, opC, .ofSerde α big und, outC, execute⟩ μ} {a : AnyTask} (hop : opC.Lawful)
    (hid : ops[id.1]? = some ⟨name, Op, α, Out, opC, .ofSerde α big und, outC, execute⟩) (ha : asAnyTask mC id .cbor t = .ok a) (hl : 256 < (Serde.ty α).levels (Serde.ser t.input)) :
    ∃ msg, workerBytes join ops env fuel k (toBytes k a) = some (.done (some (t.routingKey, msg))) ∧
      leaderBytes k mC ⟨name, Op, α, Out, opC, .ofSerde α big und, outC, execute⟩ msg = some (.err (Anyhow.msg (toStr ("Fatal operation error: " ++ Anyhow.display und)).1)) := by
  have hdec := fromBytes_toBytes anyTask_wf.1 anyTask_wf.2 k a []
  rw [List.append_nil] at hdec
  have hres : ∀ x : AnyTaskResult, fromBytes k AnyTaskResult (toBytes k x) = some x := by
    intro x; simpa using fromBytes_toBytes anyTaskResult_wf.1 anyTaskResult_wf.2 k x []
  obtain ⟨m, o, i, hm, ho, hi, rfl⟩ := asAnyTask_ok ha
  have hr : fromBytes .cbor α i.1 = none := by
    simp only [Codec.ofSerde] at hi
    split at hi
    · injection hi with hi
      have := C88_cbor_limit (Serde.ty α) hw hn (Serde.ser t.input) hl []
      rw [List.append_nil] at this
      subst hi
      simp only [fromBytes, toBytes, this, Option.map]
    · cases hi
  have hg : ∀ n, getResult join ⟨name, Op, α, Out, opC, .ofSerde α big und, outC, execute⟩ ⟨t.routingKey, m, o, id, i, .cbor⟩ n = some (.error (.fatal und .default)) := by
    intro n
    have h1 : (Codec.ofSerde α big und).dec .cbor i = .err und := by simp only [Codec.ofSerde, hr]
    simp only [getResult, hop _ _ _ ho, h1]
  refine ⟨toBytes k (AnyTaskResult.err (toStr ("Fatal operation error: " ++ Anyhow.display und))), ?_, ?_⟩
  · simp only [workerBytes, hdec, remoteExec, hid, executor, hg, Option.getD]
    rfl
  · simp only [leaderBytes, hres, Option.map, intoTaskResult]

/-- **C88**, and for a result: the worker executes and replies without an error; the leader, who asked for it, cannot read the output. -/
theorem C88_result (join : ε) (ops : List (OpDef ε)) (env : BackoffEnv) (fuel : Nat) (k : Serializer) {β Op In : Type} [Serde β] (hw : (Serde.ty β).WF) (hn : (Serde.ty β).NoNestedOption)
    (name : String) (big und : ε) (opC : Codec ε Op) (inC : Codec ε In) (execute : Op → In → Nat → Call (OpError ε) β) {mC : Codec ε μ} {id : U8}
    {t : Task ⟨name, Op, In, β, opC, inC, .ofSerde β big und, execute⟩ μ} {a : AnyTask} (hop : opC.Lawful) (hin : ∀ b, inC.enc .cbor t.input = .ok b → inC.dec .cbor b = .ok t.input) (hmeta : mC.Lawful)
    (hid : ops[id.1]? = some ⟨name, Op, In, β, opC, inC, .ofSerde β big und, execute⟩) (ha : asAnyTask mC id .cbor t = .ok a) {v : β} (hv : execute t.op t.input 0 = .ok v)
    (hsize : (toBytes .cbor v).length < 2 ^ 64) (hl : 256 < (Serde.ty β).levels (Serde.ser v)) :
    ∃ msg out, workerBytes join ops env fuel k (toBytes k a) = some (.done (some (t.routingKey, msg))) ∧ fromBytes k AnyTaskResult msg = some (.ok out) ∧
      leaderBytes k mC ⟨name, Op, In, β, opC, inC, .ofSerde β big und, execute⟩ msg = some (.err und) := by
  have hdec := fromBytes_toBytes anyTask_wf.1 anyTask_wf.2 k a []
  rw [List.append_nil] at hdec
  have hres : ∀ x : AnyTaskResult, fromBytes k AnyTaskResult (toBytes k x) = some x := by
    intro x; simpa using fromBytes_toBytes anyTaskResult_wf.1 anyTaskResult_wf.2 k x []
  obtain ⟨m, o, i, hm, ho, hi, rfl⟩ := asAnyTask_ok ha
  have hr : fromBytes .cbor β (toBytes .cbor v) = none := by
    have := C88_cbor_limit (Serde.ty β) hw hn (Serde.ser v) hl []
    rw [List.append_nil] at this
    simp only [fromBytes, toBytes, this, Option.map]
  have hg : getResult join ⟨name, Op, In, β, opC, inC, .ofSerde β big und, execute⟩ ⟨t.routingKey, m, o, id, i, .cbor⟩ 0 = some (.ok ⟨toBytes .cbor v, hsize⟩) := by
    have h1 : (Codec.ofSerde β big und).enc .cbor v = .ok ⟨toBytes .cbor v, hsize⟩ := by simp only [Codec.ofSerde, hsize, dite_true]
    simp only [getResult, hop _ _ _ ho, hin _ hi, blocking, hv, h1]
  refine ⟨toBytes k (AnyTaskResult.ok ⟨m, ⟨toBytes .cbor v, hsize⟩, .cbor⟩), _, ?_, hres _, ?_⟩
  · simp only [workerBytes, hdec, remoteExec, hid, executor, hg, remoteExecute, Option.getD]
    rfl
  · simp only [leaderBytes, hres, Option.map, intoTaskResult, hmeta _ _ _ hm]
    simp only [Codec.ofSerde, hr]

end Exec

namespace WireDepthDemo
open Wire Exec Retry

/-- The lists of at most 1000 elements. -/
def Lst := (listTy 1000).den

instance : Serde Lst := ⟨listTy 1000, fun v => v, fun v => v, fun _ => rfl⟩

def deep : Lst := listVal 1000 (sevens 128)
def shallow : Lst := listVal 1000 (sevens 1)

theorem deep_levels : 256 < (Serde.ty Lst).levels (Serde.ser deep) := by
  have h := listVal_levels 1000 (sevens 128) (by rw [sevens_length]; decide)
  rw [sevens_length] at h
  exact h ▸ (by decide)

/-- 256 levels exactly: a list of 127 elements in a pair. -/
example : (Serde.ty (Lst × Lst)).levels (Serde.ser ((listVal 1000 (sevens 127), shallow) : Lst × Lst)) = 256 := by
  have h := listVal_levels 1000 (sevens 127) (by rw [sevens_length]; decide)
  have h' := listVal_levels 1000 (sevens 1) (by rw [sevens_length]; decide)
  rw [sevens_length] at h h'
  change max ((listTy 1000).levels (listVal 1000 (sevens 127))) (max ((listTy 1000).levels (listVal 1000 (sevens 1))) 0) + 1 = 256
  rw [h, h']
  decide

/-- An operation on lists that returns `out`, and a task that gives it `x`. -/
def mk (out : Lst) : OpDef String := ⟨"Id", USz, Lst, Lst, .ofSerde USz "big" "undecodable", .ofSerde Lst "big" "undecodable", .ofSerde Lst "big" "undecodable", fun _ _ _ => .ok out⟩
def task (x out : Lst) : Task (mk out) USz := ⟨⟨"job", by decide +kernel⟩, ⟨7, by decide⟩, (⟨5, by decide⟩ : USz), x⟩

theorem size (l : List (Ty.uint 8).den) (h : l.length ≤ 1000) : (Cbor.enc (listTy 1000) (listVal 1000 l)).length < 2 ^ 64 := by
  rw [listVal_cbor 1000 l h]
  have : ∀ l : List (Ty.uint 8).den, (listCbor l).length ≤ 41 * l.length + 4 := by
    intro l
    induction l with
    | nil => decide
    | cons a l ih =>
      have h2 : (Cbor.enc (.uint 8) a).length ≤ 34 := System.encInt_length _ _
      simp only [listCbor, List.length_append, List.length_cons, List.length_nil]
      omega
  have := this l
  omega

theorem size_deep : (toBytes .cbor deep).length < 2 ^ 64 := size _ (by rw [sevens_length]; decide)
theorem size_shallow : (toBytes .cbor shallow).length < 2 ^ 64 := size _ (by rw [sevens_length]; decide)
theorem size_usz (x : USz) : (toBytes .cbor x).length < 2 ^ 64 := Nat.lt_of_le_of_lt (System.encInt_length false x.1) (by decide)

theorem usz_lawful : (Codec.ofSerde USz "big" "undecodable" : Codec String USz).Lawful := Codec.ofSerde_lawful (α := USz) (by simp [Serde.ty, Ty.WF]) ⟨trivial, by decide⟩ _ _

theorem shallow_back (b : Bytes) (h : (Codec.ofSerde Lst "big" "undecodable" : Codec String Lst).enc .cbor shallow = .ok b) :
    (Codec.ofSerde Lst "big" "undecodable" : Codec String Lst).dec .cbor b = .ok shallow := by
  simp only [Codec.ofSerde, size_shallow, dite_true] at h
  injection h with h
  subst h
  have hl := listVal_levels 1000 (sevens 1) (by rw [sevens_length]; decide)
  have := C88_cbor_partial (Serde.ty Lst) (listTy_wf 1000) (listTy_flat 1000) (Serde.ser shallow) (by rw [sevens_length] at hl; exact hl ▸ (by decide)) []
  rw [List.append_nil] at this
  simp only [Codec.ofSerde, fromBytes, toBytes, this, Option.map, Serde.de_ser]

theorem serialized (x out : Lst) (h : (toBytes .cbor x).length < 2 ^ 64) : asAnyTask (.ofSerde USz "big" "undecodable") ⟨0, by decide⟩ .cbor (task x out) = .ok
    ⟨⟨"job", by decide +kernel⟩, ⟨_, size_usz ⟨7, by decide⟩⟩, ⟨_, size_usz ⟨5, by decide⟩⟩, ⟨0, by decide⟩, ⟨_, h⟩, .cbor⟩ := by
  have h3 := size_usz ⟨7, by decide⟩
  have h4 := size_usz ⟨5, by decide⟩
  simp only [asAnyTask, mk, task, Codec.ofSerde, h, h3, h4, dite_true]

/-- The hypotheses of `C88_task` hold for a deep list: it is serialized, and the worker replies with an error although `execute` succeeds on everything. -/
example (env : BackoffEnv) (fuel : Nat) : ∃ a msg, asAnyTask (.ofSerde USz "big" "undecodable") ⟨0, by decide⟩ .cbor (task deep shallow) = .ok a ∧
    workerBytes "join" [mk shallow] env fuel .postcard (toBytes .postcard a) = some (.done (some (⟨"job", by decide +kernel⟩, msg))) ∧
    leaderBytes .postcard (.ofSerde USz "big" "undecodable") (mk shallow) msg = some (.err "Fatal operation error: undecodable") := by
  obtain ⟨msg, h1, h2⟩ := C88_task "join" [mk shallow] env fuel .postcard (α := Lst) (listTy_wf 1000) (listTy_flat 1000) "Id" "big" "undecodable" (.ofSerde USz "big" "undecodable")
    (.ofSerde Lst "big" "undecodable") (fun _ _ _ => .ok shallow) (mC := .ofSerde USz "big" "undecodable") (id := ⟨0, by decide⟩) (t := task deep shallow) usz_lawful rfl
    (serialized deep shallow size_deep) deep_levels
  refine ⟨_, msg, serialized deep shallow size_deep, h1, h2.trans ?_⟩
  have e : (toStr ("Fatal operation error: " ++ "undecodable")).1 = "Fatal operation error: undecodable" := by decide +kernel
  exact congrArg (fun s : String => some (Call.err s)) e

/-- Those of `C88_result` hold for an operation that returns one: the worker replies with a result, and the leader reads an error. -/
example (env : BackoffEnv) (fuel : Nat) : ∃ a msg out, asAnyTask (.ofSerde USz "big" "undecodable") ⟨0, by decide⟩ .cbor (task shallow deep) = .ok a ∧
    workerBytes "join" [mk deep] env fuel .postcard (toBytes .postcard a) = some (.done (some (⟨"job", by decide +kernel⟩, msg))) ∧
    fromBytes .postcard AnyTaskResult msg = some (.ok out) ∧ leaderBytes .postcard (.ofSerde USz "big" "undecodable") (mk deep) msg = some (.err "undecodable") := by
  obtain ⟨msg, out, h1, h2, h3⟩ := C88_result "join" [mk deep] env fuel .postcard (β := Lst) (listTy_wf 1000) (listTy_flat 1000) "Id" "big" "undecodable" (.ofSerde USz "big" "undecodable")
    (.ofSerde Lst "big" "undecodable") (fun _ _ _ => .ok deep) (mC := .ofSerde USz "big" "undecodable") (id := ⟨0, by decide⟩) (t := task shallow deep) usz_lawful shallow_back usz_lawful rfl
    (serialized shallow deep size_shallow) (v := deep) rfl size_deep deep_levels
  exact ⟨_, msg, out, serialized shallow deep size_shallow, h1, h2, h3⟩

end WireDepthDemo
end Paladin
