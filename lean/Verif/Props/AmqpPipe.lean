import Verif.Proofs.AmqpPipe
import Verif.Props.Hello
/-! # C81: chained directives, and the example program `hello-world-rabbitmq`, as bytes on an AMQP broker, and in memory -/
namespace Paladin
namespace SystemAmqp
open Retry Exec Wire System

theorem step_lead_none {κ : Type} {σ : κ → Type} {ℓ : κ → Type} {T O ε χ ω : Type} [DecidableEq κ] {cl : (j : κ) → Client (σ j) (ℓ j) T (Except ε O)} {listens : (j : κ) → σ j → Bool} {nt : Net κ}
    {cfg : Worker.Cfg κ} {exec : ω → T → Except (OpError χ) O} {text : OpError χ → ε} {s : St κ σ T O ε χ} {j : κ} {l : ℓ j} (h : (cl j).step (s.lead j) l [] = none) :
    step (ω := ω) cl listens nt cfg exec text s (.lead j l) = none := by
  simp only [step, h]

theorem split_foldAny {α' ε' ω' : Type} {ls : List (Fold.Label α' ε' ω')} {pre post : List (Fold.Label α' ε' ω')} (h : ls.map foldAny = pre ++ .inputEnd :: post) :
    ∃ pre' post', ls = pre' ++ .inputEnd :: post' ∧ Fold.recvs pre' = Fold.recvs pre := by
  rw [List.map_eq_append_iff] at h
  obtain ⟨pre', rest', e1, rfl, e2⟩ := h
  rw [List.map_eq_cons_iff] at e2
  obtain ⟨l0, post', rfl, e3, rfl⟩ := e2
  have e4 : l0 = .inputEnd := by cases l0 <;> simp [foldAny] at e3 <;> rfl
  subst e4
  exact ⟨pre', post', e1, (recvs_foldAny pre').symm⟩

section
variable {ε A B X : Type} [DecidableEq A] [DecidableEq B] [Anyhow ε] {join dupErr : ε} {ops : List (OpDef ε)} {k kt : Serializer} {M : A → MapJob ε} {F : B → FoldJob ε}
  {nt : Net (A ⊕ B)} {cfg : Worker.Cfg (A ⊕ B)}

/-- **C81, fold.** Leaders and workers exchange bytes through an AMQP broker. If `IndexedStream::from(xs).map(op₁)…map(opₙ).fold(op)` returns `Ok v`, then `v` is an in-order combination of one output for each element of
`xs` (or `empty()`), whatever else runs on the same broker, also if connections are lost, messages are delivered again and workers stop. -/
theorem C81_fold (b : B) (ls) (s) (h : bytesRun join dupErr ops k kt M F nt cfg ls = some s) (xs : List X) (as : List A) (R : X → (F b).Elem → Prop)
    (items : List (MapS.Item (F b).Elem ε)) (en : Bool) (hp : Pipeline (fun a => (M a).Gives) ls s xs as (F b).Elem R items en) (hfeed : Fold.Feeds (foldSteps ls b) items en)
    (hreg : ∀ a ∈ as, Registered ops (M a).d (M a).id) (hc : ∀ a ∈ as, ∀ l ∈ mapSteps ls a, l.connected = true) (hregF : Registered ops (F b).d (F b).id)
    (v : (F b).Elem) (hv : (foldOf s b).outcome = some (.ok v)) :
    ∃ ys, List.Forall₂ R xs ys ∧ ((ys = [] ∧ v = (F b).empty) ∨ Tree (F b).Gives ys v) := by
  obtain ⟨bs, u, h1, h2, h3, -⟩ := view ls s h
  have e : (System.foldSteps bs b).map foldAny = foldSteps ls b := h3 (.inr b)
  exact C75_fold_bytes b bs u h1 xs as R items en (pipeline_sys h2 h3 hp) (feeds_foldAny (by rw [e]; exact hfeed)) hreg
    (fun a ha => steps_map h3 (P := fun l => l.connected = true) (fun l hl => by rw [← connected_mapAny]; exact hl) (hc a ha)) hregF v (by rw [System.foldOf, h2]; exact hv)

/-- **C81, `into_values_sorted`.** If `IndexedStream::from(xs).map(op₁)…map(opₙ).into_values_sorted()` returns `Ok vs` and no task of these maps was received by two workers, then `vs` holds one output for each element of
`xs`, in the order of `xs`. -/
theorem C81_sorted (ls) (s) (h : bytesRun join dupErr ops k kt M F nt cfg ls = some s) (xs : List X) (as : List A) (Y : Type) (R : X → Y → Prop)
    (items : List (MapS.Item Y ε)) (en : Bool) (hp : Pipeline (fun a => (M a).Gives) ls s xs as Y R items en) (hreg : ∀ a ∈ as, Registered ops (M a).d (M a).id)
    (hc : ∀ a ∈ as, ∀ l ∈ mapSteps ls a, l.connected = true) (hn : ∀ a ∈ as, ¬ TaskTwice s (.inl a)) (vs : List Y) (hv : MapS.Collects items en (.ok vs)) :
    List.Forall₂ R xs vs := by
  obtain ⟨bs, u, h1, h2, h3, h4⟩ := view ls s h
  exact C75_sorted_bytes bs u h1 xs as Y R items en (pipeline_sys h2 h3 hp) hreg
    (fun a ha => steps_map h3 (P := fun l => l.connected = true) (fun l hl => by rw [← connected_mapAny]; exact hl) (hc a ha)) (fun a ha => h4 _ (hn a ha)) vs hv

/-- **C81, completion (partial).** Missing: the fold sees the end of its input only after all its results came (then it hangs, C08). The maps and the fold of a pipeline run beside other jobs. No connection was closed, no message lost,
and workers of `W` consume from the bus (`Attended`). The operations are registered and do not fail, and what is sent can be serialized. When neither the workers, nor the broker, nor the leaders of this pipeline can do anything more, where
a task that polls an empty consumer sleeps until a message arrives, then the pipeline has returned an in-order combination of one output for each element of its input. -/
theorem C81_fold_completes_partial (b : B) (ls) (s) (h : bytesRun join dupErr ops k kt M F nt cfg ls = some s) (W : Nat → Bool)
    (hst : ∀ l ∈ ls, l.steady W = true) (xs : List X) (as : List A) (R : X → (F b).Elem → Prop) (items : List (MapS.Item (F b).Elem ε)) (en : Bool)
    (hat : ∀ j, (j = .inr b ∨ ∃ a ∈ as, j = .inl a) → Attended SystemMem.dirListens W j s)
    (hp : Drained (fun a => (M a).Gives) ls s xs as (F b).Elem R items en) (hsz : xs.length ≤ 2 ^ 64)
    (hreg : ∀ a ∈ as, Registered ops (M a).d (M a).id) (hrel : ∀ a ∈ as, ∀ l ∈ mapSteps ls a, l.reliable = true)
    (hok : ∀ a ∈ as, ∀ p ∈ MapS.inputs (mapSteps ls a), ∀ i, ∃ v b, (M a).d.execute (M a).op p.2 i = .ok v ∧ (M a).d.outC.enc kt v = .ok b)
    (hidx : ∀ a ∈ as, ∀ p ∈ MapS.inputs (mapSteps ls a), p.1 < 2 ^ 64 ∧ ∃ b, (M a).d.inC.enc kt p.2 = .ok b) (hopenc : ∀ a ∈ as, ∃ b, (M a).d.opC.enc kt (M a).op = .ok b)
    (hregF : Registered ops (F b).d (F b).id) (hrelF : ∀ l ∈ foldSteps ls b, l.reliable = true)
    (hokF : ∀ ys, List.Forall₂ R xs ys → ∀ t, Fold.Asked (F b).Gives (indexed 0 ys) t → ∀ i, ∃ v c, (F b).combine (F b).op t.a t.b i = .ok v ∧ (F b).elemC.enc kt v = .ok c)
    (hencF : ∀ ys, List.Forall₂ R xs ys → ∀ t, Fold.Asked (F b).Gives (indexed 0 ys) t → ∃ c, (F b).pairC.enc kt (t.a, t.b) = .ok c)
    (hopencF : ∃ c, (F b).opC.enc kt (F b).op = .ok c)
    (hreads : Fold.reads (foldSteps ls b) = items) (pre post : List (Fold.Label (F b).Elem ε Circ)) (hsplit : foldSteps ls b = pre ++ .inputEnd :: post)
    (hrc : xs.length ≤ 1 ∨ Fold.recvs pre + 1 < xs.length) (K : A ⊕ B → Bool) (hK : ∀ j, K j = true ↔ (j = .inr b ∨ ∃ a ∈ as, j = .inl a))
    (hrest : ∀ l, l.moves W K (dirInternal K) = true → bytesStep join dupErr ops k kt M F nt cfg s l = none) :
    ∃ v ys, (foldOf s b).outcome = some (.ok v) ∧ List.Forall₂ R xs ys ∧ ((ys = [] ∧ v = (F b).empty) ∨ Tree (F b).Gives ys v) := by
  obtain ⟨bs, u, h1, h2, h3, h4, h5, h6, h7, h8⟩ := view_rest ls s h W hst K (.inr b) ((hK _).2 (.inl rfl)) (fun j hj => hat j ((hK j).1 hj)) hrest
  have e : (System.foldSteps bs b).map foldAny = foldSteps ls b := h3 (.inr b)
  have em : ∀ a, (System.mapSteps bs a).map mapAny = mapSteps ls a := fun a => h3 (.inl a)
  obtain ⟨pre', post', e1, e2⟩ := split_foldAny (e.trans hsplit)
  have key := C75_fold_complete_bytes_partial b bs u h1 W h4 h5 xs as R items en (drained_sys h2 h3 hp) hsz hreg
    (fun a ha => steps_map h3 (P := fun l => l.reliable = true) (fun l hl => by rw [← reliable_mapAny]; exact hl) (hrel a ha))
    (fun a ha p hp => hok a ha p (by rw [← em, inputs_mapAny]; exact hp)) (fun a ha p hp => hidx a ha p (by rw [← em, inputs_mapAny]; exact hp)) hopenc hregF
    (steps_fold h3 (P := fun l => l.reliable = true) (fun l hl => by rw [← reliable_foldAny]; exact hl) hrelF) hokF hencF hopencF (by rw [← reads_foldAny, e]; exact hreads) pre' post' e1
    (by rw [e2]; exact hrc) h6 (fun a ha => h7 a ((hK _).2 (.inr ⟨a, ha, rfl⟩))) (h8 b ((hK _).2 (.inl rfl)))
  rw [System.foldOf, h2] at key
  exact key
end

section
variable {ε L : Type} [DecidableEq L] [Anyhow ε] {join dupErr : ε} {ops : List (OpDef ε)} {k kt : Serializer} {flag : Nat → Nat → Bool} {dbg : Char → String} {keyM keyF : L → Str} {idM idF : U8}
  {nt : Net (L ⊕ L)} {cfg : Worker.Cfg (L ⊕ L)}
open Hello

theorem runs_sys {l : L} {input : String} {ls} {s} {bs} {u} (h2 : u.lead = s.lead) (h3 : ∀ j, (System.Label.leads j bs).map (dirAny j) = Label.leads j ls)
    (hr : Runs (ε := ε) l input flag dbg keyM keyF idM idF ls s) : Hello.Runs (ε := ε) l input flag dbg keyM keyF idM idF bs u := by
  have e : (System.foldSteps bs l).map foldAny = foldSteps ls l := h3 (.inr l)
  have em : (System.mapSteps bs l).map mapAny = mapSteps ls l := h3 (.inl l)
  refine ⟨feeds_mapAny (by rw [em]; exact hr.mapped), feeds_foldAny (by rw [e, System.mapOf, h2]; exact hr.folded)⟩

/-- **C81, the example, value.** Leaders of `hello-world-rabbitmq` and workers exchange bytes through an AMQP broker. Whenever the computation of a leader returns `Ok`, it returns the leader's input, also if workers lose their
connections, tasks are executed several times, and other leaders share the workers. -/
theorem C81_hello_value (l : L) (input : String) (hM : ops[idM.1]? = some (charOp flag dbg)) (hF : ops[idF.1]? = some concatOp) (ls) (s)
    (h : helloRun join dupErr ops k kt flag dbg keyM keyF idM idF nt cfg ls = some s) (hr : Runs l input flag dbg keyM keyF idM idF ls s)
    (hc : ∀ x ∈ mapSteps ls l, x.connected = true) (v : Str) (hv : (foldOf s l).outcome = some (.ok v)) : v.1 = input := by
  obtain ⟨bs, u, h1, h2, h3, -⟩ := view ls s h
  exact C76_value l input hM hF bs u h1 (runs_sys h2 h3 hr)
    (steps_map h3 (P := fun l => l.connected = true) (fun l hl => by rw [← connected_mapAny]; exact hl) hc) v (by rw [System.foldOf, h2]; exact hv)

/-- **C81, the example, the assertion.** The `assert_eq!` at the end of a leader's `main` never fails. -/
theorem C81_hello_assert (l : L) (input : String) (hM : ops[idM.1]? = some (charOp flag dbg)) (hF : ops[idF.1]? = some concatOp) (ls) (s)
    (h : helloRun join dupErr ops k kt flag dbg keyM keyF idM idF nt cfg ls = some s) (hr : Runs l input flag dbg keyM keyF idM idF ls s)
    (hc : ∀ x ∈ mapSteps ls l, x.connected = true) (o : Fold.Outcome Str ε) (ho : (foldOf s l).outcome = some o) (close : Except ε Unit) : exit input o close ≠ .assertFailed := by
  obtain ⟨bs, u, h1, h2, h3, -⟩ := view ls s h
  exact C76_assert l input hM hF bs u h1 (runs_sys h2 h3 hr)
    (steps_map h3 (P := fun l => l.connected = true) (fun l hl => by rw [← connected_mapAny]; exact hl) hc) o (by rw [System.foldOf, h2]; exact ho) close

/-- **C81, the example, panics.** The computation of a leader panics only if the leader's connection for the fold's results is gone. -/
theorem C81_hello_no_panic (l : L) (input : String) (hM : ops[idM.1]? = some (charOp flag dbg)) (hF : ops[idF.1]? = some concatOp) (ls) (s)
    (h : helloRun join dupErr ops k kt flag dbg keyM keyF idM idF nt cfg ls = some s) (hr : Runs l input flag dbg keyM keyF idM idF ls s)
    (hc : ∀ x ∈ mapSteps ls l, x.connected = true) (hv : (foldOf s l).outcome = some .panic) : .disconnect ∈ foldSteps ls l := by
  obtain ⟨bs, u, h1, h2, h3, -⟩ := view ls s h
  have e : (System.foldSteps bs l).map foldAny = foldSteps ls l := h3 (.inr l)
  rw [← e, mem_foldAny _ _ (by simp)]
  exact C76_no_panic l input hM hF bs u h1 (runs_sys h2 h3 hr)
    (steps_map h3 (P := fun l => l.connected = true) (fun l hl => by rw [← connected_mapAny]; exact hl) hc) (by rw [System.foldOf, h2]; exact hv)

/-- **C81, the example, errors.** If the computation of a leader returns an error, it is one of its own: the leader's connection or runtime failed; or an abort request hit one of its own tasks, and then the
text names the character and the iteration; or "final result tx taken", and then two workers received the same task of this leader. -/
theorem C81_hello_errors (l : L) (input : String) (hin : input.utf8ByteSize < 2 ^ 63) (hdbg : ∀ c, (dbg c).utf8ByteSize ≤ 12) (hM : ops[idM.1]? = some (charOp flag dbg))
    (hF : ops[idF.1]? = some concatOp) (ls) (s) (h : helloRun join dupErr ops k kt flag dbg keyM keyF idM idF nt cfg ls = some s) (hr : Runs l input flag dbg keyM keyF idM idF ls s)
    (hc : ∀ x ∈ mapSteps ls l, x.connected = true) (e : ε) (he : (foldOf s l).outcome = some (.err e)) :
    (∃ x ∈ mapSteps ls l, x.failure = some e) ∨ .ioErr e ∈ foldSteps ls l ∨
    (∃ c ∈ input.toList, ∃ m i, 1 ≤ i ∧ i ≤ 9 ∧ flag m i = true ∧
      e = Anyhow.msg ("Fatal operation error: aborted per request at CharToString iteration " ++ toString i ++ " for input " ++ dbg c)) ∨
    e = dupErr ∧ (TaskTwice s (.inl l) ∨ TaskTwice s (.inr l)) := by
  obtain ⟨bs, u, h1, h2, h3, h4⟩ := view ls s h
  have ef : (System.foldSteps bs l).map foldAny = foldSteps ls l := h3 (.inr l)
  have em : (System.mapSteps bs l).map mapAny = mapSteps ls l := h3 (.inl l)
  rcases C76_errors l input hin hdbg hM hF bs u h1 (runs_sys h2 h3 hr)
    (steps_map h3 (P := fun l => l.connected = true) (fun l hl => by rw [← connected_mapAny]; exact hl) hc) e (by rw [System.foldOf, h2]; exact he) with ⟨x, hx, hxe⟩ | hio | hab | ⟨hd, hret⟩
  · exact .inl ⟨mapAny x, by rw [← em]; exact List.mem_map.2 ⟨x, hx, rfl⟩, by rw [failure_mapAny]; exact hxe⟩
  · exact .inr (.inl (by rw [← ef, mem_foldAny _ _ (by simp)]; exact hio))
  · exact .inr (.inr (.inl hab))
  · refine .inr (.inr (.inr ⟨hd, Classical.byContradiction fun hno => hret ?_⟩))
    rw [not_or] at hno
    exact ⟨h4 _ hno.1, h4 _ hno.2⟩

/-- **C81, the example, completion (partial).** Missing: the fold sees the end of the map's stream only after all its results came (then the leader hangs, C76). The leader's map and fold run on an AMQP broker beside those of other leaders. No
connection was closed, no message lost, workers of `W` consume from the bus (`Attended`), and nobody asks to abort. When neither the workers, nor the broker, nor this leader can do anything more, then `main` ends with `Ok(())`. -/
theorem C81_hello_completes_partial (l : L) (input : String) (hin : input.utf8ByteSize < 2 ^ 63) (hflag : ∀ m i, flag m i = false) (hM : ops[idM.1]? = some (charOp flag dbg))
    (hF : ops[idF.1]? = some concatOp) (ls) (s) (h : helloRun join dupErr ops k kt flag dbg keyM keyF idM idF nt cfg ls = some s) (W : Nat → Bool)
    (hst : ∀ x ∈ ls, x.steady W = true) (hatM : Attended SystemMem.dirListens W (.inl l) s) (hatF : Attended SystemMem.dirListens W (.inr l) s)
    (hrelM : ∀ x ∈ mapSteps ls l, x.reliable = true) (hrelF : ∀ x ∈ foldSteps ls l, x.reliable = true)
    (hreadM : MapS.reads (mapSteps ls l) = (indexed 0 input.toList).map .ok) (hendM : .inputEnd ∈ mapSteps ls l)
    (hreadF : Fold.reads (foldSteps ls l) = (mapOf s l).outs) (pre post : List (Fold.Label Str ε Circ)) (hsplit : foldSteps ls l = pre ++ .inputEnd :: post)
    (hrc : input.length ≤ 1 ∨ Fold.recvs pre + 1 < input.length) (K : L ⊕ L → Bool) (hK : ∀ j, K j = true ↔ j = .inl l ∨ j = .inr l)
    (hrest : ∀ x, x.moves W K (dirInternal K) = true →
      bytesStep join dupErr ops k kt (fun l => mapJob flag dbg (keyM l) idM) (fun l => foldJob (keyF l) idF) nt cfg s x = none) :
    ∃ o, (foldOf s l).outcome = some o ∧ exit input o (.ok ()) = .ok := by
  obtain ⟨bs, u, h1, h2, h3, h4, h5, h6, h7, h8⟩ := view_rest ls s h W hst K (.inr l) ((hK _).2 (.inr rfl))
    (fun j hj => by rcases (hK j).1 hj with rfl | rfl <;> assumption) hrest
  have e : (System.foldSteps bs l).map foldAny = foldSteps ls l := h3 (.inr l)
  have em : (System.mapSteps bs l).map mapAny = mapSteps ls l := h3 (.inl l)
  obtain ⟨pre', post', e1, e2⟩ := split_foldAny (e.trans hsplit)
  have key := C76_completes_partial l input hin hflag hM hF bs u h1 W h4 h5
    (steps_map h3 (P := fun l => l.reliable = true) (fun l hl => by rw [← reliable_mapAny]; exact hl) hrelM)
    (steps_fold h3 (P := fun l => l.reliable = true) (fun l hl => by rw [← reliable_foldAny]; exact hl) hrelF)
    (by rw [← reads_mapAny, em]; exact hreadM) (by rw [← inputEnd_mapAny, em]; exact hendM) (by rw [← reads_foldAny, e, System.mapOf, h2]; exact hreadF) pre' post' e1
    (by rw [e2]; exact hrc) h6 (h7 l ((hK _).2 (.inl rfl))) (h8 l ((hK _).2 (.inr rfl)))
  rw [System.foldOf, h2] at key
  exact key
end
namespace HelloDemo
open Hello Hello.HelloDemo

abbrev ALab := Label (Bool ⊕ Bool) (DirLabel (fun _ : Bool => Char) (fun _ : Bool => Str) String Circ) Buf Buf String String Circ
abbrev mapA (b : Bool) (l : MapS.Label Char String Circ) : ALab := .lead (.inl b) l
abbrev foldA (b : Bool) (l : Fold.Label Str String Circ) : ALab := .lead (.inr b) l

/-- The leaders are in one process, the workers 0 and 1 in two others; one unsettled message for each consumer. -/
def nt : Net (Bool ⊕ Bool) := ⟨fun w => w + 1, fun _ => 0, 1⟩

abbrev goA (ls : List ALab) := helloRun "join" "twice" (ops never) .cbor .postcard never dbg keyM keyF idM idF nt cfg ls

def make (conn k : Nat) (c : Amqp.Call (Name (Bool ⊕ Bool)) (Payload (Bool ⊕ Bool) Buf Buf String)) : List ALab := [.net (.begin conn c), .net (.exec k), .net (.exec k)]

/-- Queues and consumers: of the bus for both workers, of the map and of the fold of leader `true`. -/
def setUp : List ALab :=
  make 0 0 (.declareQueue .bus Amqp.ChannelType.exactlyOnce.options) ++ make 0 1 (.declareQueue (.job (.inl true)) Amqp.ChannelType.exactlyOnce.options) ++
  make 0 2 (.declareQueue (.job (.inr true)) Amqp.ChannelType.exactlyOnce.options) ++
  make 1 3 (.declareConsumer .bus) ++ make 2 4 (.declareConsumer .bus) ++ make 0 5 (.declareConsumer (.job (.inl true))) ++ make 0 6 (.declareConsumer (.job (.inr true))) ++
  [.attach (.worker 0) 0, .attach (.worker 1) 1, .attach (.job (.inl true)) 2, .attach (.job (.inr true)) 3]

def serveA (w m : Nat) : List ALab :=
  [.work w .checkFlag, .work w .checkTerm, .work w .start, .finish w (env m), .work w .pubOk, .work w .ack, .work w .settled]

/-- Leader `true` computes `"aé"` on the workers 0 and 1. The characters come back in the other order. -/
def calmA : List ALab :=
  setUp ++ [.sleep (.worker 0), .sleep (.worker 1), mapA true (.item 0 'a'), mapA true (.send 0), mapA true .confirm, mapA true (.item 1 'é'), mapA true (.send 0), mapA true .confirm, mapA true .inputEnd,
    .net (.deliver 0), .net (.deliver 1), .deliver 0, .deliver 1] ++ serveA 1 2 ++ serveA 0 0 ++
  [.sleep (.worker 0), .sleep (.worker 1), .net (.deliver 2), .recv (.inl true) (.recv 0), .ackRes (.inl true), foldA true (.item 1 (charStr 'é')), .net (.deliver 2), .recv (.inl true) (.recv 0), .ackRes (.inl true),
    mapA true .recvEnd, mapA true .finish, foldA true (.item 0 (charStr 'a')), foldA true (.publish 0), foldA true .inputEnd, .net (.deliver 1), .deliver 1] ++ serveA 1 3 ++
  [.sleep (.worker 1), .net (.deliver 3), .recv (.inr true) (.recv 0), .ackRes (.inr true), foldA true .finish]

theorem calmA_some : (goA calmA).isSome = true := by decide +kernel
def restA := (goA calmA).get calmA_some


theorem goA_calmA : goA calmA = some restA := by simp [restA]

instance : DecidableEq (mapJob (ε := String) f dbg key i).d.Out := inferInstanceAs (DecidableEq Str)
instance : DecidableEq (foldJob (ε := String) key i).Elem := inferInstanceAs (DecidableEq Str)

theorem restA_ended : (mapOf restA true).ended = true := by decide +kernel
theorem restA_outs : (mapOf restA true).outs = [.ok (1, charStr 'é'), .ok (0, charStr 'a')] := by decide +kernel
theorem restA_folded : (foldOf restA true).outcome = some (.ok (⟨"aé", by decide +kernel⟩ : Str)) := by decide +kernel
theorem restA_waiting : (restA.worker 0).pc = .waiting ∧ (restA.worker 1).pc = .waiting := by decide +kernel
theorem restA_next : (restA.next nt.prefetch (.worker 0)).isNone = true ∧ (restA.next nt.prefetch (.worker 1)).isNone = true ∧ (restA.next nt.prefetch (.job (.inl true))).isNone = true ∧
    (restA.next nt.prefetch (.job (.inr true))).isNone = true := by decide +kernel
theorem restA_ties : restA.net.closed = [] ∧ restA.net.lost = [] ∧ restA.net.unroutable = [] ∧ restA.ties.lookup (.worker 0) = some 0 ∧ restA.ties.lookup (.worker 1) = some 1 ∧
    restA.ties.lookup (.job (.inl true)) = some 2 ∧ restA.ties.lookup (.job (.inr true)) = some 3 := by decide +kernel
theorem restA_consumers : restA.net.consumers = [⟨1, 0, false, [], [], [], [], true, false⟩, ⟨2, 0, false, [], [], [], [], true, false⟩, ⟨0, 1, false, [], [], [], [], true, false⟩, ⟨0, 2, false, [], [], [], [], true, false⟩] := by
  decide +kernel
theorem restA_queues : restA.net.queues.map (fun q => (q.name, q.present, q.ready)) = [(.bus, true, []), (.job (.inl true), true, []), (.job (.inr true), true, [])] := by decide +kernel
theorem restA_listens : SystemMem.dirListens (.inl true) (restA.lead (.inl true)) = false ∧ SystemMem.dirListens (.inr true) (restA.lead (.inr true)) = false := by decide +kernel

/-- The leader of interest. -/
def mine : Bool ⊕ Bool → Bool
  | .inl b | .inr b => b

theorem mine_iff (j : Bool ⊕ Bool) : mine j = true ↔ j = .inl true ∨ j = .inr true := by rcases j with (_ | _) | (_ | _) <;> simp [mine]

theorem restA_consumes (k : Nat) (name : Name (Bool ⊕ Bool)) (h : Consumes restA.net k name) :
    (k = 0 ∨ k = 1) ∧ name = .bus ∨ k = 2 ∧ name = .job (.inl true) ∨ k = 3 ∧ name = .job (.inr true) := by
  obtain ⟨c, q, h1, h2, h3⟩ := h
  rw [restA_consumers] at h1
  have hq := congrArg (fun l => l[c.inst]?) restA_queues
  simp only [List.getElem?_map, h2, Option.map_some, h3] at hq
  match k with
  | 0 => cases h1; exact .inl ⟨.inl rfl, (Prod.mk.inj (Option.some.inj hq)).1⟩
  | 1 => cases h1; exact .inl ⟨.inr rfl, (Prod.mk.inj (Option.some.inj hq)).1⟩
  | 2 => cases h1; exact .inr (.inl ⟨rfl, (Prod.mk.inj (Option.some.inj hq)).1⟩)
  | 3 => cases h1; exact .inr (.inr ⟨rfl, (Prod.mk.inj (Option.some.inj hq)).1⟩)
  | k + 4 => cases h1

theorem restA_attended (j : Bool ⊕ Bool) (hj : j = .inl true ∨ j = .inr true) : Attended SystemMem.dirListens (fun w => decide (w < 2)) j restA := by
  obtain ⟨t1, t2, t3, t4, t5, t6, t7⟩ := restA_ties
  refine ⟨t1, fun m g _ _ => ⟨by simp [t2], by simp [t3]⟩, fun k hk => ?_, ⟨0, rfl, ?_⟩, fun k hk => ?_, ?_⟩
  · rcases restA_consumes k _ hk with ⟨rfl | rfl, -⟩ | ⟨-, h⟩ | ⟨-, h⟩
    · exact ⟨0, rfl, t4⟩
    · exact ⟨1, rfl, t5⟩
    · cases h
    · cases h
  · have hq := congrArg (fun l => l[0]?) restA_queues
    simp only [List.getElem?_map] at hq
    cases h0 : restA.net.queues[0]? with
    | none => simp [h0] at hq
    | some q =>
      rw [h0] at hq
      cases q
      simp at hq
      exact ⟨0, _, _, t4, by rw [restA_consumers]; rfl, rfl, h0, hq.2.1⟩
  · rcases restA_consumes k _ hk with ⟨-, h⟩ | ⟨rfl, h⟩ | ⟨rfl, h⟩
    · cases h
    · cases h; exact t6
    · cases h; exact t7
  · rcases hj with rfl | rfl
    · simp [restA_listens.1]
    · simp [restA_listens.2]

/-- At the end nothing more can happen at the workers 0 and 1, the broker, and leader `true`. -/
theorem restA_stuck (l : ALab) (hl : l.moves (fun w => decide (w < 2)) mine (dirInternal mine) = true) :
    bytesStep "join" "twice" (ops never) .cbor .postcard (fun l => mapJob never dbg (keyM l) idM) (fun l => foldJob (keyF l) idF) nt cfg restA l = none := by
  obtain ⟨t1, t2, t3, t4, t5, t6, t7⟩ := restA_ties
  obtain ⟨n1, n2, n3, n4⟩ := restA_next
  simp only [Option.isNone_iff_eq_none] at n1 n2 n3 n4
  have hpc : ∀ w, decide (w < 2) = true → (restA.worker w).pc = .waiting ∧ restA.next nt.prefetch (.worker w) = none := by
    intro w hw
    have : w = 0 ∨ w = 1 := by simp at hw; omega
    rcases this with rfl | rfl
    · exact ⟨restA_waiting.1, n1⟩
    · exact ⟨restA_waiting.2, n2⟩
  have hres : ∀ j, mine j = true → restA.next nt.prefetch (.job j) = none ∧ ∃ k c, restA.consumer (.job j) = some (k, c) ∧ c.held = [] := by
    intro j hj
    rcases (mine_iff j).1 hj with rfl | rfl
    · exact ⟨n3, 2, ⟨0, 1, false, [], [], [], [], true, false⟩, by simp only [St.consumer, t6, restA_consumers]; rfl, rfl⟩
    · exact ⟨n4, 3, ⟨0, 2, false, [], [], [], [], true, false⟩, by simp only [St.consumer, t7, restA_consumers]; rfl, rfl⟩
  have hint : ∀ j l, dirInternal (α := fun _ : Bool => Char) (γ := fun _ : Bool => Str) (ε := String) (ω := Circ) mine j l = true → mine j = true := by
    intro j l
    cases j <;> simp only [dirInternal, Bool.and_eq_true] <;> exact fun h => h.1
  cases l with
  | lead j l =>
    have hj := hint j l hl
    apply step_lead_none
    rcases (mine_iff j).1 hj with rfl | rfl
    · have he := restA_ended
      have : (mapClient ((mapJob never dbg (keyM true) idM).run "join" .cbor .postcard) (encMap .cbor .postcard (mapJob never dbg (keyM true) idM)) (decMap .cbor (mapJob never dbg (keyM true) idM))).step
          (mapOf restA true) l [] = none := by
        simp [mapClient, MapS.step, he]
      exact this
    · have he := restA_folded
      have : (foldClient ((foldJob (keyF true) idF).run "join" .cbor .postcard) (foldJob (ε := String) (keyF true) idF).empty "twice" (encFold .cbor .postcard (foldJob (keyF true) idF))
          (decFold .cbor (foldJob (keyF true) idF))).step (foldOf restA true) l [] = none := by
        simp [foldClient, Fold.step, he]
      exact this
  | recv j l => simp only [bytesStep, step, (hres j (hint j l hl)).1]
  | sleep o => cases hl
  | ackRes j =>
    obtain ⟨k, c, h1, h2⟩ := (hres j hl).2
    simp only [bytesStep, step, h1, h2]
  | deliver w => simp only [bytesStep, step, (hpc w hl).2]
  | finish w x =>
    have := (hpc w hl).1
    simp only [bytesStep, step]
    split
    · simp [Worker.step, this]
    · rfl
  | work w l =>
    have hl' : decide (w < 2) = true ∧ routine l = true := by simpa [Label.moves] using hl
    have := (hpc w hl'.1).1
    cases l <;> first | (simp [routine] at hl'; done) | simp [bytesStep, step, Worker.step, this]
  | attach o k => cases hl
  | net l =>
    cases l <;> try cases hl
    rename_i k
    have hready : ∀ (i : Nat) (q : Amqp.Queue (Name (Bool ⊕ Bool))), restA.net.queues[i]? = some q → q.ready = [] := by
      intro i q hq
      have := congrArg (fun l => l[i]?) restA_queues
      simp only [List.getElem?_map, hq, Option.map_some] at this
      match i with
      | 0 | 1 | 2 => exact (Prod.mk.inj (Prod.mk.inj (Option.some.inj this)).2).2
      | i + 3 => cases this
    have hd : Amqp.step (V := Payload (Bool ⊕ Bool) Buf Buf String) some nt.prefetch restA.net (.deliver k) = none := by
      simp only [Amqp.step]
      split
      · rfl
      · split
        · split
          · rfl
          · rename_i hq
            rw [hready _ _ hq]
        · rfl
    simp only [bytesStep, step, hd, Option.map_none, ite_self]

/-- Hypotheses of C81: `calmA`. -/
theorem calmA_runs : Runs true "aé" never dbg keyM keyF idM idF calmA restA := by
  refine ⟨?_, ?_⟩
  · exact ⟨by rw [show ("aé" : String).toList = ['a', 'é'] by decide +kernel]; exact List.prefix_refl _, fun _ => ⟨rfl, by rw [show ("aé" : String).toList = ['a', 'é'] by decide +kernel]; rfl⟩⟩
  · rw [restA_outs, restA_ended]
    exact ⟨List.prefix_refl _, fun _ => ⟨rfl, rfl⟩⟩

theorem calmA_steady : ∀ x ∈ calmA, x.steady (fun w => w < 2) = true := by decide +kernel

theorem calmA_end : .inputEnd ∈ mapSteps calmA true := by
  change MapS.Label.inputEnd ∈ ([.item 0 'a', .send 0, .confirm, .item 1 'é', .send 0, .confirm, .inputEnd, .recv 0, .recv 0, .recvEnd, .finish] : List (MapS.Label Char String Circ))
  simp

/-- `C81_hello_value` at the end of `calmA`. -/
example : (⟨"aé", by decide +kernel⟩ : Str).1 = "aé" :=
  C81_hello_value true "aé" rfl rfl calmA restA goA_calmA calmA_runs (by decide +kernel) _ restA_folded

/-- Hypotheses of `C81_fold_completes_partial` and `C81_sorted`: `calmA` is a pipeline with one map, drained, and no task was received twice. -/
example : Drained (fun l => (mapJob (ε := String) never dbg (keyM l) idM).Gives) calmA restA ['a', 'é'] [true] Str
      (fun x z => ∃ y, x = y ∧ (mapJob (ε := String) never dbg (keyM true) idM).Gives y z) (mapOf restA true).outs (mapOf restA true).ended ∧
    Pipeline (fun l => (mapJob (ε := String) never dbg (keyM l) idM).Gives) calmA restA ['a', 'é'] [true] Str
      (fun x z => ∃ y, x = y ∧ (mapJob (ε := String) never dbg (keyM true) idM).Gives y z) (mapOf restA true).outs (mapOf restA true).ended ∧
    ¬ TaskTwice restA (.inl true) ∧ MapS.Collects (mapOf restA true).outs (mapOf restA true).ended (.ok [charStr 'a', charStr 'é']) := by
  refine ⟨.map .source rfl fun _ => calmA_end, .map .source ⟨List.prefix_refl _, fun _ => ⟨rfl, rfl⟩⟩, ?_, ?_⟩
  · rintro ⟨m, t, -, -, k, k', hk, h1, h2⟩
    have : restA.net.yielded = [(0, 0), (1, 1), (2, 2), (3, 2), (4, 1), (5, 3)] := by decide +kernel
    rw [this] at h1 h2
    simp only [List.mem_cons, Prod.mk.injEq, List.not_mem_nil, or_false] at h1 h2
    omega
  · rw [restA_outs, restA_ended]
    exact .ok (oks := [(1, charStr 'é'), (0, charStr 'a')]) (sorted := [(0, charStr 'a'), (1, charStr 'é')]) (.swap _ _ _) (by simp)

/-- Worker 1 publishes its result for the task of the fold and loses its connection before it acknowledges; worker 0 executes the task again. The leader's computation fails if it receives both results before the first has reached the end of
`f_fold`: the last disjunct of `C81_hello_errors`. -/
def twiceA : List ALab :=
  calmA.take 66 ++ [.net (.deliver 1), .deliver 1, .work 1 .checkFlag, .work 1 .checkTerm, .work 1 .start, .finish 1 (env 3), .work 1 .pubOk, .net (.lose 2), .net (.requeue 1), .net (.deliver 0), .deliver 0] ++ serveA 0 4 ++
  [.net (.deliver 3), .recv (.inr true) (.recv 0), .ackRes (.inr true), .net (.deliver 3), .recv (.inr true) (.recv 0)]

theorem twiceA_some : (goA twiceA).isSome = true := by decide +kernel
def failedA := (goA twiceA).get twiceA_some

/-- Hypotheses of `C81_hello_errors`, with a task received twice. -/
example : goA twiceA = some failedA ∧ Runs true "aé" never dbg keyM keyF idM idF twiceA failedA ∧ (foldOf failedA true).outcome = some (.err "twice") ∧ TaskTwice failedA (.inr true) := by
  refine ⟨by simp [failedA], ⟨?_, ?_⟩, by decide +kernel, ?_⟩
  · exact ⟨by rw [show ("aé" : String).toList = ['a', 'é'] by decide +kernel]; exact List.prefix_refl _, fun _ => ⟨rfl, by rw [show ("aé" : String).toList = ['a', 'é'] by decide +kernel]; rfl⟩⟩
  · rw [show (mapOf failedA true).outs = [.ok (1, charStr 'é'), .ok (0, charStr 'a')] by decide +kernel, show (mapOf failedA true).ended = true by decide +kernel]
    exact ⟨List.prefix_refl _, fun _ => ⟨rfl, rfl⟩⟩
  · have h1 : (failedA.net.msgs[4]?.map fun g => (g.name, match g.bytes with | .task t => some t.key | .result _ => none)) = some (.bus, some (.inr true)) := by decide +kernel
    have h2 : failedA.net.yielded = [(0, 0), (1, 1), (2, 2), (3, 2), (4, 1), (4, 0), (5, 3), (6, 3)] := by decide +kernel
    cases hg : failedA.net.msgs[4]? with
    | none => simp [hg] at h1
    | some g =>
      obtain ⟨n, bd⟩ := g
      simp only [hg, Option.map_some, Option.some.injEq, Prod.mk.injEq] at h1
      obtain ⟨rfl, h1⟩ := h1
      cases bd with
      | result r => simp at h1
      | task t => exact ⟨4, t, hg, Option.some.inj h1, 1, 0, by decide, by simp [h2], by simp [h2]⟩

/-- `C81_hello_completes_partial` at the end of `calmA`. -/
example : ∃ o, (foldOf restA true).outcome = some o ∧ exit "aé" o (.ok ()) = .ok :=
  C81_hello_completes_partial true "aé" (by decide +kernel) (fun _ _ => rfl) rfl rfl calmA restA goA_calmA (fun w => w < 2) calmA_steady (restA_attended _ (.inl rfl)) (restA_attended _ (.inr rfl))
    (by decide +kernel) (by decide +kernel) (by rw [show ("aé" : String).toList = ['a', 'é'] by decide +kernel]; rfl) calmA_end (by rw [restA_outs]; rfl)
    [.item 1 (charStr 'é'), .item 0 (charStr 'a'), .publish 0] [.recv 0, .finish] rfl (.inr (by decide +kernel)) mine mine_iff restA_stuck

end HelloDemo
end SystemAmqp

namespace SystemMem
open Retry Exec Wire System

section
variable {ε A B X : Type} [DecidableEq A] [DecidableEq B] [Anyhow ε] {join dupErr : ε} {ops : List (OpDef ε)} {k kt : Serializer} {M : A → MapJob ε} {F : B → FoldJob ε} {cfg : Worker.Cfg (A ⊕ B)}

/-- **C81, fold, in memory.** As `C81_fold`, on the in-memory queues. -/
theorem C81_memory_fold (b : B) (ls) (s) (h : bytesRun join dupErr ops k kt M F cfg ls = some s) (xs : List X) (as : List A) (R : X → (F b).Elem → Prop)
    (items : List (MapS.Item (F b).Elem ε)) (en : Bool) (hp : Pipeline (fun a => (M a).Gives) (actions ls) s.view xs as (F b).Elem R items en) (hfeed : Fold.Feeds (foldSteps (actions ls) b) items en)
    (hreg : ∀ a ∈ as, Registered ops (M a).d (M a).id) (hc : ∀ a ∈ as, ∀ l ∈ mapSteps (actions ls) a, l.connected = true) (hregF : Registered ops (F b).d (F b).id)
    (v : (F b).Elem) (hv : (foldOf s.view b).outcome = some (.ok v)) :
    ∃ ys, List.Forall₂ R xs ys ∧ ((ys = [] ∧ v = (F b).empty) ∨ Tree (F b).Gives ys v) :=
  C75_fold_bytes b (actions ls) s.view (C79_refines ls s h).1 xs as R items en hp hfeed hreg hc hregF v hv

/-- **C81, `into_values_sorted`, in memory.** As `C81_sorted`, on the in-memory queues, where no task is ever received by two workers. -/
theorem C81_memory_sorted (ls) (s) (h : bytesRun join dupErr ops k kt M F cfg ls = some s) (xs : List X) (as : List A) (Y : Type) (R : X → Y → Prop)
    (items : List (MapS.Item Y ε)) (en : Bool) (hp : Pipeline (fun a => (M a).Gives) (actions ls) s.view xs as Y R items en) (hreg : ∀ a ∈ as, Registered ops (M a).d (M a).id)
    (hc : ∀ a ∈ as, ∀ l ∈ mapSteps (actions ls) a, l.connected = true) (vs : List Y) (hv : MapS.Collects items en (.ok vs)) :
    List.Forall₂ R xs vs :=
  C75_sorted_bytes (actions ls) s.view (C79_refines ls s h).1 xs as Y R items en hp hreg hc (fun _ _ => (C79_refines ls s h).2.2.1 _) vs hv

/-- **C81, completion, in memory (partial).** Missing: as in `C81_fold_completes_partial`. The maps and the fold of a pipeline run in memory beside other jobs on the workers of `W` (at least one). When neither workers, nor publishers, nor the
leaders of this pipeline can do anything more, where a consumer that waits in a semaphore does nothing until it is woken, then the pipeline has returned an in-order combination of one output for each element of its input. -/
theorem C81_memory_completes_partial (b : B) (ls) (s) (h : bytesRun join dupErr ops k kt M F cfg ls = some s) (W : Nat → Bool) (hW : ∃ w, W w = true)
    (hst : ∀ l ∈ ls, l.steady W = true) (xs : List X) (as : List A) (R : X → (F b).Elem → Prop) (items : List (MapS.Item (F b).Elem ε)) (en : Bool)
    (hp : Drained (fun a => (M a).Gives) (actions ls) s.view xs as (F b).Elem R items en) (hsz : xs.length ≤ 2 ^ 64)
    (hreg : ∀ a ∈ as, Registered ops (M a).d (M a).id) (hrel : ∀ a ∈ as, ∀ l ∈ mapSteps (actions ls) a, l.reliable = true)
    (hok : ∀ a ∈ as, ∀ p ∈ MapS.inputs (mapSteps (actions ls) a), ∀ i, ∃ v b, (M a).d.execute (M a).op p.2 i = .ok v ∧ (M a).d.outC.enc kt v = .ok b)
    (hidx : ∀ a ∈ as, ∀ p ∈ MapS.inputs (mapSteps (actions ls) a), p.1 < 2 ^ 64 ∧ ∃ b, (M a).d.inC.enc kt p.2 = .ok b) (hopenc : ∀ a ∈ as, ∃ b, (M a).d.opC.enc kt (M a).op = .ok b)
    (hregF : Registered ops (F b).d (F b).id) (hrelF : ∀ l ∈ foldSteps (actions ls) b, l.reliable = true)
    (hokF : ∀ ys, List.Forall₂ R xs ys → ∀ t, Fold.Asked (F b).Gives (indexed 0 ys) t → ∀ i, ∃ v c, (F b).combine (F b).op t.a t.b i = .ok v ∧ (F b).elemC.enc kt v = .ok c)
    (hencF : ∀ ys, List.Forall₂ R xs ys → ∀ t, Fold.Asked (F b).Gives (indexed 0 ys) t → ∃ c, (F b).pairC.enc kt (t.a, t.b) = .ok c)
    (hopencF : ∃ c, (F b).opC.enc kt (F b).op = .ok c)
    (hreads : Fold.reads (foldSteps (actions ls) b) = items) (pre post : List (Fold.Label (F b).Elem ε Circ)) (hsplit : foldSteps (actions ls) b = pre ++ .inputEnd :: post)
    (hrc : xs.length ≤ 1 ∨ Fold.recvs pre + 1 < xs.length) (K : A ⊕ B → Bool) (hK : ∀ j, K j = true ↔ (j = .inr b ∨ ∃ a ∈ as, j = .inl a))
    (hrest : ∀ l, l.moves W K (dirInternal K) = true → bytesStep join dupErr ops k kt M F cfg s l = none) :
    ∃ v ys, (foldOf s.view b).outcome = some (.ok v) ∧ List.Forall₂ R xs ys ∧ ((ys = [] ∧ v = (F b).empty) ∨ Tree (F b).Gives ys v) := by
  obtain ⟨h6, h7, h8⟩ := view_rest ls s h W hW hst K hrest
  exact C75_fold_complete_bytes_partial b (actions ls) s.view (C79_refines ls s h).1 W hW (steady_sys hst) xs as R items en hp hsz hreg hrel hok hidx hopenc hregF hrelF hokF hencF hopencF hreads
    pre post hsplit hrc h6 (fun a ha => h7 a ((hK _).2 (.inr ⟨a, ha, rfl⟩))) (h8 b ((hK _).2 (.inl rfl)))

end

namespace HelloDemo
open Hello Hello.HelloDemo SystemAmqp.HelloDemo

abbrev MLab := Label (Bool ⊕ Bool) (DirLabel (fun _ : Bool => Char) (fun _ : Bool => Str) String Circ) Buf String Circ
abbrev mapM (b : Bool) (l : MapS.Label Char String Circ) : MLab := .lead (.inl b) l
abbrev foldM (b : Bool) (l : Fold.Label Str String Circ) : MLab := .lead (.inr b) l

abbrev goM (ls : List MLab) := bytesRun "join" "twice" (ops never) .cbor .postcard (fun l => mapJob never dbg (keyM l) idM) (fun l => foldJob (keyF l) idF) cfg ls

def serveM (w m : Nat) (j : Bool ⊕ Bool) : List MLab :=
  [.work w .checkFlag, .work w .checkTerm, .work w .start, .finish w (env m), .work w .pubOk, .work w .ack, .work w .settled, .resRelease j]

/-- The computation of `calmA`, in memory. -/
def calmM : List MLab :=
  [.taskPoll 0, .taskPoll 1, mapM true (.item 0 'a'), mapM true (.send 0), mapM true .confirm, mapM true (.item 1 'é'), mapM true (.send 0), mapM true .confirm, mapM true .inputEnd, .taskRelease, .taskRelease,
    .taskPoll 0, .taskPoll 1, .deliver 0, .deliver 1] ++ serveM 1 2 (.inl true) ++ serveM 0 0 (.inl true) ++
  [.taskPoll 0, .taskPoll 1, .resPoll (.inl true), .recv (.inl true) (.recv 0), foldM true (.item 1 (charStr 'é')), .resPoll (.inl true), .recv (.inl true) (.recv 0), mapM true .recvEnd, mapM true .finish,
    foldM true (.item 0 (charStr 'a')), foldM true (.publish 0), .taskRelease, foldM true .inputEnd, .taskPoll 0, .deliver 0] ++ serveM 0 3 (.inr true) ++
  [.taskPoll 0, .resPoll (.inr true), .recv (.inr true) (.recv 0), foldM true .finish]

theorem calmM_some : (goM calmM).isSome = true := by decide +kernel
def restM := (goM calmM).get calmM_some

theorem goM_calmM : goM calmM = some restM := by simp [restM]

theorem restM_ended : (mapOf restM.view true).ended = true := by decide +kernel
theorem restM_outs : (mapOf restM.view true).outs = [.ok (1, charStr 'é'), .ok (0, charStr 'a')] := by decide +kernel
theorem restM_folded : (foldOf restM.view true).outcome = some (.ok (⟨"aé", by decide +kernel⟩ : Str)) := by decide +kernel
theorem restM_waiting : (restM.sys.worker 0).pc = .waiting ∧ (restM.sys.worker 1).pc = .waiting := by decide +kernel
theorem restM_task : restM.tq.waiters = [1, 0] ∧ restM.tq.holding = [] ∧ restM.tq.owed = 0 := by decide +kernel
theorem restM_res : (restM.rq (.inl true)).holding = [] ∧ (restM.rq (.inl true)).owed = 0 ∧ (restM.rq (.inr true)).holding = [] ∧ (restM.rq (.inr true)).owed = 0 := by decide +kernel
theorem restM_listens : dirListens (.inl true) (restM.sys.lead (.inl true)) = false ∧ dirListens (.inr true) (restM.sys.lead (.inr true)) = false := by decide +kernel

/-- At the end nothing more can happen at the workers 0 and 1, the publishers, and leader `true`. -/
theorem restM_stuck (l : MLab) (hl : l.moves (fun w => decide (w < 2)) mine (dirInternal mine) = true) :
    bytesStep "join" "twice" (ops never) .cbor .postcard (fun l => mapJob never dbg (keyM l) idM) (fun l => foldJob (keyF l) idF) cfg restM l = none := by
  have hpc : ∀ w, decide (w < 2) = true → (restM.sys.worker w).pc = .waiting ∧ w ∈ restM.tq.waiters ∧ w ∉ restM.tq.holding := by
    intro w hw
    have : w = 0 ∨ w = 1 := by simp at hw; omega
    rw [restM_task.1, restM_task.2.1]
    rcases this with rfl | rfl
    · exact ⟨restM_waiting.1, by simp, by simp⟩
    · exact ⟨restM_waiting.2, by simp, by simp⟩
  have hres : ∀ j, mine j = true → ((restM.rq j).holding = [] ∧ (restM.rq j).owed = 0 ∧ dirListens j (restM.sys.lead j) = false) := by
    intro j hj
    rcases (mine_iff j).1 hj with rfl | rfl
    · exact ⟨restM_res.1, restM_res.2.1, restM_listens.1⟩
    · exact ⟨restM_res.2.2.1, restM_res.2.2.2, restM_listens.2⟩
  have hint : ∀ j l, dirInternal (α := fun _ : Bool => Char) (γ := fun _ : Bool => Str) (ε := String) (ω := Circ) mine j l = true → mine j = true := by
    intro j l
    cases j <;> simp only [dirInternal, Bool.and_eq_true] <;> exact fun h => h.1
  cases l with
  | lead j l =>
    have hj := hint j l hl
    have hs : helloStep "join" "twice" (ops never) .cbor .postcard never dbg keyM keyF idM idF cfg restM.sys (.lead j l) = none := by
      apply lead_none
      rcases (mine_iff j).1 hj with rfl | rfl
      · have he := restM_ended
        have : ∀ rs, (mapClient ((mapJob never dbg (keyM true) idM).run "join" .cbor .postcard) (encMap .cbor .postcard (mapJob never dbg (keyM true) idM)) (decMap .cbor (mapJob never dbg (keyM true) idM))).step
            (mapOf restM.view true) l rs = none := by
          intro rs
          simp [mapClient, MapS.step, he]
        exact this _
      · have he := restM_folded
        have : ∀ rs, (foldClient ((foldJob (keyF true) idF).run "join" .cbor .postcard) (foldJob (ε := String) (keyF true) idF).empty "twice" (encFold .cbor .postcard (foldJob (keyF true) idF))
            (decFold .cbor (foldJob (keyF true) idF))).step (foldOf restM.view true) l rs = none := by
          intro rs
          simp [foldClient, Fold.step, he]
        exact this _
    have : (System.step (dirs (fun l => (mapJob (ε := String) never dbg (keyM l) idM).run "join" .cbor .postcard) (fun l => (foldJob (ε := String) (keyF l) idF).run "join" .cbor .postcard)
        (fun l => (foldJob (ε := String) (keyF l) idF).empty) "twice" (fun l => encMap .cbor .postcard (mapJob never dbg (keyM l) idM)) (fun l => decMap .cbor (mapJob never dbg (keyM l) idM))
        (fun l => encFold .cbor .postcard (foldJob (keyF l) idF)) (fun l => decFold .cbor (foldJob (keyF l) idF))) cfg (execBytes "join" (ops never) .cbor) (textBytes .cbor) restM.sys (.lead j l)) = none := hs
    simp only [bytesStep, step, this, Option.map_none]
  | recv j l =>
    have := (hres j (hint j l hl)).1
    simp [bytesStep, step, InMem.Chan.pop, this]
  | resPoll j => simp [bytesStep, step, (hres j hl).2.2]
  | resRelease j => simp [bytesStep, step, InMem.Chan.release, (hres j hl).2.1]
  | taskPoll w => simp [bytesStep, step, (hpc w hl).2.1]
  | taskRelease => simp [bytesStep, step, InMem.Chan.release, restM_task.2.2]
  | deliver w => simp [bytesStep, step, InMem.Chan.pop, (hpc w hl).2.2]
  | finish w x =>
    have := (hpc w hl).1
    simp only [bytesStep, step, System.step]
    split
    · simp [Worker.step, this]
    · rfl
  | work w l =>
    have hl' : decide (w < 2) = true ∧ routine l = true := by simpa [Label.moves] using hl
    have := (hpc w hl'.1).1
    cases l <;> first | (simp [routine] at hl'; done) | simp [bytesStep, step, System.step, Worker.step, this]
/-- Hypotheses of C81 in memory: `calmM` is a pipeline with one map, drained; nothing goes wrong; at the end nothing more can happen (`restM_stuck`). -/
example : goM calmM = some restM ∧ (∀ l ∈ calmM, l.steady (fun w => w < 2) = true) ∧
    Drained (fun l => (mapJob (ε := String) never dbg (keyM l) idM).Gives) (actions calmM) restM.view ['a', 'é'] [true] Str
      (fun x z => ∃ y, x = y ∧ (mapJob (ε := String) never dbg (keyM true) idM).Gives y z) (mapOf restM.view true).outs (mapOf restM.view true).ended ∧
    Pipeline (fun l => (mapJob (ε := String) never dbg (keyM l) idM).Gives) (actions calmM) restM.view ['a', 'é'] [true] Str
      (fun x z => ∃ y, x = y ∧ (mapJob (ε := String) never dbg (keyM true) idM).Gives y z) (mapOf restM.view true).outs (mapOf restM.view true).ended ∧
    foldSteps (actions calmM) true = [.item 1 (charStr 'é'), .item 0 (charStr 'a'), .publish 0] ++ .inputEnd :: [.recv 0, .finish] ∧
    Fold.reads (foldSteps (actions calmM) true) = (mapOf restM.view true).outs ∧ (foldOf restM.view true).outcome = some (.ok (⟨"aé", by decide +kernel⟩ : Str)) ∧
    MapS.Collects (mapOf restM.view true).outs (mapOf restM.view true).ended (.ok [charStr 'a', charStr 'é']) := by
  refine ⟨goM_calmM, by decide +kernel, .map .source rfl fun _ => ?_, .map .source ⟨List.prefix_refl _, fun _ => ⟨rfl, rfl⟩⟩, rfl, by rw [restM_outs]; rfl, restM_folded, ?_⟩
  · change MapS.Label.inputEnd ∈ ([.item 0 'a', .send 0, .confirm, .item 1 'é', .send 0, .confirm, .inputEnd, .recv 0, .recv 0, .recvEnd, .finish] : List (MapS.Label Char String Circ)); simp
  · rw [restM_outs, restM_ended]
    exact .ok (oks := [(1, charStr 'é'), (0, charStr 'a')]) (sorted := [(0, charStr 'a'), (1, charStr 'é')]) (.swap _ _ _) (by simp)

end HelloDemo
end SystemMem
end Paladin
