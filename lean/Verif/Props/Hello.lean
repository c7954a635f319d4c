import Verif.Proofs.Hello
/-!
# Property C76: the example program

`examples/hello-world-rabbitmq`: `IndexedStream::from(input.chars()).map(&CharToString).fold(&StringConcat)`, then `assert_eq!(result, input)`. Any number of leaders share the broker and any number of
workers, with messages as bytes. Vocabulary: `Verif/Spec/Hello.lean`.
-/
namespace Paladin
namespace Hello
open Retry Exec Wire System

section
variable {ε L : Type} [DecidableEq L] [Anyhow ε] {join dupErr : ε} {ops : List (OpDef ε)} {k kt : Serializer} {flag : Nat → Nat → Bool} {dbg : Char → String} {keyM keyF : L → Str}
  {idM idF : U8} {cfg : Worker.Cfg (L ⊕ L)}

/-- **C76, the value.** If the computation of a leader returns a string, it is the input. Tasks may be lost, returned to the queue and executed several times, and abort commands may arrive at any
moment. Assumed: the leader's connection lasts for the map. -/
theorem C76_value (l : L) (input : String) (hM : ops[idM.1]? = some (charOp flag dbg)) (hF : ops[idF.1]? = some concatOp) (ls) (s)
    (h : helloRun join dupErr ops k kt flag dbg keyM keyF idM idF cfg ls = some s) (hr : Runs l input flag dbg keyM keyF idM idF ls s)
    (hc : ∀ x ∈ mapSteps ls l, x.connected = true) (v : Str) (hv : (foldOf s l).outcome = some (.ok v)) : v.1 = input := by
  obtain ⟨ys, h1, h2⟩ := C75_fold_bytes (M := fun l => mapJob flag dbg (keyM l) idM) (F := fun l => foldJob (keyF l) idF) l ls s h input.toList [l] _ _ _
    (.map .source hr.mapped) hr.folded (fun a _ => registered_map hM) (by simpa using hc) (registered_fold hF) v hv
  have hys : ys = input.toList.map charStr := map_of_forall₂ (by
    rintro c y ⟨c', rfl, hg⟩
    exact gives_char hg) h1
  apply String.toList_injective
  rcases h2 with ⟨h2, rfl⟩ | h2
  · have : input.toList = [] := by rw [hys] at h2; exact List.map_eq_nil_iff.1 h2
    rw [this]; rfl
  · rw [tree_concat h2, hys, flat_chars]

/-- **C76, the assertion.** The `assert_eq!` at the end of the leader's `main` never fails. -/
theorem C76_assert (l : L) (input : String) (hM : ops[idM.1]? = some (charOp flag dbg)) (hF : ops[idF.1]? = some concatOp) (ls) (s)
    (h : helloRun join dupErr ops k kt flag dbg keyM keyF idM idF cfg ls = some s) (hr : Runs l input flag dbg keyM keyF idM idF ls s)
    (hc : ∀ x ∈ mapSteps ls l, x.connected = true) (o : Fold.Outcome Str ε) (ho : (foldOf s l).outcome = some o) (close : Except ε Unit) : exit input o close ≠ .assertFailed := by
  cases o with
  | ok v =>
    have := C76_value l input hM hF ls s h hr hc v ho
    cases close <;> simp [exit, this]
  | err e => cases close <;> simp [exit]
  | panic => simp [exit]

/-- **C76, the end of `main`.** `main` ends with `Ok(())` only if the computation has returned the input. -/
theorem C76_ok (input : String) (o : Fold.Outcome Str ε) (close : Except ε Unit) (h : exit input o close = .ok) : ∃ v, o = .ok v ∧ v.1 = input := by
  cases o <;> cases close <;> simp [exit] at h ⊢
  exact h

/-- **C76, panics.** The computation of a leader panics only if the leader's connection for the fold's results is gone. -/
theorem C76_no_panic (l : L) (input : String) (hM : ops[idM.1]? = some (charOp flag dbg)) (hF : ops[idF.1]? = some concatOp) (ls) (s)
    (h : helloRun join dupErr ops k kt flag dbg keyM keyF idM idF cfg ls = some s) (hr : Runs l input flag dbg keyM keyF idM idF ls s)
    (hc : ∀ x ∈ mapSteps ls l, x.connected = true) (hv : (foldOf s l).outcome = some .panic) : .disconnect ∈ foldSteps ls l :=
  C75_no_panic (G := fun l => (mapJob (ε := ε) flag dbg (keyM l) idM).Gives) l ls s h input.toList [l] _ _ _ (.map .source hr.mapped) hr.folded
    (fun a _ => map_faithful (registered_map hM)) (by simpa using hc) (fun _ _ _ _ => gives_map) (fold_faithful (registered_fold hF)) hv

/-- What the fold of a leader reads are images of the characters of its input. -/
theorem fold_inputs (l : L) (input : String) (hM : ops[idM.1]? = some (charOp flag dbg)) (ls) (s)
    (h : helloRun join dupErr ops k kt flag dbg keyM keyF idM idF cfg ls = some s) (hr : Runs l input flag dbg keyM keyF idM idF ls s) :
    ∀ p ∈ Fold.inputs (foldSteps ls l), ∃ c, (p.1, c) ∈ indexed 0 input.toList ∧ p.2 = charStr c := by
  intro p hp
  rw [← Fold.reads_inputs, mem_oks] at hp
  have hp := hr.folded.1.subset hp
  obtain ⟨mls, m, h1, h2, h3, -, -⟩ := map_alone (exec := execBytes join ops k) l (map_faithful (registered_map (key := keyM l) hM)) h
  rw [h2] at hp
  obtain ⟨c, g1, g2⟩ := (MapS.redelivery_inv mls m h1).2.1 p.1 p.2 (List.mem_append_right _ hp)
  refine ⟨c, ?_, gives_char (gives_map g2)⟩
  rw [h3, ← MapS.reads_inputs, mem_oks] at g1
  exact of_mem_map_ok (hr.mapped.1.subset g1)

/-- Where an error of the computation of a leader comes from. -/
theorem error_source (l : L) (input : String) (hin : input.utf8ByteSize < 2 ^ 63) (hM : ops[idM.1]? = some (charOp flag dbg))
    (hF : ops[idF.1]? = some concatOp) (ls) (s) (h : helloRun join dupErr ops k kt flag dbg keyM keyF idM idF cfg ls = some s) (hr : Runs l input flag dbg keyM keyF idM idF ls s)
    (hc : ∀ x ∈ mapSteps ls l, x.connected = true) (e : ε) (he : (foldOf s l).outcome = some (.err e)) :
    (∃ x ∈ mapSteps ls l, x.failure = some e) ∨ .ioErr e ∈ foldSteps ls l ∨
    (∃ w x p, Label.finish w x ∈ ls ∧ p ∈ indexed 0 input.toList ∧ (mapJob (ε := ε) flag dbg (keyM l) idM).run join k kt x p.2 = .error e) ∨
    e = dupErr ∧ ¬ (NoReturn (.inl l) s ∧ NoReturn (.inr l) s) := by
  have hfi := fold_inputs l input hM ls s h hr
  have hfin : ∀ p ∈ MapS.inputs (mapSteps ls l), p ∈ indexed 0 input.toList := by
    intro p hp
    rw [← MapS.reads_inputs, mem_oks] at hp
    exact of_mem_map_ok (hr.mapped.1.subset hp)
  rcases C74_fold_own_errors l (fold_faithful (registered_fold (key := keyF l) hF)) ls s h e he with ⟨x, h1, h2⟩ | ⟨w, x, st, xs, ys, u, v, h1, h2, h3, h4, h5⟩ | ⟨h1, h2⟩
  · cases x <;> simp only [Fold.Label.failure, reduceCtorEq, Option.some.injEq] at h2
    · rename_i e'
      obtain rfl : e' = e := h2
      have hin' : .error e' ∈ Fold.reads (foldSteps ls l) := reads_err h1
      have hin' := hr.folded.1.subset hin'
      rcases C74_map_own_errors l (map_faithful (registered_map (key := keyM l) hM)) ls s h e' (MapS.mem_errs.2 hin') with g | ⟨w, x, p, g1, g2, g3⟩
      · exact .inl g
      · exact .inr (.inr (.inl ⟨w, x, p, g1, hfin p g2, g3⟩))
    · exact .inr (.inl (h2 ▸ h1))
  · exfalso
    have g2 := h2.mono fun _ _ _ => gives_fold
    have g3 := h3.mono fun _ _ _ => gives_fold
    have hsz := combine_size (input := input) g2 g3 fun p hp => hfi p (h4 p hp)
    obtain ⟨v', hv'⟩ := localOp_first (join := join) (k := k) (kt := kt) (d := (foldJob (ε := ε) (keyF l) idF).d) (op := ()) (a := (u, v))
      (fun m => concat_runs (key := keyF l) (i := idF) (m := m) (Nat.lt_of_le_of_lt hsz hin)) x
    exact absurd (hv'.symm.trans h5) nofun
  · refine .inr (.inr (.inr ⟨h1, ?_⟩))
    rintro ⟨n1, n2⟩
    refine h2 ⟨n2, ?_⟩
    obtain ⟨mls, m, m1, m2, m3, m4, m5⟩ := map_alone (exec := execBytes join ops k) l (map_faithful (registered_map (key := keyM l) hM)) h
    have hnd := (MapS.C16_once_partial mls m m1 (m5 n1) (m4 hc) (by
      rw [m3, ← MapS.reads_inputs]
      exact nodup_of_reads hr.mapped.1)).1
    have := oks_prefix hr.folded.1
    rw [Fold.reads_inputs, m2] at this
    exact (this.sublist.map _).nodup hnd

/-- **C76, errors.** If the computation of a leader returns an error, it is one of its own: the leader's connection or runtime failed; or an abort request hit one of its own tasks, and then the
text names the character and the iteration; or "final result tx taken", and then a delivery of one of its own tasks was returned to the queue. -/
theorem C76_errors (l : L) (input : String) (hin : input.utf8ByteSize < 2 ^ 63) (hdbg : ∀ c, (dbg c).utf8ByteSize ≤ 12) (hM : ops[idM.1]? = some (charOp flag dbg))
    (hF : ops[idF.1]? = some concatOp) (ls) (s) (h : helloRun join dupErr ops k kt flag dbg keyM keyF idM idF cfg ls = some s) (hr : Runs l input flag dbg keyM keyF idM idF ls s)
    (hc : ∀ x ∈ mapSteps ls l, x.connected = true) (e : ε) (he : (foldOf s l).outcome = some (.err e)) :
    (∃ x ∈ mapSteps ls l, x.failure = some e) ∨ .ioErr e ∈ foldSteps ls l ∨
    (∃ c ∈ input.toList, ∃ m i, 1 ≤ i ∧ i ≤ 9 ∧ flag m i = true ∧
      e = Anyhow.msg ("Fatal operation error: aborted per request at CharToString iteration " ++ toString i ++ " for input " ++ dbg c)) ∨
    e = dupErr ∧ ¬ (NoReturn (.inl l) s ∧ NoReturn (.inr l) s) := by
  rcases error_source l input hin hM hF ls s h hr hc e he with g | g | ⟨w, x, p, -, g2, g3⟩ | g
  · exact .inl g
  · exact .inr (.inl g)
  · obtain ⟨m, e', g4, g5⟩ := localOp_err g3 (done_of_fatal (by
      intro e he
      obtain ⟨n, _, _, _, rfl⟩ := char_attempt he
      exact ⟨_, _, rfl⟩))
    obtain ⟨n, n1, n2, n3, rfl⟩ := char_attempt g4
    refine .inr (.inr (.inl ⟨p.2, List.mem_of_getElem? (indexed_get g2).2, m, n, n1, n2, n3, ?_⟩))
    rw [g5, show (OpError.fatal (Anyhow.msg (abortText dbg p.2 n)) FatalStrategy.terminate : OpError ε).intoErr = Anyhow.msg (abortText dbg p.2 n) from rfl, Anyhow.display_msg]
    exact congrArg Anyhow.msg (fatalText (hdbg _) n2)
  · exact .inr (.inr (.inr g))

/-- **C76, completion (partial).** Missing: the case in which all results of the fold arrive before it sees the end of its input, where it never returns
(`C08_hang`). Some workers `W` (at least one) meet no trouble and the leader's side does not fail, no abort request is seen, the map has read the whole input and the fold all the map has yielded, the
fold saw the end of its input before all results had arrived (if there are any: at least two characters), and neither the workers of `W` nor the leader can do anything more: then the computation has returned, and `main` ends with `Ok(())` if
closing the runtime succeeds. -/
theorem C76_completes_partial (l : L) (input : String) (hin : input.utf8ByteSize < 2 ^ 63) (hflag : ∀ m i, flag m i = false) (hM : ops[idM.1]? = some (charOp flag dbg))
    (hF : ops[idF.1]? = some concatOp) (ls) (s) (h : helloRun join dupErr ops k kt flag dbg keyM keyF idM idF cfg ls = some s) (W : Nat → Bool) (hW : ∃ w, W w = true)
    (hst : ∀ x ∈ ls, x.steady W = true) (hrelM : ∀ x ∈ mapSteps ls l, x.reliable = true) (hrelF : ∀ x ∈ foldSteps ls l, x.reliable = true)
    (hreadM : MapS.reads (mapSteps ls l) = (indexed 0 input.toList).map .ok) (hendM : .inputEnd ∈ mapSteps ls l)
    (hreadF : Fold.reads (foldSteps ls l) = (mapOf s l).outs) (pre post : List (Fold.Label Str ε Circ)) (hsplit : foldSteps ls l = pre ++ .inputEnd :: post)
    (hrc : input.length ≤ 1 ∨ Fold.recvs pre + 1 < input.length)
    (hwork : ∀ x, x.serves W = true → helloStep join dupErr ops k kt flag dbg keyM keyF idM idF cfg s x = none)
    (hleadM : ∀ x : MapS.Label Char ε Circ, x.internal = true → helloStep join dupErr ops k kt flag dbg keyM keyF idM idF cfg s (.lead (.inl l) x) = none)
    (hleadF : ∀ x : Fold.Label Str ε Circ, x.internal = true → helloStep join dupErr ops k kt flag dbg keyM keyF idM idF cfg s (.lead (.inr l) x) = none) :
    ∃ o, (foldOf s l).outcome = some o ∧ exit input o (.ok ()) = .ok := by
  have hlen : input.toList.length = input.length := rfl
  have hsz : input.length < 2 ^ 64 := by
    have : input.length ≤ input.utf8ByteSize := length_le_size input
    omega
  have hfin : ∀ p ∈ MapS.inputs (mapSteps ls l), p ∈ indexed 0 input.toList := by
    intro p hp
    rw [← MapS.reads_inputs, mem_oks, hreadM] at hp
    exact of_mem_map_ok hp
  have himg : ∀ ys : List Str, List.Forall₂ (fun (x : Char) z => ∃ y, x = y ∧ (mapJob (ε := ε) flag dbg (keyM l) idM).Gives y z) input.toList ys → ys = input.toList.map charStr :=
    fun ys => map_of_forall₂ (by
      rintro c y ⟨c', rfl, hg⟩
      exact gives_char hg)
  have hask : ∀ ys : List Str, List.Forall₂ (fun (x : Char) z => ∃ y, x = y ∧ (mapJob (ε := ε) flag dbg (keyM l) idM).Gives y z) input.toList ys →
      ∀ t : Fold.CTask Str, Fold.Asked (foldJob (ε := ε) (keyF l) idF).Gives (indexed 0 ys) t → (t.a.1 ++ t.b.1).utf8ByteSize < 2 ^ 63 := by
    rintro ys hys t ⟨xs, zs, h1, h2, h3, h4⟩
    have := combine_size (input := input) h1 h2 (fun p hp => by
      have := h4 p hp
      rw [himg ys hys] at this
      exact indexed_image this)
    omega
  obtain ⟨v, ys, h1, h2, h3⟩ := C75_fold_complete_bytes_partial (M := fun l => mapJob flag dbg (keyM l) idM) (F := fun l => foldJob (keyF l) idF) l ls s h W hW hst input.toList [l] _ _ _
    (.map .source hreadM fun _ => hendM) (by omega) (fun a _ => registered_map hM) (by simpa using hrelM)
    (by
      intro a ha p hp m
      exact char_runs (hflag m))
    (by
      intro a ha p hp
      obtain rfl : a = l := by simpa using ha
      have := indexed_get (hfin p hp)
      have := (List.getElem?_eq_some_iff.1 this.2).1
      exact ⟨by omega, char_enc⟩)
    (fun a ha => unit_enc) (registered_fold hF) hrelF
    (fun ys hys t ht m => concat_runs (key := keyF l) (i := idF) (m := m) (hask ys hys t ht))
    (fun ys hys t ht => pair_enc (hask ys hys t ht)) unit_enc hreadF pre post hsplit hrc hwork
    (fun a ha => by
      obtain rfl : a = l := by simpa using ha
      exact hleadM) hleadF
  change Str at v
  refine ⟨.ok v, h1, ?_⟩
  have : v.1 = input := by
    apply String.toList_injective
    rcases h3 with ⟨h3, h4⟩ | h3
    · rw [h3] at h2
      cases hx : input.toList with
      | nil => rw [h4]; rfl
      | cons c cs => rw [hx] at h2; cases h2
    · rw [tree_concat h3, himg ys h2, flat_chars]
  simp [exit, this]

end

/-! ## Examples -/

namespace HelloDemo

def dbg (c : Char) : String := "'" ++ c.toString ++ "'"
/-- An abort request is seen by the executions at moment 7, in iteration 4. -/
def flag (m i : Nat) : Bool := m == 7 && i == 4
def never (_ _ : Nat) : Bool := false
def keyM (b : Bool) : Str := ⟨if b then "m1" else "m2", by cases b <;> decide +kernel⟩
def keyF (b : Bool) : Str := ⟨if b then "f1" else "f2", by cases b <;> decide +kernel⟩
abbrev idM : U8 := ⟨0, by decide⟩
abbrev idF : U8 := ⟨1, by decide⟩
def cfg : Worker.Cfg (Bool ⊕ Bool) := ⟨.inr false, 5⟩
def ops (flag : Nat → Nat → Bool) : List (OpDef String) := [charOp flag dbg, concatOp]
def env (m : Nat) : Circ := ⟨⟨fun _ => 0, fun _ => 0, fun _ c => c, fun c => c⟩, 0, fun _ => m⟩

abbrev Lab := Label (Bool ⊕ Bool) (DirLabel (fun _ : Bool => Char) (fun _ : Bool => Str) String Circ) Buf String Circ
abbrev mapL (b : Bool) (l : MapS.Label Char String Circ) : Lab := .lead (.inl b) l
abbrev foldL (b : Bool) (l : Fold.Label Str String Circ) : Lab := .lead (.inr b) l

def serve (w m : Nat) : List Lab :=
  [.work w .checkFlag, .work w .checkTerm, .work w .start, .finish w (env m), .work w .pubOk, .work w .ack, .work w .settled]

/-- Leader `true` computes `"aé"` on the workers 0 and 1, which also execute a task of leader `false`. The characters come back in the other order. -/
def calm : List Lab :=
  [mapL true (.item 0 'a'), mapL true (.send 0), mapL true .confirm, mapL true (.item 1 'é'), mapL false (.item 0 'z'), mapL false (.send 0), mapL true (.send 0), mapL true .confirm, mapL true .inputEnd,
    .deliver 0 0, .deliver 1 1] ++ serve 1 2 ++ serve 0 0 ++ [.deliver 0 0] ++ serve 0 1 ++
  [mapL true (.recv 0), foldL true (.item 1 (charStr 'é')), mapL true (.recv 0), mapL true .recvEnd, mapL true .finish, foldL true (.item 0 (charStr 'a')), foldL true (.publish 0),
    foldL true .inputEnd, .deliver 1 0] ++ serve 1 3 ++ [foldL true (.recv 0), foldL true .finish]

abbrev go (flag : Nat → Nat → Bool) (ls : List Lab) := helloRun "join" "twice" (ops flag) .cbor .postcard flag dbg keyM keyF idM idF cfg ls

theorem calm_some : (go never calm).isSome = true := by decide +kernel
def rest := (go never calm).get calm_some

instance : DecidableEq Str := inferInstanceAs (DecidableEq { s : String // s.utf8ByteSize < 2 ^ 64 })
instance : DecidableEq (mapJob (ε := String) f dbg key i).d.Out := inferInstanceAs (DecidableEq Str)
instance : DecidableEq (mapJob (ε := String) f dbg key i).d.In := inferInstanceAs (DecidableEq Char)
instance : DecidableEq (foldJob (ε := String) key i).Elem := inferInstanceAs (DecidableEq Str)

theorem rest_queue : rest.queue = [] := by decide +kernel
theorem rest_ended : (mapOf rest true).ended = true := by decide +kernel
theorem rest_outs : (mapOf rest true).outs = [.ok (1, charStr 'é'), .ok (0, charStr 'a')] := by decide +kernel
theorem rest_folded : (foldOf rest true).outcome = some (.ok (⟨"aé", by decide +kernel⟩ : Str)) := by decide +kernel
theorem rest_waiting : (rest.worker 0).pc = .waiting ∧ (rest.worker 1).pc = .waiting := by decide +kernel

theorem no_work {s : St (Bool ⊕ Bool) (DirSt (fun l => (mapJob (ε := String) never dbg (keyM l) idM).d.In) (fun l => (mapJob (ε := String) never dbg (keyM l) idM).d.Out)
      (fun l => (foldJob (ε := String) (keyF l) idF).Elem) String) Buf Buf String String} (hq : s.queue = []) (hw : (s.worker 0).pc = .waiting ∧ (s.worker 1).pc = .waiting) (x : Lab)
    (hx : x.serves (fun w => w < 2) = true) : helloStep "join" "twice" (ops never) .cbor .postcard never dbg keyM keyF idM idF cfg s x = none := by
  have hpc : ∀ w, decide (w < 2) = true → (s.worker w).pc = .waiting := by
    intro w hw'
    have : w = 0 ∨ w = 1 := by simp at hw'; omega
    rcases this with rfl | rfl
    · exact hw.1
    · exact hw.2
  cases x with
  | lead j l => simp [Label.serves] at hx
  | deliver w k => simp [helloStep, step, hq, Fold.takeAt]
  | finish w x =>
    have := hpc w hx
    simp only [helloStep, step]
    split
    · simp [Worker.step, this]
    · rfl
  | work w l =>
    have hl' : decide (w < 2) = true ∧ routine l = true := by simpa [Label.serves] using hx
    have := hpc w hl'.1
    cases l <;> first | (simp [routine] at hl'; done) | simp [helloStep, step, Worker.step, this]
  | requeue n => simp [Label.serves] at hx

/-- Hypotheses of `C76_value` and `C76_assert`. -/
example : go never calm = some rest ∧ Runs true "aé" never dbg keyM keyF idM idF calm rest ∧ (∀ x ∈ mapSteps calm true, x.connected = true) ∧
    (ops never)[idM.1]? = some (charOp never dbg) ∧ (ops never)[idF.1]? = some concatOp := by
  refine ⟨by simp [rest], ⟨?_, ?_⟩, by decide +kernel, rfl, rfl⟩
  · exact ⟨by rw [show ("aé" : String).toList = ['a', 'é'] by decide +kernel]; exact List.prefix_refl _, fun _ => ⟨rfl, by rw [show ("aé" : String).toList = ['a', 'é'] by decide +kernel]; rfl⟩⟩
  · rw [rest_outs, rest_ended]
    exact ⟨List.prefix_refl _, fun _ => ⟨rfl, rfl⟩⟩

/-- Hypotheses of `C76_completes_partial`, with the workers 0 and 1. -/
example : (∀ x ∈ calm, x.steady (fun w => w < 2) = true) ∧ (∀ x ∈ mapSteps calm true, x.reliable = true) ∧ (∀ x ∈ foldSteps calm true, x.reliable = true) ∧
    MapS.reads (mapSteps calm true) = (indexed 0 ("aé" : String).toList).map .ok ∧ Fold.reads (foldSteps calm true) = (mapOf rest true).outs ∧
    foldSteps calm true = [.item 1 (charStr 'é'), .item 0 (charStr 'a'), .publish 0] ++ .inputEnd :: [.recv 0, .finish] ∧
    (∀ x : Lab, x.serves (fun w => w < 2) = true → helloStep "join" "twice" (ops never) .cbor .postcard never dbg keyM keyF idM idF cfg rest x = none) ∧
    (∀ x : MapS.Label Char String Circ, helloStep "join" "twice" (ops never) .cbor .postcard never dbg keyM keyF idM idF cfg rest (.lead (.inl true) x) = none) ∧
    (∀ x : Fold.Label Str String Circ, helloStep "join" "twice" (ops never) .cbor .postcard never dbg keyM keyF idM idF cfg rest (.lead (.inr true) x) = none) := by
  refine ⟨by decide +kernel, by decide +kernel, by decide +kernel, ?_, ?_, rfl, fun x hx => ?_, fun x => ?_, fun x => ?_⟩
  · rw [show ("aé" : String).toList = ['a', 'é'] by decide +kernel]; rfl
  · rw [rest_outs]; rfl
  · exact no_work rest_queue rest_waiting x hx
  · have he := rest_ended
    have : (mapClient ((mapJob never dbg (keyM true) idM).run "join" .cbor .postcard) (encMap .cbor .postcard (mapJob never dbg (keyM true) idM)) (decMap .cbor (mapJob never dbg (keyM true) idM))).step
        (mapOf rest true) x (rest.results (.inl true)) = none := by
      simp [mapClient, MapS.step, he]
    exact lead_none this
  · have he := rest_folded
    have : (foldClient ((foldJob (keyF true) idF).run "join" .cbor .postcard) (foldJob (ε := String) (keyF true) idF).empty "twice" (encFold .cbor .postcard (foldJob (keyF true) idF))
        (decFold .cbor (foldJob (keyF true) idF))).step (foldOf rest true) x (rest.results (.inr true)) = none := by
      simp [foldClient, Fold.step, he]
    exact lead_none this

/-- Hypotheses of C75 (`Verif/Props/SystemPipe.lean`): `calm` is a pipeline with one map, drained. -/
example : Drained (fun l => (mapJob (ε := String) never dbg (keyM l) idM).Gives) calm rest ['a', 'é'] [true] Str
      (fun x z => ∃ y, x = y ∧ (mapJob (ε := String) never dbg (keyM true) idM).Gives y z) (mapOf rest true).outs (mapOf rest true).ended ∧
    Pipeline (fun l => (mapJob (ε := String) never dbg (keyM l) idM).Gives) calm rest ['a', 'é'] [true] Str
      (fun x z => ∃ y, x = y ∧ (mapJob (ε := String) never dbg (keyM true) idM).Gives y z) (mapOf rest true).outs (mapOf rest true).ended ∧
    NoReturn (.inl true) rest ∧ MapS.Collects (mapOf rest true).outs (mapOf rest true).ended (.ok [charStr 'a', charStr 'é']) := by
  refine ⟨.map .source rfl fun _ => ?_, .map .source ⟨List.prefix_refl _, fun _ => ⟨rfl, rfl⟩⟩, ?_, ?_⟩
  · change MapS.Label.inputEnd ∈ ([.item 0 'a', .send 0, .confirm, .item 1 'é', .send 0, .confirm, .inputEnd, .recv 0, .recv 0, .recvEnd, .finish] : List (MapS.Label Char String Circ)); simp
  · unfold NoReturn; decide +kernel
  · rw [rest_outs, rest_ended]
    exact .ok (oks := [(1, charStr 'é'), (0, charStr 'a')]) (sorted := [(0, charStr 'a'), (1, charStr 'é')]) (.swap _ _ _) (by simp)

/-- The same, but the result of the fold arrives before the fold sees the end of the map's stream: everything is done, and the leader waits for ever. -/
def late : List Lab := calm.take 40 ++ [.deliver 1 0] ++ serve 1 3 ++ [foldL true (.recv 0), foldL true .inputEnd]

theorem late_some : (go never late).isSome = true := by decide +kernel
def stuck := (go never late).get late_some

theorem stuck_queue : stuck.queue = [] := by decide +kernel
theorem stuck_ended : (mapOf stuck true).ended = true := by decide +kernel
theorem stuck_outs : (mapOf stuck true).outs = [.ok (1, charStr 'é'), .ok (0, charStr 'a')] := by decide +kernel
theorem stuck_fold : (foldOf stuck true).outcome.isSome = false ∧ (foldOf stuck true).size = some 2 ∧ (foldOf stuck true).outbox = [] ∧ (foldOf stuck true).final = none := by decide +kernel
theorem stuck_results : (stuck.results (.inr true)).length = 0 := by decide +kernel
theorem stuck_waiting : (stuck.worker 0).pc = .waiting ∧ (stuck.worker 1).pc = .waiting := by decide +kernel

/-- **C76, completion fails.** A computation of `"aé"` on two workers in which nothing goes wrong, all tasks were executed and all their results were received, and the leader has no result and waits for ever. -/
theorem C76_hang_witness : go never late = some stuck ∧ Runs true "aé" never dbg keyM keyF idM idF late stuck ∧ (∀ x ∈ late, x.steady (fun w => w < 2) = true) ∧
    (∀ x ∈ mapSteps late true, x.reliable = true) ∧ (∀ x ∈ foldSteps late true, x.reliable = true) ∧ (mapOf stuck true).ended = true ∧ (foldOf stuck true).outcome = none ∧
    (∀ x : Lab, x.serves (fun w => w < 2) = true → helloStep "join" "twice" (ops never) .cbor .postcard never dbg keyM keyF idM idF cfg stuck x = none) ∧
    (∀ x : MapS.Label Char String Circ, helloStep "join" "twice" (ops never) .cbor .postcard never dbg keyM keyF idM idF cfg stuck (.lead (.inl true) x) = none) ∧
    (∀ x : Fold.Label Str String Circ, x.reliable = true → helloStep "join" "twice" (ops never) .cbor .postcard never dbg keyM keyF idM idF cfg stuck (.lead (.inr true) x) = none) := by
  refine ⟨by simp [stuck], ⟨?_, ?_⟩, by decide +kernel, by decide +kernel, by decide +kernel, stuck_ended, by simpa using stuck_fold.1, fun x hx => ?_, fun x => ?_, fun x hx => ?_⟩
  · exact ⟨by rw [show ("aé" : String).toList = ['a', 'é'] by decide +kernel]; exact List.prefix_refl _, fun _ => ⟨rfl, by rw [show ("aé" : String).toList = ['a', 'é'] by decide +kernel]; rfl⟩⟩
  · rw [stuck_outs, stuck_ended]
    exact ⟨List.prefix_refl _, fun _ => ⟨rfl, rfl⟩⟩
  · exact no_work stuck_queue stuck_waiting x hx
  · have he := stuck_ended
    have : (mapClient ((mapJob never dbg (keyM true) idM).run "join" .cbor .postcard) (encMap .cbor .postcard (mapJob never dbg (keyM true) idM)) (decMap .cbor (mapJob never dbg (keyM true) idM))).step
        (mapOf stuck true) x (stuck.results (.inl true)) = none := by
      simp [mapClient, MapS.step, he]
    exact lead_none this
  · obtain ⟨h1, h2, h3, h4⟩ := stuck_fold
    have h5 := List.eq_nil_of_length_eq_zero stuck_results
    have : (foldClient ((foldJob (keyF true) idF).run "join" .cbor .postcard) (foldJob (ε := String) (keyF true) idF).empty "twice" (encFold .cbor .postcard (foldJob (keyF true) idF))
        (decFold .cbor (foldJob (keyF true) idF))).step (foldOf stuck true) x (stuck.results (.inr true)) = none := by
      rw [h5]
      cases x <;> first | (simp [Fold.Label.reliable] at hx; done) | simp [foldClient, foldLead, Fold.step, h1, h2, h3, h4, Fold.takeAt]
    exact lead_none this

/-- An abort request hits the task of `'b'`: the leader's `main` ends with an error whose text names it. -/
def aborted : List Lab :=
  [mapL true (.item 0 'a'), mapL true (.send 0), mapL true (.item 1 'b'), mapL true (.send 0), .deliver 0 0, .deliver 1 0] ++ serve 0 0 ++
  [.work 1 .checkFlag, .work 1 .checkTerm, .work 1 .start, .finish 1 (env 7), .work 1 .mark, .work 1 .pubErr, mapL true (.recv 0), mapL true (.recv 0), foldL true (.item 0 (charStr 'a')),
    foldL true (.inputErr "Fatal operation error: aborted per request at CharToString iteration 4 for input 'b'")]

theorem aborted_some : (go flag aborted).isSome = true := by decide +kernel
def halted := (go flag aborted).get aborted_some

theorem halted_outs : (mapOf halted true).outs =
    [.ok (0, charStr 'a'), .error "Fatal operation error: aborted per request at CharToString iteration 4 for input 'b'"] := by decide +kernel
theorem halted_ended : (mapOf halted true).ended = false := by decide +kernel

/-- Hypotheses of `C76_errors`. -/
example : go flag aborted = some halted ∧ Runs true "ab" flag dbg keyM keyF idM idF aborted halted ∧ (∀ x ∈ mapSteps aborted true, x.connected = true) ∧
    (foldOf halted true).outcome = some (.err "Fatal operation error: aborted per request at CharToString iteration 4 for input 'b'") ∧ (∀ c, (dbg c).utf8ByteSize ≤ 12) ∧
    exit "ab" (.err "Fatal operation error: aborted per request at CharToString iteration 4 for input 'b'" : Fold.Outcome Str String) (.ok ()) ≠ .ok := by
  refine ⟨by simp [halted], ⟨?_, ?_⟩, by decide +kernel, by decide +kernel, fun c => ?_, by simp [exit]⟩
  · exact ⟨by rw [show ("ab" : String).toList = ['a', 'b'] by decide +kernel]; exact List.prefix_refl _, fun h => absurd h (by
      change MapS.Label.inputEnd ∉ ([.item 0 'a', .send 0, .item 1 'b', .send 0, .recv 0, .recv 0] : List (MapS.Label Char String Circ)); simp)⟩
  · rw [halted_outs, halted_ended]
    exact ⟨List.prefix_refl _, fun h => absurd h (by
      change Fold.Label.inputEnd ∉ ([.item 0 (charStr 'a'), .inputErr "Fatal operation error: aborted per request at CharToString iteration 4 for input 'b'"] : List (Fold.Label Str String Circ)); simp)⟩
  · have h1 : ("'" : String).utf8ByteSize = 1 := by decide +kernel
    have h2 : c.toString.utf8ByteSize = c.utf8Size := by rw [show c.toString = String.singleton c from rfl]; simp
    have := Char.utf8Size_le_four c
    simp only [dbg, String.utf8ByteSize_append, h1, h2]
    omega

end HelloDemo

end Hello
end Paladin
