import Verif.Props.MemBytes
import Verif.Props.SoloPipe
/-!
# Properties C79, C97: a map in one process with one worker is a sequential map

Completion (C79) and order (C97) together, with messages as bytes: at rest, the mapped stream has yielded exactly what mapping the input sequentially yields. Vocabulary: `Verif/Spec/MemBytes.lean`,
`Verif/Spec/SystemMem.lean`.
-/
namespace Paladin
namespace SystemMem
open Retry Exec Wire Paladin.System

section
variable {ε A B : Type} [DecidableEq A] [DecidableEq B] [Anyhow ε] {join dupErr : ε} {ops : List (OpDef ε)} {k kt : Serializer} {M : A → MapJob ε} {F : B → FoldJob ε}
  {cfg : Worker.Cfg (A ⊕ B)}

theorem outs_of_errs {β' ε' : Type} (outs : List (MapS.Item β' ε')) (h : MapS.errs outs = []) : outs = (MapS.oks outs).map .ok := by
  induction outs with
  | nil => rfl
  | cons x l ih =>
    cases x with
    | ok x => simp only [MapS.oks, List.map_cons]; rw [← ih (by simpa [MapS.errs] using h)]
    | error e => simp [MapS.errs] at h

theorem indexed_of_fst {α' β' : Type} : ∀ (st : Nat) (xs : List α') (os : List (Nat × β')), os.map Prod.fst = (indexed st xs).map Prod.fst → os = indexed st (os.map Prod.snd)
  | _, [], [], _ => rfl
  | _, [], _ :: _, h => by simp [indexed] at h
  | _, _ :: _, [], h => by simp [indexed] at h
  | st, x :: xs, o :: os, h => by
    simp only [indexed, List.map_cons, List.cons.injEq] at h ⊢
    exact ⟨Prod.ext h.1 rfl, indexed_of_fst (st + 1) xs os h.2⟩

/-- **C79, map, completion, through bytes.** As `C79_map_completes`, with messages as bytes: it suffices that the operation always returns on the inputs with outputs that can be serialized, that the inputs and the
operation can be serialized, and that indices fit into 64 bits. -/
theorem C79_map_bytes (a : A) (hreg : Registered ops (M a).d (M a).id) (ls : List (BLabel ε M F)) (s : BSt ε M F) (h : memBytesRun join dupErr ops k kt M F cfg ls = some s)
    (W : Nat → Bool) (hW : ∃ w, W w = true) (hst : ∀ l ∈ ls, l.steady W = true) (hrel : ∀ l ∈ mapSteps (actions ls) a, l.reliable = true)
    (hok : ∀ p ∈ MapS.inputs (mapSteps (actions ls) a), ∀ i, ∃ v b, (M a).d.execute (M a).op p.2 i = .ok v ∧ (M a).d.outC.enc kt v = .ok b)
    (hidx : ∀ p ∈ MapS.inputs (mapSteps (actions ls) a), p.1 < 2 ^ 64 ∧ ∃ b, (M a).d.inC.enc kt p.2 = .ok b) (hopenc : ∃ b, (M a).d.opC.enc kt (M a).op = .ok b)
    (hrest : ∀ l, l.moves W (fun j => decide (j = .inl a)) (dirInternal fun j => decide (j = .inl a)) = true → bytesStep join dupErr ops k kt M F cfg s l = none) :
    ((mapOf s.sys a).ended = true ↔ .inputEnd ∈ mapSteps (actions ls) a) ∧ MapS.OneEach (M a).Gives (MapS.inputs (mapSteps (actions ls) a)) (MapS.oks (mapOf s.sys a).outs) ∧
      MapS.errs (mapOf s.sys a).outs = [] := by
  obtain ⟨h1, ⟨U, h2, h3, h4⟩, h5⟩ := C79_map_completes a (map_faithful hreg) ls s h W hW hst hrel (fun p hp => encMap_some (hidx p hp).1 (hidx p hp).2 hopenc)
    (fun p hp x => localOp_first (hok p hp) x) hrest
  exact ⟨h1, ⟨U, h2, h3, fun t ht => gives_map (h4 t ht)⟩, h5⟩

/-- **C97, at rest.** One process, in-memory queues, the one worker `w`, publishes that do not wait, any other jobs. The input `xs` of a map has been read. Under the assumptions of completion, when the worker,
the publishers and this leader can do nothing more, the mapped stream has yielded exactly `f xs[0], f xs[1], …` with the indices `0, 1, …`, in this order and without an error, where `f x` is a value that a call of `execute` returned
for `x`; and it has ended if its input has. -/
theorem C97_sequential (w : Nat) (a : A) (hreg : Registered ops (M a).d (M a).id) (ls : List (BLabel ε M F)) (s : BSt ε M F) (h : memBytesRun join dupErr ops k kt M F cfg ls = some s)
    (hw : ∀ w', .deliver w' ∈ ls → w' = w) (ho : ∀ k, .send k ∈ mapSteps (actions ls) a → k = 0) (hst : ∀ l ∈ ls, l.steady (fun v => decide (v = w)) = true)
    (hrel : ∀ l ∈ mapSteps (actions ls) a, l.reliable = true) (xs : List (M a).d.In) (hin : MapS.inputs (mapSteps (actions ls) a) = indexed 0 xs) (hsz : xs.length ≤ 2 ^ 64)
    (hok : ∀ x ∈ xs, ∀ i, ∃ v b, (M a).d.execute (M a).op x i = .ok v ∧ (M a).d.outC.enc kt v = .ok b) (henc : ∀ x ∈ xs, ∃ b, (M a).d.inC.enc kt x = .ok b)
    (hopenc : ∃ b, (M a).d.opC.enc kt (M a).op = .ok b)
    (hrest : ∀ l, l.moves (fun v => decide (v = w)) (fun j => decide (j = .inl a)) (dirInternal fun j => decide (j = .inl a)) = true → bytesStep join dupErr ops k kt M F cfg s l = none) :
    (∃ vs, (mapOf s.sys a).outs = (indexed 0 vs).map .ok ∧ List.Forall₂ (M a).Gives xs vs) ∧ ((mapOf s.sys a).ended = true ↔ .inputEnd ∈ mapSteps (actions ls) a) := by
  have hmem : ∀ p ∈ MapS.inputs (mapSteps (actions ls) a), p.2 ∈ xs := by
    intro p hp
    rw [hin] at hp
    rw [← Fold.map_snd_indexed 0 xs]
    exact List.mem_map_of_mem hp
  obtain ⟨h1, ⟨U, h2, h3, _⟩, h5⟩ := C79_map_bytes a hreg ls s h (fun v => decide (v = w)) ⟨w, by simp⟩ hst hrel (fun p hp => hok _ (hmem p hp))
    (fun p hp => ⟨by rw [hin] at hp; have := Fold.mem_indexed hp; omega, henc _ (hmem p hp)⟩) hopenc hrest
  refine ⟨?_, h1⟩
  have hlen : (MapS.oks (mapOf s.sys a).outs).length = xs.length := by
    have a1 := h2.length_eq
    have a2 := congrArg List.length h3
    simp only [List.length_map] at a1 a2
    rw [hin, Fold.length_indexed] at a1
    omega
  obtain ⟨qs, h6, h7⟩ := solo_stage w a (map_faithful hreg) ls s hw ho h
  rw [hin] at h6
  rw [← oks_filterMap] at h7
  obtain rfl := h6.eq_of_length (by rw [h7.length_eq, hlen, Fold.length_indexed])
  refine ⟨(MapS.oks (mapOf s.sys a).outs).map Prod.snd, ?_, ?_⟩
  · rw [← indexed_of_fst 0 xs _ (fst_eq h7)]
    exact outs_of_errs _ h5
  · rw [List.forall₂_map_right_iff, ← Fold.map_snd_indexed 0 xs, List.forall₂_map_left_iff]
    exact h7.imp fun _ _ ⟨_, c, hc⟩ => gives_map ⟨c, hc⟩
end

/-! ## Hypotheses met -/

namespace BytesDemo
open System.BytesDemo

/-- A map of `[300, 7]`, to the end; worker 0 waits for a task. -/
def alone : List BLab :=
  [.taskPoll 0, .resPoll (.inl ()), mapB (.item 0 (sz 300)), mapB (.send 0), mapB (.item 1 (sz 7)), mapB (.send 0), .taskRelease, .taskRelease, mapB .confirm, mapB .confirm, mapB .inputEnd] ++
  serveB (.inl ()) ++ [.resPoll (.inl ()), .recv (.inl ()) (.recv 0), .resPoll (.inl ())] ++ serveB (.inl ()) ++
  [.resPoll (.inl ()), .recv (.inl ()) (.recv 0), mapB .recvEnd, mapB .finish, .taskPoll 0]

theorem alone_some : (goB alone).isSome = true := by decide +kernel

def atRest := (goB alone).get alone_some

theorem alone_steps : mapSteps (actions alone) () = [.item 0 (sz 300), .send 0, .item 1 (sz 7), .send 0, .confirm, .confirm, .inputEnd, .recv 0, .recv 0, .recvEnd, .finish] := rfl

theorem atRest_pc : (atRest.sys.worker 0).pc = .waiting := by decide +kernel
theorem atRest_task : 0 ∈ atRest.tq.waiters ∧ 0 ∉ atRest.tq.holding ∧ atRest.tq.owed = 0 := by decide +kernel
theorem atRest_res : (atRest.rq (.inl ())).holding = [] ∧ (atRest.rq (.inl ())).owed = 0 ∧ dirListens (.inl ()) (atRest.sys.lead (.inl ())) = false := by decide +kernel
theorem atRest_ended : (mapOf atRest.sys ()).ended = true := by decide +kernel

/-- At the end nothing more can happen at worker 0 and the leader of the map. -/
theorem atRest_stuck (l : BLab) (hl : l.moves (fun v => decide (v = 0)) (fun j => decide (j = .inl ())) (dirInternal fun j => decide (j = .inl ())) = true) :
    bytesStep "join" "twice" ops .cbor .postcard M F System.Demo.cfg atRest l = none := by
  have hpc : (atRest.sys.worker 0).pc = .waiting ∧ 0 ∈ atRest.tq.waiters ∧ 0 ∉ atRest.tq.holding := ⟨atRest_pc, atRest_task.1, atRest_task.2.1⟩
  have hres := atRest_res
  have hint : ∀ j l, dirInternal (α := fun a => (M a).d.In) (γ := fun b => (F b).Elem) (ε := String) (ω := Circ) (fun j => decide (j = Sum.inl ())) j l = true → j = Sum.inl () := by
    intro j l
    cases j <;> simp [dirInternal]
  cases l with
  | lead j l =>
    obtain rfl := hint j l hl
    have he := atRest_ended
    have : ∀ rs, (mapClient ((M ()).run "join" .cbor .postcard) (encMap .cbor .postcard (M ())) (decMap .cbor (M ()))).step (mapOf atRest.sys ()) l rs = none := by
      intro rs
      simp [mapClient, MapS.step, he]
    simp only [bytesStep, step]
    rw [lead_none, Option.map_none]
    exact this _
  | recv j l =>
    obtain rfl := hint j l hl
    simp [bytesStep, step, InMem.Chan.pop, hres.1]
  | resPoll j =>
    obtain rfl : j = .inl () := by simpa [Label.moves] using hl
    simp [bytesStep, step, hres.2.2]
  | resRelease j =>
    obtain rfl : j = .inl () := by simpa [Label.moves] using hl
    simp [bytesStep, step, InMem.Chan.release, hres.2.1]
  | taskPoll w =>
    obtain rfl : w = 0 := by simpa [Label.moves] using hl
    simp [bytesStep, step, hpc.2.1]
  | taskRelease => simp [bytesStep, step, InMem.Chan.release, atRest_task.2.2]
  | deliver w =>
    obtain rfl : w = 0 := by simpa [Label.moves] using hl
    simp [bytesStep, step, InMem.Chan.pop, hpc.2.2]
  | finish w x =>
    obtain rfl : w = 0 := by simpa [Label.moves] using hl
    simp only [bytesStep, step, System.step]
    split
    · simp [Worker.step, hpc.1]
    · rfl
  | work w l =>
    have hl' : w = 0 ∧ routine l = true := by simpa [Label.moves] using hl
    obtain ⟨rfl, hr⟩ := hl'
    cases l <;> first | (simp [routine] at hr; done) | simp [bytesStep, step, System.step, Worker.step, hpc.1]

/-- The hypotheses of `C97_sequential` and `C79_map_bytes` about the execution are met. -/
theorem C97_sequential_example : goB alone = some atRest ∧ (∀ w', .deliver w' ∈ alone → w' = 0) ∧ (∀ k, .send k ∈ mapSteps (actions alone) () → k = 0) ∧
    (∀ l ∈ alone, l.steady (fun v => decide (v = 0)) = true) ∧ (∀ l ∈ mapSteps (actions alone) (), l.reliable = true) ∧ MapS.inputs (mapSteps (actions alone) ()) = indexed 0 [sz 300, sz 7] ∧
    .inputEnd ∈ mapSteps (actions alone) () ∧ (mapOf atRest.sys ()).outs = [.ok (0, (sz 305 : USz)), .ok (1, (sz 12 : USz))] := by
  refine ⟨by simp [atRest], ?_, by rw [alone_steps]; simp, by decide +kernel, by decide +kernel, by rw [alone_steps]; rfl, by rw [alone_steps]; simp, by decide +kernel⟩
  intro w' hw
  simp [alone, serveB] at hw
  omega

theorem usz_enc (x : USz) : ∃ b, usz.enc .postcard x = .ok b := by
  have := usz_short x
  simp only [usz, Codec.ofSerde]
  rw [dif_pos this]
  exact ⟨_, rfl⟩

/-- `C97_sequential` for this execution. -/
example : ∃ vs, (mapOf atRest.sys ()).outs = (indexed 0 vs).map .ok ∧ List.Forall₂ (M ()).Gives [sz 300, sz 7] vs := by
  obtain ⟨h1, h2, h3, h4, h5, h6, _⟩ := C97_sequential_example
  exact (C97_sequential 0 () registered_map alone atRest h1 h2 h3 h4 h5 [sz 300, sz 7] h6 (by decide) (fun x _ _ => ⟨_, (usz_enc _).choose, rfl, (usz_enc _).choose_spec⟩) (fun x _ => usz_enc x)
    (usz_enc _) atRest_stuck).1

end BytesDemo
end SystemMem
end Paladin
