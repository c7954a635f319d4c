import Verif.Props.SoloDone
import Verif.Props.SystemAmqp
import Verif.Props.AmqpPipe
/-!
# Properties C79, C80, C81, C97: `into_values_sorted` returns

`IndexedStream::from(xs).map(op).into_values_sorted()` (`directive/mod.rs` 309-311, `directive/indexed_stream/mod.rs` 138-142) with messages as bytes, over the in-memory queues and over a broker: at rest the call
can return, and only `Ok` of one output per element of `xs`, in order. The same for chains of maps (C81), and their order with one worker (C97). Vocabulary: `Verif/Spec/MemBytes.lean`, `Verif/Spec/AmqpPipe.lean`.
-/
namespace Paladin
open Retry Exec Wire

theorem MapS.collects_oneEach {α β ε : Type} {R : α → β → Prop} {xs : List α} {inputs : List (Nat × α)} {outs : List (MapS.Item β ε)} (h : MapS.OneEach R inputs (MapS.oks outs))
    (hin : inputs.Perm (indexed 0 xs)) (he : MapS.errs outs = []) :
    (∃ r, MapS.Collects outs true r) ∧ ∀ r, MapS.Collects outs true r → ∃ vs, r = .ok vs ∧ List.Forall₂ R xs vs := by
  have ho := SystemMem.outs_of_errs outs he
  have h' : MapS.OneEach R (indexed 0 xs) (MapS.oks outs) := by
    obtain ⟨U, u1, u2, u3⟩ := h
    exact ⟨U, u1.trans hin, u2, u3⟩
  constructor
  · have hs : ((MapS.oks outs).mergeSort fun a b => decide (a.1 ≤ b.1)).Pairwise fun a b => a.1 ≤ b.1 := by
      have := List.pairwise_mergeSort (le := fun a b : Nat × β => decide (a.1 ≤ b.1)) (by intro a b c; simp; omega) (by intro a b; simp; omega) (MapS.oks outs)
      exact this.imp fun h => by simpa using h
    have : MapS.Collects ((MapS.oks outs).map (Except.ok (ε := ε))) true _ := .ok (List.mergeSort_perm (MapS.oks outs) fun a b => decide (a.1 ≤ b.1)) hs
    rw [← ho] at this
    exact ⟨_, this⟩
  · intro r hr
    generalize ho' : outs = os at hr
    cases hr with
    | err =>
      rw [ho'] at he
      simp [MapS.errs_append, MapS.errs] at he
    | ok hp hs =>
      refine ⟨_, rfl, ?_⟩
      rw [ho', MapS.oks_map_ok] at h'
      exact h'.sorted hp hs

namespace SystemMem
open Paladin.System

section
variable {ε A B : Type} [DecidableEq A] [DecidableEq B] [Anyhow ε] {join dupErr : ε} {ops : List (OpDef ε)} {k kt : Serializer} {M : A → MapJob ε} {F : B → FoldJob ε}
  {cfg : Worker.Cfg (A ⊕ B)}

/-- **C79, `into_values_sorted`, at rest.** A map over `xs` runs in memory beside any other jobs, on the workers of `W`; its input has been read to the end. The operation always returns on the elements of `xs`, with
outputs that can be serialized; the elements and the operation can be serialized. When neither workers, nor publishers, nor this leader can do anything more, `into_values_sorted` returns, and what it returns
is `Ok` of one value per element of `xs`, in order, each a value that a call of `execute` returned for that element. -/
theorem C79_sorted_completes (a : A) (hreg : Registered ops (M a).d (M a).id) (ls : List (BLabel ε M F)) (s : BSt ε M F) (h : memBytesRun join dupErr ops k kt M F cfg ls = some s)
    (W : Nat → Bool) (hW : ∃ w, W w = true) (hst : ∀ l ∈ ls, l.steady W = true) (hrel : ∀ l ∈ mapSteps (actions ls) a, l.reliable = true)
    (xs : List (M a).d.In) (hin : (MapS.inputs (mapSteps (actions ls) a)).Perm (indexed 0 xs)) (hend : .inputEnd ∈ mapSteps (actions ls) a) (hsz : xs.length ≤ 2 ^ 64)
    (hok : ∀ x ∈ xs, ∀ i, ∃ v b, (M a).d.execute (M a).op x i = .ok v ∧ (M a).d.outC.enc kt v = .ok b) (henc : ∀ x ∈ xs, ∃ b, (M a).d.inC.enc kt x = .ok b)
    (hopenc : ∃ b, (M a).d.opC.enc kt (M a).op = .ok b)
    (hrest : ∀ l, l.moves W (fun j => decide (j = .inl a)) (dirInternal fun j => decide (j = .inl a)) = true → bytesStep join dupErr ops k kt M F cfg s l = none) :
    (∃ r, MapS.Collects (mapOf s.sys a).outs (mapOf s.sys a).ended r) ∧
      ∀ r, MapS.Collects (mapOf s.sys a).outs (mapOf s.sys a).ended r → ∃ vs, r = .ok vs ∧ List.Forall₂ (M a).Gives xs vs := by
  have hmem : ∀ p ∈ MapS.inputs (mapSteps (actions ls) a), p ∈ indexed 0 xs ∧ p.2 ∈ xs := by
    intro p hp
    have hp := hin.subset hp
    refine ⟨hp, ?_⟩
    rw [← Fold.map_snd_indexed 0 xs]
    exact List.mem_map_of_mem hp
  obtain ⟨h1, h2, h3⟩ := C79_map_bytes a hreg ls s h W hW hst hrel (fun p hp => hok _ (hmem p hp).2)
    (fun p hp => ⟨by have := Fold.mem_indexed (hmem p hp).1; omega, henc _ (hmem p hp).2⟩) hopenc hrest
  rw [h1.2 hend]
  exact MapS.collects_oneEach h2 hin h3

variable {X : Type}

/-- A chain of maps in memory, at rest. -/
theorem chain_rest (ls : List (BLabel ε M F)) (s : BSt ε M F) (h : memBytesRun join dupErr ops k kt M F cfg ls = some s) (W : Nat → Bool) (hW : ∃ w, W w = true)
    (hst : ∀ l ∈ ls, l.steady W = true) (xs : List X) (as : List A) (Y : Type) (R : X → Y → Prop) (items : List (MapS.Item Y ε)) (en : Bool)
    (hp : Drained (fun a => (M a).Gives) (actions ls) s.view xs as Y R items en) (hreg : ∀ a ∈ as, Registered ops (M a).d (M a).id)
    (hrel : ∀ a ∈ as, ∀ l ∈ mapSteps (actions ls) a, l.reliable = true)
    (hok : ∀ a ∈ as, ∀ p ∈ MapS.inputs (mapSteps (actions ls) a), ∀ i, ∃ v b, (M a).d.execute (M a).op p.2 i = .ok v ∧ (M a).d.outC.enc kt v = .ok b)
    (hidx : ∀ a ∈ as, ∀ p ∈ MapS.inputs (mapSteps (actions ls) a), p.1 < 2 ^ 64 ∧ ∃ b, (M a).d.inC.enc kt p.2 = .ok b) (hopenc : ∀ a ∈ as, ∃ b, (M a).d.opC.enc kt (M a).op = .ok b)
    (K : A ⊕ B → Bool) (hK : ∀ j, K j = true ↔ ∃ a ∈ as, j = .inl a) (hrest : ∀ l, l.moves W K (dirInternal K) = true → bytesStep join dupErr ops k kt M F cfg s l = none) :
    en = true ∧ MapS.errs items = [] ∧ MapS.OneEach R (indexed 0 xs) (MapS.oks items) := by
  obtain ⟨h6, h7, -⟩ := view_rest ls s h W hW hst K hrest
  exact drained_oneEach (C79_refines ls s h).1 W hW (steady_sys hst) hp (fun a ha => map_faithful (hreg a ha)) (fun a ha p hp x => localOp_first (hok a ha p hp) x) hrel
    (fun a ha p hp => encMap_some (hidx a ha p hp).1 (hidx a ha p hp).2 (hopenc a ha)) (fun _ _ _ _ => gives_map) h6 (fun a ha => h7 a ((hK _).2 ⟨a, ha, rfl⟩))

/-- **C81, chained maps, `into_values_sorted` returns, in memory.** A chain of maps over `xs` runs in memory beside any other jobs, on the workers of `W`, and each map has read all that the one before has yielded. The
operations always return on what reaches them, with outputs that can be serialized, as can the inputs and the operations. When neither workers, nor publishers, nor the leaders of the chain can do anything more, `into_values_sorted` returns, and
what it returns is `Ok` of one image of each element of `xs`, in order. -/
theorem C81_memory_sorted_completes (ls : List (BLabel ε M F)) (s : BSt ε M F) (h : memBytesRun join dupErr ops k kt M F cfg ls = some s) (W : Nat → Bool) (hW : ∃ w, W w = true)
    (hst : ∀ l ∈ ls, l.steady W = true) (xs : List X) (as : List A) (Y : Type) (R : X → Y → Prop) (items : List (MapS.Item Y ε)) (en : Bool)
    (hp : Drained (fun a => (M a).Gives) (actions ls) s.view xs as Y R items en) (hreg : ∀ a ∈ as, Registered ops (M a).d (M a).id)
    (hrel : ∀ a ∈ as, ∀ l ∈ mapSteps (actions ls) a, l.reliable = true)
    (hok : ∀ a ∈ as, ∀ p ∈ MapS.inputs (mapSteps (actions ls) a), ∀ i, ∃ v b, (M a).d.execute (M a).op p.2 i = .ok v ∧ (M a).d.outC.enc kt v = .ok b)
    (hidx : ∀ a ∈ as, ∀ p ∈ MapS.inputs (mapSteps (actions ls) a), p.1 < 2 ^ 64 ∧ ∃ b, (M a).d.inC.enc kt p.2 = .ok b) (hopenc : ∀ a ∈ as, ∃ b, (M a).d.opC.enc kt (M a).op = .ok b)
    (K : A ⊕ B → Bool) (hK : ∀ j, K j = true ↔ ∃ a ∈ as, j = .inl a) (hrest : ∀ l, l.moves W K (dirInternal K) = true → bytesStep join dupErr ops k kt M F cfg s l = none) :
    (∃ r, MapS.Collects items en r) ∧ ∀ r, MapS.Collects items en r → ∃ vs, r = .ok vs ∧ List.Forall₂ R xs vs := by
  obtain ⟨rfl, h2, h3⟩ := chain_rest ls s h W hW hst xs as Y R items en hp hreg hrel hok hidx hopenc K hK hrest
  exact MapS.collects_oneEach h3 (.refl _) h2

theorem drained_order (w : Nat) (ls : List (BLabel ε M F)) (s : BSt ε M F) (h : memBytesRun join dupErr ops k kt M F cfg ls = some s) (hw : ∀ w', .deliver w' ∈ ls → w' = w)
    {xs : List X} {as : List A} {Y : Type} {R : X → Y → Prop} {items : List (MapS.Item Y ε)} {en : Bool} (hp : Drained (fun a => (M a).Gives) (actions ls) s.view xs as Y R items en)
    (hreg : ∀ a ∈ as, Registered ops (M a).d (M a).id) (ho : ∀ a ∈ as, ∀ k, .send k ∈ mapSteps (actions ls) a → k = 0) :
    ∃ qs, List.Sublist qs (indexed 0 xs) ∧ List.Forall₂ (fun p o => o.1 = p.1 ∧ R p.2 o.2) qs (MapS.oks items) := by
  induction hp with
  | source => exact ⟨indexed 0 xs, List.Sublist.refl _, by rw [MapS.oks_map_ok]; exact List.forall₂_same.2 fun p _ => ⟨rfl, rfl⟩⟩
  | @map a as items en R _ reads ended ih =>
    obtain ⟨qs, h1, h2⟩ := ih (fun a ha => hreg a (by simp [ha])) fun a ha => ho a (by simp [ha])
    obtain ⟨rs, h3, h4⟩ := solo_stage w a (map_faithful (hreg a (by simp))) ls s hw (ho a (by simp)) h
    rw [← MapS.reads_inputs, reads] at h3
    rw [← oks_filterMap] at h4
    obtain ⟨ts, h6, h7⟩ := comp_sublist (S := (M a).Gives) h2 h3 (h4.imp fun _ _ ⟨e, x, hx⟩ => ⟨e, gives_map ⟨x, hx⟩⟩)
    exact ⟨ts, h6.trans h1, h7⟩

/-- **C97, chained maps, at rest.** If moreover there is the one worker `w`, and publishes do not wait, then the chain has ended and has yielded exactly one image of each element of `xs`, with the indices `0, 1, …`, in
this order and without any sorting: what mapping `xs` sequentially yields. -/
theorem C97_chain_sequential (w : Nat) (ls : List (BLabel ε M F)) (s : BSt ε M F) (h : memBytesRun join dupErr ops k kt M F cfg ls = some s) (hw : ∀ w', .deliver w' ∈ ls → w' = w)
    (hst : ∀ l ∈ ls, l.steady (fun v => decide (v = w)) = true) (xs : List X) (as : List A) (ho : ∀ a ∈ as, ∀ k, .send k ∈ mapSteps (actions ls) a → k = 0) (Y : Type) (R : X → Y → Prop)
    (items : List (MapS.Item Y ε)) (en : Bool)
    (hp : Drained (fun a => (M a).Gives) (actions ls) s.view xs as Y R items en) (hreg : ∀ a ∈ as, Registered ops (M a).d (M a).id)
    (hrel : ∀ a ∈ as, ∀ l ∈ mapSteps (actions ls) a, l.reliable = true)
    (hok : ∀ a ∈ as, ∀ p ∈ MapS.inputs (mapSteps (actions ls) a), ∀ i, ∃ v b, (M a).d.execute (M a).op p.2 i = .ok v ∧ (M a).d.outC.enc kt v = .ok b)
    (hidx : ∀ a ∈ as, ∀ p ∈ MapS.inputs (mapSteps (actions ls) a), p.1 < 2 ^ 64 ∧ ∃ b, (M a).d.inC.enc kt p.2 = .ok b) (hopenc : ∀ a ∈ as, ∃ b, (M a).d.opC.enc kt (M a).op = .ok b)
    (K : A ⊕ B → Bool) (hK : ∀ j, K j = true ↔ ∃ a ∈ as, j = .inl a)
    (hrest : ∀ l, l.moves (fun v => decide (v = w)) K (dirInternal K) = true → bytesStep join dupErr ops k kt M F cfg s l = none) :
    en = true ∧ ∃ vs, items = (indexed 0 vs).map .ok ∧ List.Forall₂ R xs vs := by
  obtain ⟨h1, h2, U, u1, u2, _⟩ := chain_rest ls s h _ ⟨w, by simp⟩ hst xs as Y R items en hp hreg hrel hok hidx hopenc K hK hrest
  obtain ⟨qs, h6, h7⟩ := drained_order w ls s h hw hp hreg ho
  have hlen : (MapS.oks items).length = xs.length := by
    have a1 := u1.length_eq
    have a2 := congrArg List.length u2
    simp only [List.length_map, Fold.length_indexed] at a1 a2
    omega
  obtain rfl := h6.eq_of_length (by rw [h7.length_eq, hlen, Fold.length_indexed])
  refine ⟨h1, (MapS.oks items).map Prod.snd, ?_, ?_⟩
  · rw [← indexed_of_fst 0 xs _ (fst_eq h7)]
    exact outs_of_errs _ h2
  · rw [List.forall₂_map_right_iff, ← Fold.map_snd_indexed 0 xs, List.forall₂_map_left_iff]
    exact h7.imp fun _ _ h => h.2
end

namespace BytesDemo
open System.BytesDemo

/-- `C79_sorted_completes` at the end of `alone`. -/
example : ∃ r, MapS.Collects (mapOf atRest.sys ()).outs (mapOf atRest.sys ()).ended r := by
  obtain ⟨h1, _, _, h4, h5, h6, h7, _⟩ := C97_sequential_example
  exact (C79_sorted_completes () registered_map alone atRest h1 (fun v => decide (v = 0)) ⟨0, rfl⟩ h4 h5 [sz 300, sz 7] (h6 ▸ List.Perm.refl _) h7 (by decide)
    (fun x _ _ => ⟨_, (usz_enc _).choose, rfl, (usz_enc _).choose_spec⟩) (fun x _ => usz_enc x) (usz_enc _) atRest_stuck).1

/-- Hypotheses of `C81_memory_sorted_completes`: `alone` is a drained chain of one map. -/
theorem C81_memory_sorted_example : Drained (fun a => (M a).Gives) (actions alone) atRest.view [sz 300, sz 7] [()] USz (fun x z => ∃ y, x = y ∧ (M ()).Gives y z) (mapOf atRest.view ()).outs (mapOf atRest.view ()).ended ∧
    (∀ j : Unit ⊕ Bool, decide (j = .inl ()) = true ↔ ∃ a ∈ [()], j = .inl a) := by
  refine ⟨.map (a := ()) .source (by rw [alone_steps]; rfl) fun _ => by rw [alone_steps]; simp, fun j => ?_⟩
  cases j <;> simp

/-- `C97_chain_sequential` for this execution. -/
example : ∃ vs, (mapOf atRest.view ()).outs = (indexed 0 vs).map .ok ∧ List.Forall₂ (fun x z => ∃ y, x = y ∧ (M ()).Gives y z) [sz 300, sz 7] vs := by
  obtain ⟨h1, h2, h3, h4, h5, h6, _⟩ := C97_sequential_example
  refine (C97_chain_sequential 0 alone atRest h1 h2 h4 [sz 300, sz 7] [()] (fun _ _ => h3) USz _ _ _ C81_memory_sorted_example.1 (fun _ _ => registered_map) (fun _ _ => h5)
    (fun _ _ x _ _ => ⟨_, (usz_enc _).choose, rfl, (usz_enc _).choose_spec⟩) (fun _ _ p hp => ⟨?_, usz_enc _⟩) (fun _ _ => usz_enc _) _ C81_memory_sorted_example.2 atRest_stuck).2
  rw [h6] at hp
  have := Fold.mem_indexed hp
  simp at this
  omega

end BytesDemo
end SystemMem

namespace SystemAmqp
open Paladin.System

section
variable {ε A B : Type} [DecidableEq A] [DecidableEq B] [Anyhow ε] {join dupErr : ε} {ops : List (OpDef ε)} {k kt : Serializer} {M : A → MapJob ε} {F : B → FoldJob ε}
  {nt : Net (A ⊕ B)} {cfg : Worker.Cfg (A ⊕ B)}

/-- **C80, `into_values_sorted`, at rest.** As `C79_sorted_completes`, over a broker: no connection was closed, no message lost, and workers of `W` consume from the bus (`Attended`). -/
theorem C80_sorted_completes (a : A) (hreg : Registered ops (M a).d (M a).id)
    (ls : List (Label (A ⊕ B) (DirLabel (fun a => (M a).d.In) (fun b => (F b).Elem) ε Circ) Buf Buf ε ε Circ))
    (s : St (A ⊕ B) (DirSt (fun a => (M a).d.In) (fun a => (M a).d.Out) (fun b => (F b).Elem) ε) Buf Buf ε ε) (h : bytesRun join dupErr ops k kt M F nt cfg ls = some s)
    (W : Nat → Bool) (hst : ∀ l ∈ ls, l.steady W = true) (hat : Attended SystemMem.dirListens W (.inl a) s) (hrel : ∀ l ∈ mapSteps ls a, l.reliable = true)
    (xs : List (M a).d.In) (hin : (MapS.inputs (mapSteps ls a)).Perm (indexed 0 xs)) (hend : .inputEnd ∈ mapSteps ls a) (hsz : xs.length ≤ 2 ^ 64)
    (hok : ∀ x ∈ xs, ∀ i, ∃ v b, (M a).d.execute (M a).op x i = .ok v ∧ (M a).d.outC.enc kt v = .ok b) (henc : ∀ x ∈ xs, ∃ b, (M a).d.inC.enc kt x = .ok b)
    (hopenc : ∃ b, (M a).d.opC.enc kt (M a).op = .ok b)
    (hrest : ∀ l, l.moves W (fun j => decide (j = .inl a)) (dirInternal fun j => decide (j = .inl a)) = true → bytesStep join dupErr ops k kt M F nt cfg s l = none) :
    (∃ r, MapS.Collects (mapOf s a).outs (mapOf s a).ended r) ∧ ∀ r, MapS.Collects (mapOf s a).outs (mapOf s a).ended r → ∃ vs, r = .ok vs ∧ List.Forall₂ (M a).Gives xs vs := by
  have hmem : ∀ p ∈ MapS.inputs (mapSteps ls a), p ∈ indexed 0 xs ∧ p.2 ∈ xs := by
    intro p hp
    have hp := hin.subset hp
    refine ⟨hp, ?_⟩
    rw [← Fold.map_snd_indexed 0 xs]
    exact List.mem_map_of_mem hp
  obtain ⟨h1, ⟨U, h2, h3, h4⟩, h5⟩ := C80_map_completes a (map_faithful hreg) ls s h W hst hat hrel
    (fun p hp => encMap_some (by have := Fold.mem_indexed (hmem p hp).1; omega) (henc _ (hmem p hp).2) hopenc) (fun p hp x => localOp_first (hok _ (hmem p hp).2) x) hrest
  rw [h1.2 hend]
  exact MapS.collects_oneEach ⟨U, h2, h3, fun t ht => gives_map (h4 t ht)⟩ hin h5

variable {X : Type}

/-- **C81, chained maps, `into_values_sorted` returns.** As `C81_memory_sorted_completes`, over a broker: no connection was closed, no message lost, and workers of `W` consume from the bus (`Attended`). -/
theorem C81_sorted_completes (ls : List (Label (A ⊕ B) (DirLabel (fun a => (M a).d.In) (fun b => (F b).Elem) ε Circ) Buf Buf ε ε Circ))
    (s : St (A ⊕ B) (DirSt (fun a => (M a).d.In) (fun a => (M a).d.Out) (fun b => (F b).Elem) ε) Buf Buf ε ε) (h : bytesRun join dupErr ops k kt M F nt cfg ls = some s)
    (W : Nat → Bool) (hst : ∀ l ∈ ls, l.steady W = true) (xs : List X) (as : List A) (hat : ∀ a ∈ as, Attended SystemMem.dirListens W (.inl a) s) (Y : Type) (R : X → Y → Prop)
    (items : List (MapS.Item Y ε)) (en : Bool) (hp : Drained (fun a => (M a).Gives) ls s xs as Y R items en) (hreg : ∀ a ∈ as, Registered ops (M a).d (M a).id)
    (hrel : ∀ a ∈ as, ∀ l ∈ mapSteps ls a, l.reliable = true)
    (hok : ∀ a ∈ as, ∀ p ∈ MapS.inputs (mapSteps ls a), ∀ i, ∃ v b, (M a).d.execute (M a).op p.2 i = .ok v ∧ (M a).d.outC.enc kt v = .ok b)
    (hidx : ∀ a ∈ as, ∀ p ∈ MapS.inputs (mapSteps ls a), p.1 < 2 ^ 64 ∧ ∃ b, (M a).d.inC.enc kt p.2 = .ok b) (hopenc : ∀ a ∈ as, ∃ b, (M a).d.opC.enc kt (M a).op = .ok b)
    (K : A ⊕ B → Bool) (hK : ∀ j, K j = true ↔ ∃ a ∈ as, j = .inl a) (hrest : ∀ l, l.moves W K (dirInternal K) = true → bytesStep join dupErr ops k kt M F nt cfg s l = none) :
    (∃ r, MapS.Collects items en r) ∧ ∀ r, MapS.Collects items en r → ∃ vs, r = .ok vs ∧ List.Forall₂ R xs vs := by
  have key : en = true ∧ MapS.errs items = [] ∧ MapS.OneEach R (indexed 0 xs) (MapS.oks items) := by
    by_cases hne : ∃ a, a ∈ as
    · obtain ⟨a0, ha0⟩ := hne
      obtain ⟨bs, u, h1, h2, h3, h4, h5, h6, h7, -⟩ := view_rest ls s h W hst K (.inl a0) ((hK _).2 ⟨a0, ha0, rfl⟩) (fun j hj => by obtain ⟨a, ha, rfl⟩ := (hK j).1 hj; exact hat a ha) hrest
      have em : ∀ a, (System.mapSteps bs a).map mapAny = mapSteps ls a := fun a => h3 (.inl a)
      refine drained_oneEach h1 W h4 h5 (drained_sys h2 h3 hp) (fun a ha => map_faithful (hreg a ha)) (fun a ha p hp x => localOp_first (hok a ha p (by rw [← em, inputs_mapAny]; exact hp)) x)
        (fun a ha => steps_map h3 (P := fun l => l.reliable = true) (fun l hl => by rw [← reliable_mapAny]; exact hl) (hrel a ha)) (fun a ha p hp => ?_) (fun _ _ _ _ => gives_map) h6
        (fun a ha => h7 a ((hK _).2 ⟨a, ha, rfl⟩))
      have := hidx a ha p (by rw [← em, inputs_mapAny]; exact hp)
      exact encMap_some this.1 this.2 (hopenc a ha)
    · cases hp with
      | source => exact ⟨rfl, MapS.errs_map_ok _, by rw [MapS.oks_map_ok]; exact oneEach_source xs⟩
      | map => exact absurd ⟨_, List.mem_cons_self ..⟩ hne
  obtain ⟨rfl, h2, h3⟩ := key
  exact MapS.collects_oneEach h3 (.refl _) h2
end

namespace HelloDemo
open Hello Hello.HelloDemo

/-- The hypotheses of `C80_sorted_completes` about the execution are met by the map of `calmA`, whose outputs come in the other order. -/
theorem C80_sorted_example : goA calmA = some restA ∧ (∀ l ∈ calmA, l.steady (fun w => w < 2) = true) ∧ Attended SystemMem.dirListens (fun w => decide (w < 2)) (.inl true) restA ∧
    (∀ l ∈ mapSteps calmA true, l.reliable = true) ∧ (MapS.inputs (mapSteps calmA true)).Perm (indexed 0 ['a', 'é']) ∧ .inputEnd ∈ mapSteps calmA true ∧
    (∀ l : ALab, l.moves (fun w => decide (w < 2)) (fun j => decide (j = .inl true)) (dirInternal fun j => decide (j = .inl true)) = true →
      bytesStep "join" "twice" (ops never) .cbor .postcard (fun l => mapJob never dbg (keyM l) idM) (fun l => foldJob (keyF l) idF) nt cfg restA l = none) ∧
    MapS.oks (mapOf restA true).outs = [(1, charStr 'é'), (0, charStr 'a')] := by
  refine ⟨goA_calmA, calmA_steady, restA_attended _ (.inl rfl), by decide +kernel, List.Perm.refl _, calmA_end, fun l hl => restA_stuck l ?_, by rw [restA_outs]; rfl⟩
  have hm : ∀ j : Bool ⊕ Bool, j = .inl true → mine j = true := by rintro _ rfl; rfl
  have hd : ∀ j l, dirInternal (α := fun _ : Bool => Char) (γ := fun _ : Bool => Str) (ε := String) (ω := Circ) (fun j => decide (j = .inl true)) j l = true → dirInternal mine j l = true := by
    intro j l h
    cases j <;> simp only [dirInternal, Bool.and_eq_true, decide_eq_true_eq] at h ⊢
    · exact ⟨hm _ h.1, h.2⟩
    · simp at h
  cases l with
  | lead j l => exact hd j l hl
  | recv j l => exact hd j l hl
  | ackRes j => exact hm j (by simpa [Label.moves] using hl)
  | net n => cases n <;> exact hl
  | _ => exact hl

end HelloDemo
end SystemAmqp
end Paladin
