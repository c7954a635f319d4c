import Verif.Props.Solo
import Verif.Props.AmqpPipe
import Verif.Proofs.Program
/-!
# Property C97: chained maps with a single worker

`IndexedStream::from(xs).map(..)…map(..)` (`directive/mod.rs` 191-225, 309-311) in one process with one worker (`runtime/mod.rs` 164-195): its values come out in the order of `xs`, so that sorting them
(`into_values_sorted`) changes nothing. Vocabulary: `Verif/Spec/SystemPipe.lean`, `Verif/Spec/SystemMem.lean`.
-/
namespace Paladin
namespace SystemMem
open Retry Exec Wire Paladin.System

section
variable {A B X : Type} [DecidableEq A] [DecidableEq B] {α β : A → Type} {γ : B → Type} {T O ε χ ω : Type} {op : (a : A) → ω → α a → Except ε (β a)}
  {comb : (b : B) → ω → γ b → γ b → Except ε (γ b)} {empty : (b : B) → γ b} {dupErr : ε} {encM : (a : A) → Nat × α a → Option T} {decM : (a : A) → O → Except ε (Nat × β a)}
  {encF : (b : B) → Fold.CTask (γ b) → Option T} {decF : (b : B) → O → Except ε (Seg (γ b))} {cfg : Worker.Cfg (A ⊕ B)} {exec : ω → T → Except (OpError χ) O} {text : OpError χ → ε}
  {G : (a : A) → α a → β a → Prop}

/-- One map: what it has yielded are images of some of the inputs it has read, in the order in which it read them. -/
theorem solo_stage (w : Nat) (a : A) (hf : MapFaithful exec text (op a) (encM a) (decM a)) (ls : List (Label (A ⊕ B) (DirLabel α γ ε ω) O χ ω)) (s : St (A ⊕ B) (DirSt α β γ ε) T O ε χ)
    (hw : ∀ w', .deliver w' ∈ ls → w' = w) (ho : ∀ k, .send k ∈ mapSteps (actions ls) a → k = 0) (h : memRun op comb empty dupErr encM decM encF decF cfg exec text ls = some s) :
    ∃ qs, List.Sublist qs (MapS.inputs (mapSteps (actions ls) a)) ∧
      List.Forall₂ (fun p o => o.1 = p.1 ∧ ∃ x, op a x p.2 = .ok o.2) qs ((mapOf s.sys a).outs.filterMap Except.toOption) := by
  obtain ⟨hrun, hn, _⟩ := C79_refines ls s h
  have hk : ∀ w k, System.Label.deliver w k ∈ actions ls → k = 0 := by
    intro w k hm
    obtain ⟨l, _, hl⟩ := List.mem_filterMap.1 hm
    cases l <;> simp [Label.sys] at hl
    exact hl.2.symm
  obtain ⟨ps, rest, h1, h2, _⟩ := pushes_run hrun hk hn ho
  obtain ⟨qs, h3, h4⟩ := C97_map w a hf ls s hw h ps h1
  exact ⟨qs, h3.trans (h2 ▸ List.sublist_append_left _ _), h4⟩

theorem oks_filterMap {β' ε' : Type} (l : List (MapS.Item β' ε')) : MapS.oks l = l.filterMap Except.toOption := by
  induction l with
  | nil => rfl
  | cons x l ih => cases x <;> simp [MapS.oks, Except.toOption, List.filterMap_cons, ih]

theorem exists_left {X Y : Type} {R : X → Y → Prop} {xs : List X} {ys : List Y} (h : List.Forall₂ R xs ys) {y : Y} (hy : y ∈ ys) : ∃ x ∈ xs, R x y := by
  induction h with
  | nil => simp at hy
  | cons h _ ih =>
    rcases List.mem_cons.1 hy with rfl | hy
    · exact ⟨_, by simp, h⟩
    · obtain ⟨x, h1, h2⟩ := ih hy
      exact ⟨x, by simp [h1], h2⟩

theorem comp_sublist {X Y Z : Type} {R : X → Y → Prop} {S : Y → Z → Prop} {xs : List (Nat × X)} {ys ys' : List (Nat × Y)} {zs : List (Nat × Z)}
    (h : List.Forall₂ (fun p o => o.1 = p.1 ∧ R p.2 o.2) xs ys) (hs : List.Sublist ys' ys) (h' : List.Forall₂ (fun p o => o.1 = p.1 ∧ S p.2 o.2) ys' zs) :
    ∃ qs, List.Sublist qs xs ∧ List.Forall₂ (fun p o => o.1 = p.1 ∧ ∃ y, R p.2 y ∧ S y o.2) qs zs := by
  obtain ⟨qs, h1, h2⟩ := forall₂_sublist h hs
  refine ⟨qs, h1, ?_⟩
  clear h hs h1
  induction h2 generalizing zs with
  | nil => cases h'; exact .nil
  | cons h _ ih =>
    cases h' with
    | cons g gs => exact .cons ⟨g.1.trans h.1, _, h.2, g.2⟩ (ih gs)

theorem pipeline_order (w : Nat) (ls : List (Label (A ⊕ B) (DirLabel α γ ε ω) O χ ω)) (s : St (A ⊕ B) (DirSt α β γ ε) T O ε χ) (hw : ∀ w', .deliver w' ∈ ls → w' = w)
    (h : memRun op comb empty dupErr encM decM encF decF cfg exec text ls = some s) {xs : List X} {as : List A} {Y : Type} {R : X → Y → Prop} {items : List (MapS.Item Y ε)} {en : Bool}
    (hp : Pipeline G (actions ls) s.view xs as Y R items en) (hf : ∀ a ∈ as, MapFaithful exec text (op a) (encM a) (decM a)) (ho : ∀ a ∈ as, ∀ k, .send k ∈ mapSteps (actions ls) a → k = 0)
    (hG : ∀ a ∈ as, ∀ x y, MapS.Returns (op a) x y → G a x y) :
    ∃ qs, List.Sublist qs (indexed 0 xs) ∧ List.Forall₂ (fun p o => o.1 = p.1 ∧ R p.2 o.2) qs (items.filterMap Except.toOption) := by
  induction hp with
  | source =>
    refine ⟨indexed 0 xs, List.Sublist.refl _, ?_⟩
    have e : ((indexed 0 xs).map (Except.ok (ε := ε))).filterMap Except.toOption = indexed 0 xs := by
      rw [List.filterMap_map]
      exact List.filterMap_some
    rw [e]
    exact List.forall₂_same.2 fun p _ => ⟨rfl, rfl⟩
  | @map a as items en R _ feeds ih =>
    obtain ⟨qs, h1, h2⟩ := ih (fun a ha => hf a (by simp [ha])) (fun a ha => ho a (by simp [ha])) fun a ha => hG a (by simp [ha])
    obtain ⟨rs, h3, h4⟩ := solo_stage w a (hf a (by simp)) ls s hw (ho a (by simp)) h
    rw [← MapS.reads_inputs] at h3
    have h5 : List.Sublist rs (items.filterMap Except.toOption) := by
      rw [oks_filterMap] at h3
      exact h3.trans (feeds.1.sublist.filterMap _)
    obtain ⟨ts, h6, h7⟩ := comp_sublist (S := G a) h2 h5 (h4.imp fun _ _ ⟨e, x, hx⟩ => ⟨e, hG a (by simp) _ _ ⟨x, hx⟩⟩)
    exact ⟨ts, h6.trans h1, h7⟩

/-- **C97, chained maps.** A process with in-memory queues where only worker `w` is handed tasks, and publishes that do not wait. What a chain of maps over `xs` has yielded so far, in the order in which it was yielded
and without any sorting, belongs to strictly increasing positions of `xs`, and each value is one that the operations, one after the other, may return for the element at its position; whatever other jobs run. -/
theorem C97_pipeline (w : Nat) (ls : List (Label (A ⊕ B) (DirLabel α γ ε ω) O χ ω)) (s : St (A ⊕ B) (DirSt α β γ ε) T O ε χ) (hw : ∀ w', .deliver w' ∈ ls → w' = w)
    (h : memRun op comb empty dupErr encM decM encF decF cfg exec text ls = some s) (xs : List X) (as : List A) (Y : Type) (R : X → Y → Prop) (items : List (MapS.Item Y ε)) (en : Bool)
    (hp : Pipeline G (actions ls) s.view xs as Y R items en) (hf : ∀ a ∈ as, MapFaithful exec text (op a) (encM a) (decM a)) (ho : ∀ a ∈ as, ∀ k, .send k ∈ mapSteps (actions ls) a → k = 0)
    (hG : ∀ a ∈ as, ∀ x y, MapS.Returns (op a) x y → G a x y) :
    ((items.filterMap Except.toOption).map Prod.fst).Pairwise (· < ·) ∧ ∀ o ∈ items.filterMap Except.toOption, ∃ x, xs[o.1]? = some x ∧ R x o.2 := by
  obtain ⟨qs, h1, h2⟩ := pipeline_order w ls s hw h hp hf ho hG
  refine ⟨?_, fun o hmem => ?_⟩
  · rw [fst_eq h2, List.pairwise_map]
    exact (Fold.pairwise_indexed 0 xs).sublist h1
  · obtain ⟨p, hp, e, hr⟩ := exists_left h2 hmem
    refine ⟨p.2, ?_, hr⟩
    rw [e]
    obtain ⟨n, hn⟩ := List.mem_iff_getElem?.1 (h1.subset hp)
    rw [Program.indexed_getElem?] at hn
    obtain ⟨x, h3, h4⟩ := Option.map_eq_some_iff.1 hn
    rw [← h4]
    simpa using h3

/-- **C97, chained maps, all of it.** If moreover the chain has ended without an error, and the consumers of its results lasted, then the values it has yielded, in the order in which it yielded them, are one image
of each element of `xs`, in order: draining the stream gives the list that `into_values_sorted` gives. -/
theorem C97_unsorted (w : Nat) (ls : List (Label (A ⊕ B) (DirLabel α γ ε ω) O χ ω)) (s : St (A ⊕ B) (DirSt α β γ ε) T O ε χ) (hw : ∀ w', .deliver w' ∈ ls → w' = w)
    (h : memRun op comb empty dupErr encM decM encF decF cfg exec text ls = some s) (xs : List X) (as : List A) (Y : Type) (R : X → Y → Prop) (items : List (Nat × Y))
    (hp : Pipeline G (actions ls) s.view xs as Y R (items.map .ok) true) (hf : ∀ a ∈ as, MapFaithful exec text (op a) (encM a) (decM a))
    (hc : ∀ a ∈ as, ∀ l ∈ mapSteps (actions ls) a, l.connected = true) (ho : ∀ a ∈ as, ∀ k, .send k ∈ mapSteps (actions ls) a → k = 0)
    (hG : ∀ a ∈ as, ∀ x y, MapS.Returns (op a) x y → G a x y) :
    List.Forall₂ R xs (items.map Prod.snd) ∧ MapS.Collects (items.map (Except.ok (ε := ε))) true (.ok (items.map Prod.snd)) := by
  obtain ⟨qs, h1, h2⟩ := pipeline_order w ls s hw h hp hf ho hG
  have e : (items.map (Except.ok (ε := ε))).filterMap Except.toOption = items := by
    rw [List.filterMap_map]
    exact List.filterMap_some
  rw [e] at h2
  have hone := pipeline_oneEach (C79_refines ls s h).1 hp hf hc hG (fun _ _ => (C79_refines ls s h).2.2.1 _) rfl (MapS.errs_map_ok _)
  rw [MapS.oks_map_ok] at hone
  obtain ⟨U, u1, u2, _⟩ := hone
  have hlen : items.length = (indexed 0 xs).length := by
    have a1 := u1.length_eq
    have a2 := congrArg List.length u2
    simp only [List.length_map] at a1 a2
    omega
  obtain rfl := h1.eq_of_length (by rw [h2.length_eq, hlen])
  have hv : List.Forall₂ R xs (items.map Prod.snd) := by
    rw [List.forall₂_map_right_iff, ← Fold.map_snd_indexed 0 xs, List.forall₂_map_left_iff]
    exact h2.imp fun _ _ h => h.2
  refine ⟨hv, .ok (List.Perm.refl _) ?_⟩
  have hlt : (items.map Prod.fst).Pairwise (· < ·) := by
    rw [fst_eq h2, List.pairwise_map]
    exact Fold.pairwise_indexed 0 xs
  exact (List.pairwise_map.1 hlt).imp fun h => Nat.le_of_lt h
end

/-! ## Hypotheses met: two maps, one worker -/

namespace ChainDemo
open System.Demo

abbrev CLab := Label (Bool ⊕ Bool) (DirLabel (fun _ : Bool => String) (fun _ : Bool => Nat) String Nat) Out String Nat
abbrev first (l : MapS.Label String String Nat) : CLab := .lead (.inl false) l
abbrev second (l : MapS.Label String String Nat) : CLab := .lead (.inl true) l

abbrev goC (ls : List CLab) : Option (St (Bool ⊕ Bool) (DirSt (fun _ : Bool => String) (fun _ : Bool => String) (fun _ : Bool => Nat) String) Task Out String String) :=
  memRun (fun _ => op ()) comb' (fun _ => 0) "twice" (fun _ t => some (.inl t)) (fun _ => decM ()) (fun _ t => some (.inr t)) decF ⟨.inr false, 5⟩ exec' text ls

def serveC (j : Bool ⊕ Bool) : List CLab :=
  [.taskPoll 0, .deliver 0, .work 0 .checkFlag, .work 0 .checkTerm, .work 0 .start, .finish 0 0, .work 0 .pubOk, .work 0 .ack, .work 0 .settled, .resRelease j]

/-- `IndexedStream::from(["a", "b"]).map(..).map(..)`: the second map gets its first input while the second task of the first map waits. -/
def chain : List CLab :=
  [.taskPoll 0, .resPoll (.inl false), first (.item 0 "a"), first (.send 0), first (.item 1 "b"), first (.send 0), .taskRelease, .taskRelease, first .confirm, first .confirm, first .inputEnd] ++
  serveC (.inl false) ++ [.resPoll (.inl false), .recv (.inl false) (.recv 0), second (.item 0 "a!"), second (.send 0), .taskRelease, second .confirm] ++
  serveC (.inl false) ++ [.resPoll (.inl false), .recv (.inl false) (.recv 0), first .recvEnd, first .finish, second (.item 1 "b!"), second (.send 0), .taskRelease, second .confirm, second .inputEnd] ++
  serveC (.inl true) ++ [.resPoll (.inl true), .recv (.inl true) (.recv 0)] ++
  serveC (.inl true) ++ [.resPoll (.inl true), .recv (.inl true) (.recv 0), second .recvEnd, second .finish]

theorem chain_some : (goC chain).isSome = true := by decide +kernel

def restC := (goC chain).get chain_some

abbrev Shout (_ : Bool) (x y : String) : Prop := y = x ++ "!"

theorem chain_first : mapSteps (actions chain) false = [.item 0 "a", .send 0, .item 1 "b", .send 0, .confirm, .confirm, .inputEnd, .recv 0, .recv 0, .recvEnd, .finish] := rfl
theorem chain_second : mapSteps (actions chain) true = [.item 0 "a!", .send 0, .confirm, .item 1 "b!", .send 0, .confirm, .inputEnd, .recv 0, .recv 0, .recvEnd, .finish] := rfl

theorem chain_outs : (mapOf restC.view false).outs = [.ok (0, "a!"), .ok (1, "b!")] ∧ (mapOf restC.view false).ended = true ∧
    (mapOf restC.view true).outs = [(0, "a!!"), (1, "b!!")].map .ok ∧ (mapOf restC.view true).ended = true := by
  decide +kernel

/-- The hypotheses of `C97_pipeline` and `C97_unsorted` are met by two chained maps, which have yielded both values. -/
theorem C97_pipeline_example : goC chain = some restC ∧ (∀ w', .deliver w' ∈ chain → w' = 0) ∧
    Pipeline Shout (actions chain) restC.view ["a", "b"] [true, false] String (fun x z => ∃ y, (∃ y', x = y' ∧ y = y' ++ "!") ∧ z = y ++ "!") ([(0, "a!!"), (1, "b!!")].map .ok) true ∧
    (∀ a ∈ [true, false], ∀ l ∈ mapSteps (actions chain) a, l.connected = true) ∧ (∀ a ∈ [true, false], ∀ k, .send k ∈ mapSteps (actions chain) a → k = 0) := by
  refine ⟨by simp [restC], ?_, ?_, ?_, ?_⟩
  · intro w' hw
    simp [chain, serveC] at hw
    omega
  · obtain ⟨h1, h2, h3, h4⟩ := chain_outs
    have p1 : Pipeline Shout (actions chain) restC.view ["a", "b"] [false] String _ _ _ :=
      .map (a := false) .source (by rw [chain_first]; exact ⟨List.prefix_refl _, fun _ => ⟨rfl, rfl⟩⟩)
    have p2 : Pipeline Shout (actions chain) restC.view ["a", "b"] [true, false] String _ _ _ :=
      .map (a := true) p1 (by rw [chain_second, h1, h2]; exact ⟨List.prefix_refl _, fun _ => ⟨rfl, rfl⟩⟩)
    rw [h3, h4] at p2
    exact p2
  · intro a _
    cases a
    · rw [chain_first]; simp [MapS.Label.connected]
    · rw [chain_second]; simp [MapS.Label.connected]
  · intro a _
    cases a
    · rw [chain_first]; simp
    · rw [chain_second]; simp

/-- `C97_unsorted` for this execution. -/
example : MapS.Collects ([(0, "a!!"), (1, "b!!")].map (Except.ok (ε := String))) true (.ok ["a!!", "b!!"]) := by
  obtain ⟨h1, h2, h3, h4, h5⟩ := C97_pipeline_example
  exact (C97_unsorted (α := fun _ : Bool => String) (β := fun _ : Bool => String) (γ := fun _ : Bool => Nat) 0 chain restC h2 h1 ["a", "b"] [true, false] String _ _ h3
    (by rintro _ _ _ _ _ _ ⟨⟩; rfl) h4 h5 (by rintro _ _ x y ⟨_, h⟩; simpa [op, eq_comm] using h)).2

end ChainDemo
end SystemMem
end Paladin
