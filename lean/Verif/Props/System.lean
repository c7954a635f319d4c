import Verif.Spec.SystemClients
import Verif.Proofs.SystemClients
import Verif.Props.Fold
import Verif.Props.MapS
/-!
# Property C68: jobs sharing the workers do not mix

Any number of leaders publish to one task queue served by any number of workers; deliveries, executions, acknowledgements, results, commands, crashes and redeliveries interleave
in any order (`Verif/Model/System.lean`). Vocabulary: `Verif/Spec/System.lean`.
-/
namespace Paladin
namespace System
open Retry

section
variable {κ : Type} {σ ℓ : κ → Type} {T O ε χ ω : Type} [DecidableEq κ] {cl : (j : κ) → Client (σ j) (ℓ j) T (Except ε O)} {cfg : Worker.Cfg κ} {exec : ω → T → Except (OpError χ) O}
  {text : OpError χ → ε}

/-- **C68, refinement.** Whatever the other jobs, the workers and the broker do: the leader of job `j` goes through what it could go through if it were alone with its tasks, where
some tasks may get lost and some may be executed twice. The results waiting for it are the outcomes of executions of its own tasks. No task is executed twice unless the
broker returned a delivery of this job to the queue, and none is lost unless a delivery of this job was acknowledged or rejected and its result never published. -/
theorem C68_isolation (ls : List (Label κ ℓ O χ ω)) (s : St κ σ T O ε χ) (h : run cl cfg exec text (init cl) ls = some s) (j : κ) :
    ∃ jls J, Job.run (cl j) (outcome exec text) (Job.init (cl j)) jls = some J ∧ J.lead = s.lead j ∧ J.results = s.results j ∧
      JobLabel.leads jls = Label.leads j ls ∧ (NoReturn j s → ∀ l ∈ jls, l.dups = false) ∧ (NoLoss j s → ∀ l ∈ jls, l.loses = false) := by
  obtain ⟨jls, ⟨J, h1, h2, h3, h4⟩, h5, h6, h7⟩ := sim_run h j (fun _ => false)
  exact ⟨jls, J, h1, h2, h4, h5, h6 (fun _ => rfl), h7⟩
end

section
variable {A B : Type} [DecidableEq A] [DecidableEq B] {α β : A → Type} {γ : B → Type} {T O ε χ ω : Type} {op : (a : A) → ω → α a → Except ε (β a)}
  {comb : (b : B) → ω → γ b → γ b → Except ε (γ b)} {empty : (b : B) → γ b} {dupErr : ε} {encM : (a : A) → Nat × α a → Option T} {decM : (a : A) → O → Except ε (Nat × β a)}
  {encF : (b : B) → Fold.CTask (γ b) → Option T} {decF : (b : B) → O → Except ε (Seg (γ b))} {cfg : Worker.Cfg (A ⊕ B)} {exec : ω → T → Except (OpError χ) O} {text : OpError χ → ε}

theorem map_alone (a : A) (hf : MapFaithful exec text (op a) (encM a) (decM a)) {ls : List (Label (A ⊕ B) (DirLabel α γ ε ω) O χ ω)} {s : St (A ⊕ B) (DirSt α β γ ε) T O ε χ}
    (h : dirRun op comb empty dupErr encM decM encF decF cfg exec text ls = some s) : ∃ mls m, MapS.run (op a) MapS.init mls = some m ∧
      mapOf s a = { m with tasks := [], results := [] } ∧ MapS.inputs mls = MapS.inputs (mapSteps ls a) ∧
      ((∀ l ∈ mapSteps ls a, l.connected = true) → ∀ l ∈ mls, l.connected = true) ∧ (NoReturn (.inl a) s → ∀ l ∈ mls, l.exactlyOnce = true) := by
  obtain ⟨jls, J, h1, h2, h3, h4, h5, h6⟩ := C68_isolation ls s h (.inl a)
  obtain ⟨pre, m', g1, g2, g3, g4, g5⟩ := map_job (exec := exec) (text := text) hf jls J h1
  have hin : JobLabel.leads pre = mapSteps ls a := g2.trans h4
  refine ⟨_, m', g3, h2.symm.trans g4, by rw [inputs_toMap, hin], fun hc => connected_toMap (hin ▸ hc), fun hn => once_toMap ?_ (fun l hl => h5 hn l (g1.subset hl))⟩
  exact fun l hl => lead_of_job (P := fun l => mapLead l = true) lead_of_map h1 l (g1.subset hl)

theorem fold_alone (b : B) (hf : FoldFaithful exec text (comb b) (encF b) (decF b)) {ls : List (Label (A ⊕ B) (DirLabel α γ ε ω) O χ ω)} {s : St (A ⊕ B) (DirSt α β γ ε) T O ε χ}
    (h : dirRun op comb empty dupErr encM decM encF decF cfg exec text ls = some s) : ∃ fls m, Fold.run (comb b) (empty b) dupErr Fold.init fls = some m ∧
      foldOf s b = { m with tasks := [], results := [] } ∧ Fold.inputs fls = Fold.inputs (foldSteps ls b) := by
  obtain ⟨jls, J, h1, h2, h3, h4, h5, h6⟩ := C68_isolation ls s h (.inr b)
  obtain ⟨pre, m', g1, g2, g3, g4, g5⟩ := fold_job (exec := exec) (text := text) (foldFaithful_execute hf) jls J h1
  exact ⟨_, m', g3, h2.symm.trans g4, by rw [inputs_toFold, g2]; exact congrArg _ h4⟩

/-- **C68, map.** Maps and folds run side by side on the same workers. If the mapped stream of map `a` has ended without an error, and no delivery of one of its tasks was returned to
the queue, its items are exactly one output per input of this map, each what some execution of this map's operation on that input returned. -/
theorem C68_map (a : A) (hf : MapFaithful exec text (op a) (encM a) (decM a)) (ls : List (Label (A ⊕ B) (DirLabel α γ ε ω) O χ ω)) (s : St (A ⊕ B) (DirSt α β γ ε) T O ε χ)
    (h : dirRun op comb empty dupErr encM decM encF decF cfg exec text ls = some s) (hn : NoReturn (.inl a) s) (hc : ∀ l ∈ mapSteps ls a, l.connected = true)
    (hend : (mapOf s a).ended = true) (herr : MapS.errs (mapOf s a).outs = []) :
    MapS.OneEach (MapS.Returns (op a)) (MapS.inputs (mapSteps ls a)) (MapS.oks (mapOf s a).outs) := by
  obtain ⟨mls, m, h1, h2, h3, h4, h5⟩ := map_alone a hf h
  rw [h2] at hend herr ⊢
  rw [← h3]
  exact MapS.C12_map_one_each mls m h1 (h5 hn) (h4 hc) hend herr

/-- **C68, map drained with `into_values_sorted`.** The result of `IndexedStream::from(xs).map(op)` is one output per element of `xs`, in the order of `xs`. -/
theorem C68_map_sorted (a : A) (hf : MapFaithful exec text (op a) (encM a) (decM a)) (ls : List (Label (A ⊕ B) (DirLabel α γ ε ω) O χ ω)) (s : St (A ⊕ B) (DirSt α β γ ε) T O ε χ)
    (h : dirRun op comb empty dupErr encM decM encF decF cfg exec text ls = some s) (hn : NoReturn (.inl a) s) (hc : ∀ l ∈ mapSteps ls a, l.connected = true)
    (xs : List (α a)) (vs : List (β a)) (hin : (MapS.inputs (mapSteps ls a)).Perm (indexed 0 xs)) (hv : MapS.Collects (mapOf s a).outs (mapOf s a).ended (.ok vs)) :
    List.Forall₂ (MapS.Returns (op a)) xs vs := by
  obtain ⟨mls, m, h1, h2, h3, h4, h5⟩ := map_alone a hf h
  rw [h2] at hv
  exact MapS.C13_map_sorted mls m xs vs h1 (h5 hn) (h4 hc) (h3 ▸ hin) hv

/-- **C68, fold.** If a fold running beside any other jobs returns `Ok v`, then `v` is a tree of combines over exactly the elements of its own input, in order. Nothing is assumed
about the broker: tasks may be lost, returned and executed several times. -/
theorem C68_fold (b : B) (hf : FoldFaithful exec text (comb b) (encF b) (decF b)) (ls : List (Label (A ⊕ B) (DirLabel α γ ε ω) O χ ω)) (s : St (A ⊕ B) (DirSt α β γ ε) T O ε χ)
    (h : dirRun op comb empty dupErr encM decM encF decF cfg exec text ls = some s) (v : γ b) (hv : (foldOf s b).outcome = some (.ok v)) (start : Nat) (xs : List (γ b))
    (hin : (Fold.inputs (foldSteps ls b)).Perm (indexed start xs)) (hne : xs ≠ []) : Tree (Fold.Returns (comb b)) xs v := by
  obtain ⟨fls, m, h1, h2, h3⟩ := fold_alone b hf h
  rw [h2] at hv
  exact Fold.C05_fold_in_order fls m v start xs h1 hv (h3 ▸ hin) hne

/-- **C68, fold with a monoid.** For a monoid the value is the left-to-right fold of the input, also of an empty one. -/
theorem C68_fold_monoid (b : B) (hf : FoldFaithful exec text (comb b) (encF b) (decF b)) (ls : List (Label (A ⊕ B) (DirLabel α γ ε ω) O χ ω)) (s : St (A ⊕ B) (DirSt α β γ ε) T O ε χ)
    (h : dirRun op comb empty dupErr encM decM encF decF cfg exec text ls = some s) (g : γ b → γ b → γ b) (hassoc : ∀ x y z, g (g x y) z = g x (g y z)) (hid : ∀ x, g (empty b) x = x)
    (hcomb : ∀ w x y z, comb b w x y = .ok z → z = g x y) (v : γ b) (hv : (foldOf s b).outcome = some (.ok v)) (start : Nat) (xs : List (γ b))
    (hin : (Fold.inputs (foldSteps ls b)).Perm (indexed start xs)) : v = xs.foldl g (empty b) := by
  obtain ⟨fls, m, h1, h2, h3⟩ := fold_alone b hf h
  rw [h2] at hv
  exact Fold.C06_fold_monoid g hassoc hid hcomb fls m v start xs h1 hv (h3 ▸ hin)
end

/-! ## Examples -/

namespace Demo

/-- Tasks on the wire: of the map, which appends an exclamation mark, or of the fold, which adds. -/
abbrev Task := (Nat × String) ⊕ Fold.CTask Nat
abbrev Out := (Nat × String) ⊕ Seg Nat
abbrev Lab := Label (Unit ⊕ Bool) (DirLabel (fun _ : Unit => String) (fun _ : Bool => Nat) String Nat) Out String Nat

/-- The operation registry of the example. Under circumstance 9 the addition fails. -/
def exec (x : Nat) : Task → Except (OpError String) Out
  | .inl (i, a) => .ok (.inl (i, a ++ "!"))
  | .inr t => if x = 9 then .error (.fatal "overflow" .terminate) else .ok (.inr ⟨t.lo, t.hi, t.a + t.b⟩)

def text (_ : OpError String) : String := "overflow"

def op (_ : Unit) (_ : Nat) (a : String) : Except String String := .ok (a ++ "!")
def comb (_ : Bool) (x a b : Nat) : Except String Nat := if x = 9 then .error "overflow" else .ok (a + b)

def decM (_ : Unit) : Out → Except String (Nat × String)
  | .inl r => .ok r
  | .inr _ => .error "undecodable"

def decF (_ : Bool) : Out → Except String (Seg Nat)
  | .inr r => .ok r
  | .inl _ => .error "undecodable"

/-- The key `.inr false` is the one of the abort-all command; the fold of the example has the key `.inr true`. -/
def cfg : Worker.Cfg (Unit ⊕ Bool) := ⟨.inr false, 5⟩

abbrev go (ls : List Lab) : Option (St (Unit ⊕ Bool) (DirSt (fun _ : Unit => String) (fun _ : Unit => String) (fun _ : Bool => Nat) String) Task Out String String) :=
  dirRun op comb (fun _ => 0) "twice" (fun _ t => some (.inl t)) decM (fun _ t => some (.inr t)) decF cfg exec text ls

abbrev mapL (l : MapS.Label String String Nat) : Lab := .lead (.inl ()) l
abbrev foldL (l : Fold.Label Nat String Nat) : Lab := .lead (.inr true) l

/-- Worker `w` executes its task under circumstance `x`, publishes the result, acknowledges. -/
def serve (w x : Nat) : List Lab :=
  [.work w .checkFlag, .work w .checkTerm, .work w .start, .finish w x, .work w .pubOk, .work w .ack, .work w .settled]

/-- A map and a fold at the same time; worker 0 takes the fold's task, executes it and crashes before publishing; the broker returns the task and worker 1 executes it after the
map's. -/
def demo : List Lab :=
  [mapL (.item 0 "a"), mapL (.send 0), mapL .confirm, foldL (.item 0 3), foldL (.item 1 4), foldL (.publish 0), foldL .inputEnd, .deliver 0 1, .deliver 1 0,
   .work 0 .checkFlag, .work 0 .checkTerm, .work 0 .start, .finish 0 7, .work 0 .crash, .requeue 0] ++ serve 1 0 ++ [.deliver 1 0] ++ serve 1 8 ++
  [mapL .inputEnd, mapL (.recv 0), foldL (.recv 0), mapL .recvEnd, mapL .finish, foldL .finish]

theorem faithful_map : MapFaithful exec text (op ()) (fun t => some (.inl t)) (decM ()) := by
  rintro _ _ _ _ ⟨⟩; rfl

theorem faithful_fold : FoldFaithful exec text (comb true) (fun t => some (.inr t)) (decF true) := by
  rintro x t _ ⟨⟩
  simp only [outcome, exec, comb]
  split <;> rfl

/-- Hypotheses of `C68_map`, `C68_map_sorted`, `C68_fold` and `C68_fold_monoid`: met, although a delivery of the fold was returned. -/
example : ∃ s, go demo = some s ∧ NoReturn (.inl ()) s ∧ ¬ NoReturn (.inr true) s ∧ (∀ l ∈ mapSteps demo (), l.connected = true) ∧ (mapOf s ()).ended = true ∧
    (mapOf s ()).outs = [.ok (0, "a!")] ∧ (foldOf s true).outcome = some (.ok 7) ∧ Fold.inputs (foldSteps demo true) = indexed 0 [3, 4] ∧
    MapS.inputs (mapSteps demo ()) = indexed 0 ["a"] := by
  refine ⟨_, rfl, ?_, ?_, ?_, rfl, rfl, rfl, rfl, rfl⟩
  · unfold NoReturn; decide
  · unfold NoReturn; decide
  · decide

end Demo

end System
end Paladin
