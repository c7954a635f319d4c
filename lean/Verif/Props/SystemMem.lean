import Verif.Props.SystemLive
import Verif.Proofs.SystemMem
/-!
# Property C79: the whole system on the in-memory queues

Vocabulary: `Verif/Spec/SystemMem.lean`. Leaders and workers of one process meet at queues with semaphores (`queue/in_memory.rs`). Whatever the interleaving of pushes, permits, polls, pops and drops,
leaders and workers see what the model of the system with abstract queues (`Verif/Model/System.lean`) allows, and no wake-up is lost: when nothing more can happen, the jobs are complete.
-/
namespace Paladin
namespace SystemMem
open Retry System

section
variable {A B : Type} [DecidableEq A] [DecidableEq B] {α β : A → Type} {γ : B → Type} {T O ε χ ω : Type} {op : (a : A) → ω → α a → Except ε (β a)}
  {comb : (b : B) → ω → γ b → γ b → Except ε (γ b)} {empty : (b : B) → γ b} {dupErr : ε} {encM : (a : A) → Nat × α a → Option T} {decM : (a : A) → O → Except ε (Nat × β a)}
  {encF : (b : B) → Fold.CTask (γ b) → Option T} {decF : (b : B) → O → Except ε (Seg (γ b))} {cfg : Worker.Cfg (A ⊕ B)} {exec : ω → T → Except (OpError χ) O} {text : OpError χ → ε}

theorem local_dirs (j : A ⊕ B) : Local (dirs op comb empty dupErr encM decM encF decF j) := by
  cases j with
  | inl a => exact local_map (op a) (encM a) (decM a)
  | inr b => exact local_fold (comb b) (empty b) dupErr (encF b) (decF b)

/-- **C79, refinement.** What leaders and workers do on the in-memory queues is an execution of the system with abstract queues, in which no delivery is ever returned to the queue; in every state the queues
hold the same messages; and no consumer ever finds its queue empty after acquiring a permit (the `unreachable!` of `in_memory.rs` 563). So whatever is proved about all executions of the system holds in memory. -/
theorem C79_refines (ls : List (Label (A ⊕ B) (DirLabel α γ ε ω) O χ ω)) (s : St (A ⊕ B) (DirSt α β γ ε) T O ε χ)
    (h : memRun op comb empty dupErr encM decM encF decF cfg exec text ls = some s) :
    dirRun op comb empty dupErr encM decM encF decF cfg exec text (actions ls) = some s.view ∧ (∀ l ∈ actions ls, l.requeues = false) ∧ (∀ j, NoReturn j s.view) ∧
      s.tq.panicked = false ∧ ∀ j, (s.rq j).panicked = false := by
  obtain ⟨hi, hr⟩ := inv_run local_dirs h
  have hn : ∀ l ∈ actions ls, l.requeues = false := by
    intro l hl
    obtain ⟨m, _, hs⟩ := List.mem_filterMap.1 hl
    exact sys_requeues hs
  exact ⟨hr, hn, noReturn_run hr hn, hi.tq.ok, fun j => (hi.rq j).ok⟩

/-- **C79, map.** In memory, the result of `IndexedStream::from(xs).map(op)` drained with `into_values_sorted` is one output per element of `xs`, in the order of `xs`, whatever else runs on the
same workers, and whether or not workers die or are told to stop. -/
theorem C79_map (a : A) (hf : MapFaithful exec text (op a) (encM a) (decM a)) (ls : List (Label (A ⊕ B) (DirLabel α γ ε ω) O χ ω)) (s : St (A ⊕ B) (DirSt α β γ ε) T O ε χ)
    (h : memRun op comb empty dupErr encM decM encF decF cfg exec text ls = some s) (hc : ∀ l ∈ mapSteps (actions ls) a, l.connected = true)
    (xs : List (α a)) (vs : List (β a)) (hin : (MapS.inputs (mapSteps (actions ls) a)).Perm (indexed 0 xs)) (hv : MapS.Collects (mapOf s.sys a).outs (mapOf s.sys a).ended (.ok vs)) :
    List.Forall₂ (MapS.Returns (op a)) xs vs := by
  obtain ⟨h1, _, h2, _⟩ := C79_refines ls s h
  exact C68_map_sorted a hf (actions ls) s.view h1 (h2 _) hc xs vs hin hv

/-- **C79, fold.** In memory, if a fold returns `Ok v`, then `v` is a tree of combines over exactly the elements of its own input, in order. -/
theorem C79_fold (b : B) (hf : FoldFaithful exec text (comb b) (encF b) (decF b)) (ls : List (Label (A ⊕ B) (DirLabel α γ ε ω) O χ ω)) (s : St (A ⊕ B) (DirSt α β γ ε) T O ε χ)
    (h : memRun op comb empty dupErr encM decM encF decF cfg exec text ls = some s) (v : γ b) (hv : (foldOf s.sys b).outcome = some (.ok v)) (start : Nat) (xs : List (γ b))
    (hin : (Fold.inputs (foldSteps (actions ls) b)).Perm (indexed start xs)) (hne : xs ≠ []) : Tree (Fold.Returns (comb b)) xs v :=
  C68_fold b hf (actions ls) s.view (C79_refines ls s h).1 v hv start xs hin hne

/-- **C79, order.** Tasks are delivered to the workers in the order in which they were pushed: the tasks delivered so far, followed by those waiting, only ever grow at the end. -/
theorem C79_order (ls ls' : List (Label (A ⊕ B) (DirLabel α γ ε ω) O χ ω)) (s s' : St (A ⊕ B) (DirSt α β γ ε) T O ε χ)
    (h : memRun op comb empty dupErr encM decM encF decF cfg exec text ls = some s) (h' : memRun op comb empty dupErr encM decM encF decF cfg exec text (ls ++ ls') = some s') :
    (s.sys.dels.map Del.msg ++ s.tq.msgs) <+: (s'.sys.dels.map Del.msg ++ s'.tq.msgs) := by
  obtain ⟨s1, h1, h2⟩ := Lts.run_append.1 h'
  cases h.symm.trans h1
  exact sent_run local_dirs (inv_run local_dirs h).1 h2

/-- **C79, map, completion.** A map runs in memory beside any other jobs on the workers of `W` (at least one). Nothing goes wrong around the workers and on the side of this map's leader, the inputs can be
serialized, and the operation does not fail on them. When neither workers, nor publishers, nor this leader can do anything more without new input, where a consumer that waits in a semaphore does nothing until
it is woken, then every input received so far has been answered by exactly one output that some execution of the operation returned for it; no error was yielded; and if the input has ended, so has the mapped stream. -/
theorem C79_map_completes [Inhabited ω] (a : A) (hf : MapFaithful exec text (op a) (encM a) (decM a))
    (ls : List (Label (A ⊕ B) (DirLabel α γ ε ω) O χ ω)) (s : St (A ⊕ B) (DirSt α β γ ε) T O ε χ)
    (h : memRun op comb empty dupErr encM decM encF decF cfg exec text ls = some s) (W : Nat → Bool) (hW : ∃ w, W w = true) (hst : ∀ l ∈ ls, l.steady W = true)
    (hrel : ∀ l ∈ mapSteps (actions ls) a, l.reliable = true) (henc : ∀ p ∈ MapS.inputs (mapSteps (actions ls) a), (encM a p).isSome = true)
    (hop : ∀ p ∈ MapS.inputs (mapSteps (actions ls) a), ∀ x, ∃ u, op a x p.2 = .ok u)
    (hrest : ∀ l : Label (A ⊕ B) (DirLabel α γ ε ω) O χ ω, l.moves W (fun j => decide (j = .inl a)) (dirInternal fun j => decide (j = .inl a)) = true →
      step (dirs op comb empty dupErr encM decM encF decF) dirListens cfg exec text s l = none) :
    ((mapOf s.sys a).ended = true ↔ .inputEnd ∈ mapSteps (actions ls) a) ∧
      MapS.OneEach (MapS.Returns (op a)) (MapS.inputs (mapSteps (actions ls) a)) (MapS.oks (mapOf s.sys a).outs) ∧ MapS.errs (mapOf s.sys a).outs = [] := by
  obtain ⟨hi, hr⟩ := inv_run local_dirs h
  refine C71_map a hf (actions ls) s.view hr W hW (steady_sys hst) hrel henc hop (work_quiet local_dirs h hW hst hrest) fun l hl => ?_
  refine lead_quiet (listens := dirListens) (int := MapS.Label.internal (α := α a) (ε := ε) (ω := ω)) (Sum.inl a) ?_ hi ?_ ?_ (hrest _ (by simp [Label.moves])) (hrest _ (by simp [Label.moves])) l hl
  · exact responsive_map (op a) (encM a) (decM a)
  · exact fun l hl => hrest _ (by simpa [Label.moves, dirInternal] using hl)
  · exact fun l hl => hrest _ (by simpa [Label.moves, dirInternal] using hl)

/-- **C79, fold, completion (partial).** Missing: as in `C71_fold_partial`. A fold runs in memory beside any other jobs on the workers of `W` (at least one). When neither workers, nor publishers, nor this leader can
do anything more, where a consumer that waits in a semaphore does nothing until it is woken, then fold has returned an in-order combination of its input, or `empty()` for an empty one. -/
theorem C79_fold_completes_partial [Inhabited ω] (b : B) (hf : FoldFaithful exec text (comb b) (encF b) (decF b))
    (ls : List (Label (A ⊕ B) (DirLabel α γ ε ω) O χ ω)) (s : St (A ⊕ B) (DirSt α β γ ε) T O ε χ)
    (h : memRun op comb empty dupErr encM decM encF decF cfg exec text ls = some s) (W : Nat → Bool) (hW : ∃ w, W w = true) (hst : ∀ l ∈ ls, l.steady W = true)
    (hrel : ∀ l ∈ foldSteps (actions ls) b, l.reliable = true) (pre post : List (Fold.Label (γ b) ε ω)) (hsplit : foldSteps (actions ls) b = pre ++ .inputEnd :: post)
    (start : Nat) (xs : List (γ b)) (hin : (Fold.inputs pre).Perm (indexed start xs)) (hrc : xs = [] ∨ (xs.length = 1 ∧ start = 0) ∨ Fold.recvs pre + 1 < xs.length)
    (henc : ∀ t, Fold.Asked (Fold.Returns (comb b)) (indexed start xs) t → (encF b t).isSome = true)
    (hop : ∀ t, Fold.Asked (Fold.Returns (comb b)) (indexed start xs) t → ∀ x, ∃ c, comb b x t.a t.b = .ok c)
    (hrest : ∀ l : Label (A ⊕ B) (DirLabel α γ ε ω) O χ ω, l.moves W (fun j => decide (j = .inr b)) (dirInternal fun j => decide (j = .inr b)) = true →
      step (dirs op comb empty dupErr encM decM encF decF) dirListens cfg exec text s l = none) :
    ∃ v, (foldOf s.sys b).outcome = some (.ok v) ∧ ((xs = [] ∧ v = empty b) ∨ Tree (Fold.Returns (comb b)) xs v) := by
  obtain ⟨hi, hr⟩ := inv_run local_dirs h
  refine C71_fold_partial b hf (actions ls) s.view hr W hW (steady_sys hst) hrel pre post hsplit start xs hin hrc henc hop (work_quiet local_dirs h hW hst hrest) fun l hl => ?_
  refine lead_quiet (listens := dirListens) (int := Fold.Label.internal (α := γ b) (ε := ε) (ω := ω)) (Sum.inr b) ?_ hi ?_ ?_ (hrest _ (by simp [Label.moves])) (hrest _ (by simp [Label.moves])) l hl
  · exact responsive_fold (comb b) (empty b) dupErr (encF b) (decF b)
  · exact fun l hl => hrest _ (by simpa [Label.moves, dirInternal] using hl)
  · exact fun l hl => hrest _ (by simpa [Label.moves, dirInternal] using hl)

/-- **C79, the work ends.** From any state, finitely many workers `W`, the leaders of finitely many jobs `K`, and publishers can take only a bounded number of steps without new input, polls and permits included.
So with the completion theorems: whatever the schedule, the system in memory comes to rest, and then the jobs are complete. -/
theorem C79_ends (W : Finset Nat) (K : Finset (A ⊕ B)) (ls : List (Label (A ⊕ B) (DirLabel α γ ε ω) O χ ω)) (s : St (A ⊕ B) (DirSt α β γ ε) T O ε χ)
    (h : memRun op comb empty dupErr encM decM encF decF cfg exec text ls = some s) :
    ∃ N, ∀ (ls : List (Label (A ⊕ B) (DirLabel α γ ε ω) O χ ω)) (s' : St (A ⊕ B) (DirSt α β γ ε) T O ε χ),
      run (dirs op comb empty dupErr encM decM encF decF) dirListens cfg exec text s ls = some s' →
      (∀ l ∈ ls, l.moves (fun w => decide (w ∈ W)) (fun j => decide (j ∈ K)) (dirInternal fun j => decide (j ∈ K)) = true ∨ l.idles = true) →
      (ls.filter fun l => l.moves (fun w => decide (w ∈ W)) (fun j => decide (j ∈ K)) (dirInternal fun j => decide (j ∈ K))).length ≤ N := by
  let f : (j : A ⊕ B) → DirSt α β γ ε j → Nat := fun j => match j with
    | .inl a => mapWork (α := α a) (β := β a)
    | .inr b => foldWork (α := γ b)
  refine ⟨_, fun ls s' h' hl => bound_run (f := f) (listens := dirListens) (cl := dirs op comb empty dupErr encM decM encF decF) local_dirs ?_ ?_ (inv_run local_dirs h).1 (Nat.le_refl _) h' hl⟩
  · intro j
    cases j with
    | inl a =>
      intro s l rs s' ts rs' hi hs
      exact measured_map (op := op a) (enc := encM a) (dec := decM a) s l rs s' ts rs' (by simp [dirInternal] at hi; exact hi.2) hs
    | inr b =>
      intro s l rs s' ts rs' hi hs
      exact measured_fold (comb := comb b) (empty := empty b) (dupErr := dupErr) (enc := encF b) (dec := decF b) s l rs s' ts rs' (by simp [dirInternal] at hi; exact hi.2) hs
  · intro j l hi
    cases j <;> simp [dirInternal] at hi <;> exact hi.1
end

/-! ## Examples -/

namespace Demo
open System.Demo

abbrev MLab := Label (Unit ⊕ Bool) (DirLabel (fun _ : Unit => String) (fun _ : Bool => Nat) String Nat) Out String Nat

abbrev goM (ls : List MLab) : Option (St (Unit ⊕ Bool) (DirSt (fun _ : Unit => String) (fun _ : Unit => String) (fun _ : Bool => Nat) String) Task Out String String) :=
  memRun op comb' (fun _ => 0) "twice" (fun _ t => some (.inl t)) decM (fun _ t => some (.inr t)) decF cfg exec' text ls

abbrev mapM (l : MapS.Label String String Nat) : MLab := .lead (.inl ()) l
abbrev foldM (l : Fold.Label Nat String Nat) : MLab := .lead (.inr true) l

def serveM (w : Nat) (j : Unit ⊕ Bool) : List MLab :=
  [.work w .checkFlag, .work w .checkTerm, .work w .start, .finish w 0, .work w .pubOk, .work w .ack, .work w .settled, .resRelease j]

/-- The workers 0 and 1 wait; a map and a fold push a task each; worker 0 is woken by the first permit, and worker 1 by the second; the leader of the map waits for its result, that of the
fold finds it. -/
def meet : List MLab :=
  [.taskPoll 0, .taskPoll 1, .resPoll (.inl ()), mapM (.item 0 "a"), mapM (.send 0), foldM (.item 0 3), foldM (.item 1 4), foldM (.publish 0), .taskRelease, .taskRelease, mapM .confirm, foldM .inputEnd,
   .taskPoll 1, .taskPoll 0, .deliver 0, .deliver 1] ++ serveM 0 (.inl ()) ++ serveM 1 (.inr true) ++
  [.taskPoll 0, .taskPoll 1, mapM .inputEnd, .resPoll (.inl ()), .recv (.inl ()) (.recv 0), .resPoll (.inr true), .recv (.inr true) (.recv 0), mapM .recvEnd, mapM .finish, foldM .finish]

def restM := (goM meet).get (by decide +kernel)

theorem goM_meet : goM meet = some restM := by simp [restM]

/-- At the end nothing more can happen at the workers 0 and 1, the leader of the map and that of the fold. -/
theorem restM_stuck (K : Unit ⊕ Bool → Bool) (hK : K (.inr false) = false) (l : MLab) (hl : l.moves (fun w => decide (w < 2)) K (dirInternal K) = true) :
    step (dirs op comb' (fun _ => 0) "twice" (fun _ t => some (.inl t)) decM (fun _ t => some (.inr t)) decF) dirListens cfg exec' text restM l = none := by
  have hpc : ∀ w, decide (w < 2) = true → (restM.sys.worker w).pc = .waiting ∧ w ∈ restM.tq.waiters ∧ w ∉ restM.tq.holding := by
    intro w hw
    have : w = 0 ∨ w = 1 := by simp at hw; omega
    rcases this with rfl | rfl <;> exact ⟨rfl, by decide +kernel, by decide +kernel⟩
  have hres : ∀ j, K j = true → ((restM.rq j).holding = [] ∧ (restM.rq j).owed = 0 ∧ dirListens j (restM.sys.lead j) = false) := by
    intro j hj
    match j with
    | .inl () => exact ⟨rfl, rfl, rfl⟩
    | .inr true => exact ⟨rfl, rfl, rfl⟩
    | .inr false => simp [hK] at hj
  have hlead : ∀ (j : Unit ⊕ Bool) (s : System.St _ _ _ _ _ _), K j = true → s.lead = restM.sys.lead → ∀ l,
      System.step (ω := Nat) (dirs op comb' (fun _ => 0) "twice" (fun _ t => some (.inl t)) decM (fun _ t => some (.inr t)) decF) cfg exec' text s (.lead j l) = none := by
    intro j s hj hs l
    apply lead_none
    match j with
    | .inl () =>
      have he : (mapOf s ()).ended = true := by rw [mapOf, hs]; rfl
      simp only [mapOf] at he
      simp [dirs, mapClient, MapS.step, he]
      rfl
    | .inr true =>
      have he : (foldOf s true).outcome = some (.ok 7) := by rw [foldOf, hs]; rfl
      simp only [foldOf] at he
      simp [dirs, foldClient, Fold.step, he]
      rfl
    | .inr false => simp [hK] at hj
  have hint : ∀ j l, dirInternal (α := fun _ : Unit => String) (γ := fun _ : Bool => Nat) (ε := String) (ω := Nat) K j l = true → K j = true := by
    intro j l
    cases j <;> simp only [dirInternal, Bool.and_eq_true] <;> exact fun h => h.1
  cases l with
  | lead j l => simp only [step, hlead j restM.sys (hint j l hl) rfl l, Option.map_none]
  | recv j l =>
    have := (hres j (hint j l hl)).1
    simp [step, InMem.Chan.pop, this]
  | resPoll j => simp [step, (hres j hl).2.2]
  | resRelease j => simp [step, InMem.Chan.release, (hres j hl).2.1]
  | taskPoll w => simp [step, (hpc w hl).2.1]
  | taskRelease => rfl
  | deliver w => simp [step, InMem.Chan.pop, (hpc w hl).2.2]
  | finish w x =>
    have := (hpc w hl).1
    simp only [step, System.step]
    split
    · simp [Worker.step, this]
    · rfl
  | work w l =>
    have hl' : decide (w < 2) = true ∧ routine l = true := by simpa [Label.moves] using hl
    have := (hpc w hl'.1).1
    cases l <;> first | (simp [routine] at hl'; done) | simp [step, System.step, Worker.step, this]

/-- Hypotheses of the completion theorems: met by `meet`; both jobs are complete. -/
example : goM meet = some restM ∧ (∀ l ∈ meet, l.steady (fun w => w < 2) = true) ∧ (∀ l ∈ mapSteps (actions meet) (), l.reliable = true) ∧ (∀ l ∈ foldSteps (actions meet) true, l.reliable = true) ∧
    foldSteps (actions meet) true = [.item 0 3, .item 1 4, .publish 0] ++ .inputEnd :: [.recv 0, .finish] ∧
    (mapOf restM.sys ()).ended = true ∧ (mapOf restM.sys ()).outs = [.ok (0, "a!")] ∧ (foldOf restM.sys true).outcome = some (.ok 7) :=
  ⟨goM_meet, by decide +kernel, by decide +kernel, by decide +kernel, rfl, rfl, rfl, rfl⟩

/-- `C79_map_completes` at the end of `meet`. -/
example : MapS.errs (mapOf restM.sys ()).outs = [] :=
  (C79_map_completes (α := fun _ : Unit => String) (β := fun _ : Unit => String) (γ := fun _ : Bool => Nat) () (by rintro _ _ _ _ ⟨⟩; rfl) meet restM goM_meet (fun w => w < 2) ⟨0, rfl⟩
    (by decide +kernel) (by decide +kernel) (fun _ _ => rfl) (fun _ _ _ => ⟨_, rfl⟩) (restM_stuck _ rfl)).2.2

/-- Worker 0 has been granted the permit of a task and leaves its loop: the permit passes to worker 1, which was waiting behind it, and the task is delivered. -/
def handOver : List MLab :=
  [.taskPoll 0, .taskPoll 1, mapM (.item 0 "a"), mapM (.send 0), .taskRelease]

example : ((goM handOver).map fun s => (s.tq.granted, s.tq.waiters)) = some ([0], [1]) ∧
    ((goM (handOver ++ [.work 0 .crash])).map fun s => (s.tq.granted, s.tq.waiters)) = some ([1], []) ∧
    ((goM (handOver ++ [.work 0 .crash, .taskPoll 1, .deliver 1])).map fun s => (s.tq.msgs, s.sys.dels.map Del.msg)) = some ([], [⟨.inl (), .inl (0, "a")⟩]) := ⟨rfl, rfl, rfl⟩

end Demo
end SystemMem
end Paladin
