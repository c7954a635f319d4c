import Verif.Props.SystemLive
import Verif.Proofs.SystemAmqpLive
import Verif.Proofs.SystemAmqpEnds
/-!
# Property C80: the whole system on an AMQP broker

Vocabulary: `Verif/Spec/SystemAmqp.lean`. Leaders and workers of several processes meet at the queues of a broker (`queue/amqp.rs`). Whatever the broker delivers to whom, whichever connections are lost, whichever
queues are deleted or expire, leaders and workers see what the model of the system with abstract queues (`Verif/Model/System.lean`) allows.
-/
namespace Paladin
namespace SystemAmqp
open Retry System

section
variable {A B : Type} [DecidableEq A] [DecidableEq B] {α β : A → Type} {γ : B → Type} {T O ε χ ω : Type} {op : (a : A) → ω → α a → Except ε (β a)}
  {comb : (b : B) → ω → γ b → γ b → Except ε (γ b)} {empty : (b : B) → γ b} {dupErr : ε} {encM : (a : A) → Nat × α a → Option T} {decM : (a : A) → O → Except ε (Nat × β a)}
  {encF : (b : B) → Fold.CTask (γ b) → Option T} {decF : (b : B) → O → Except ε (Seg (γ b))} {nt : Net (A ⊕ B)} {cfg : Worker.Cfg (A ⊕ B)} {exec : ω → T → Except (OpError χ) O} {text : OpError χ → ε}

theorem indexed_dirs (j : A ⊕ B) : Indexed (dirs op comb empty dupErr encM decM encF decF j) (dirAny j) := by
  cases j with
  | inl a => exact indexed_map (op a) (encM a) (decM a)
  | inr b => exact indexed_fold (comb b) (empty b) dupErr (encF b) (decF b)

/-- **C80, refinement.** What leaders and workers do on an AMQP broker is an execution of the system with abstract queues: the leaders take the same steps (but for which of the waiting results they
receive) and reach the same states. A delivery is returned to the queue there only if its message was received by a second worker here, and then the connection of some worker was lost. So whatever is proved
about all executions of the system holds on a broker. -/
theorem C80_refines (ls : List (Label (A ⊕ B) (DirLabel α γ ε ω) T O ε χ ω)) (s : St (A ⊕ B) (DirSt α β γ ε) T O ε χ)
    (h : amqpRun op comb empty dupErr encM decM encF decF nt cfg exec text ls = some s) :
    ∃ as a, dirRun op comb empty dupErr encM decM encF decF cfg exec text as = some a ∧ a.lead = s.lead ∧ (∀ j, (System.Label.leads j as).map (dirAny j) = Label.leads j ls) ∧
      (∀ d ∈ a.dels, d.fate = .returned → ∃ m, s.net.msgs[m]? = some ⟨.bus, .task d.msg⟩ ∧ Redelivered s.net m) ∧
      (∀ x ∈ as, x.requeues = true → ∃ w, nt.wconn w ∈ s.net.closed) := by
  obtain ⟨as, a, ids, Q, R, h1, h2, h3, h4, h5, h6, -⟩ := sim_run (any := dirAny) indexed_dirs h
  exact ⟨as, a, h1, h3.lead, h5, fun d hd hf => ret_redelivered h3 h4 hd hf, h6⟩

theorem inputs_mapAny (ls : List (MapS.Label α' ε' ω')) : MapS.inputs (ls.map mapAny) = MapS.inputs ls := by
  induction ls with
  | nil => rfl
  | cons l ls ih => cases l <;> simp [mapAny, MapS.inputs] at ih ⊢ <;> simp [ih]

theorem connected_mapAny (l : MapS.Label α' ε' ω') : (mapAny l).connected = l.connected := by cases l <;> rfl

theorem inputs_foldAny (ls : List (Fold.Label α' ε' ω')) : Fold.inputs (ls.map foldAny) = Fold.inputs ls := by
  induction ls with
  | nil => rfl
  | cons l ls ih => cases l <;> simp [foldAny, Fold.inputs] at ih ⊢ <;> simp [ih]

/-- **C80, map.** On a broker, the result of `IndexedStream::from(xs).map(op)` drained with `into_values_sorted` is one output per element of `xs`, in the order of `xs`, whatever else runs on the
same workers and whatever else happens, if none of the tasks of this map was received by two workers. -/
theorem C80_map (a : A) (hf : MapFaithful exec text (op a) (encM a) (decM a)) (ls : List (Label (A ⊕ B) (DirLabel α γ ε ω) T O ε χ ω)) (s : St (A ⊕ B) (DirSt α β γ ε) T O ε χ)
    (h : amqpRun op comb empty dupErr encM decM encF decF nt cfg exec text ls = some s)
    (hn : ∀ m t, s.net.msgs[m]? = some ⟨.bus, .task t⟩ → t.key = .inl a → ¬ Redelivered s.net m) (hc : ∀ l ∈ mapSteps ls a, l.connected = true)
    (xs : List (α a)) (vs : List (β a)) (hin : (MapS.inputs (mapSteps ls a)).Perm (indexed 0 xs)) (hv : MapS.Collects (mapOf s a).outs (mapOf s a).ended (.ok vs)) :
    List.Forall₂ (MapS.Returns (op a)) xs vs := by
  obtain ⟨as, u, h1, h2, h3, h4, -⟩ := C80_refines ls s h
  have hm : (System.mapSteps as a).map mapAny = mapSteps ls a := h3 (.inl a)
  refine C68_map_sorted a hf as u h1 (fun d hd hk hr => ?_) (fun l hl => ?_) xs vs ?_ (by rw [System.mapOf, h2]; exact hv)
  · obtain ⟨m, e1, e2⟩ := h4 d hd hr
    exact hn m d.msg e1 hk e2
  · rw [← connected_mapAny]; exact hc _ (by rw [← hm]; exact List.mem_map.2 ⟨l, hl, rfl⟩)
  · rw [← hm, inputs_mapAny] at hin; exact hin

/-- **C80, fold.** On a broker, if a fold returns `Ok v`, then `v` is a tree of combines over exactly the elements of its own input, in order, also if workers lose their connections and tasks are executed
several times. -/
theorem C80_fold (b : B) (hf : FoldFaithful exec text (comb b) (encF b) (decF b)) (ls : List (Label (A ⊕ B) (DirLabel α γ ε ω) T O ε χ ω)) (s : St (A ⊕ B) (DirSt α β γ ε) T O ε χ)
    (h : amqpRun op comb empty dupErr encM decM encF decF nt cfg exec text ls = some s) (v : γ b) (hv : (foldOf s b).outcome = some (.ok v)) (start : Nat) (xs : List (γ b))
    (hin : (Fold.inputs (foldSteps ls b)).Perm (indexed start xs)) (hne : xs ≠ []) : Tree (Fold.Returns (comb b)) xs v := by
  obtain ⟨as, u, h1, h2, h3, -⟩ := C80_refines ls s h
  have hm : (System.foldSteps as b).map foldAny = foldSteps ls b := h3 (.inr b)
  refine C68_fold b hf as u h1 v (by rw [System.foldOf, h2]; exact hv) start xs ?_ hne
  rw [← hm, inputs_foldAny] at hin; exact hin

theorem reliable_mapAny (l : MapS.Label α' ε' ω') : (mapAny l).reliable = l.reliable := by cases l <;> rfl

theorem inputEnd_mapAny (ls : List (MapS.Label α' ε' ω')) : .inputEnd ∈ ls.map mapAny ↔ .inputEnd ∈ ls := by
  rw [List.mem_map]
  constructor
  · rintro ⟨l, h1, h2⟩; cases l <;> simp [mapAny] at h2; exact h1
  · exact fun h => ⟨_, h, rfl⟩

theorem reliable_foldAny (l : Fold.Label α' ε' ω') : (foldAny l).reliable = l.reliable := by cases l <;> rfl

theorem recvs_foldAny (ls : List (Fold.Label α' ε' ω')) : Fold.recvs (ls.map foldAny) = Fold.recvs ls := by
  induction ls with
  | nil => rfl
  | cons l ls ih => cases l <;> simp [foldAny, Fold.recvs] at ih ⊢ <;> simp [ih]

/-- **C80, map, completion.** A map runs beside any other jobs. No connection was closed, no message lost, and workers of `W` consume from the bus (`Attended`). When neither the workers, nor the broker, nor this leader
can do anything more, where a task that polls an empty consumer sleeps until a message arrives, then the map has ended if its input has, and has given exactly one output for each element. -/
theorem C80_map_completes [Inhabited ω] (a : A) (hf : MapFaithful exec text (op a) (encM a) (decM a)) (ls : List (Label (A ⊕ B) (DirLabel α γ ε ω) T O ε χ ω)) (s : St (A ⊕ B) (DirSt α β γ ε) T O ε χ)
    (h : amqpRun op comb empty dupErr encM decM encF decF nt cfg exec text ls = some s) (W : Nat → Bool) (hst : ∀ l ∈ ls, l.steady W = true) (hat : Attended SystemMem.dirListens W (.inl a) s)
    (hrel : ∀ l ∈ mapSteps ls a, l.reliable = true) (henc : ∀ p ∈ MapS.inputs (mapSteps ls a), (encM a p).isSome = true)
    (hop : ∀ p ∈ MapS.inputs (mapSteps ls a), ∀ x, ∃ u, op a x p.2 = .ok u)
    (hrest : ∀ l : Label (A ⊕ B) (DirLabel α γ ε ω) T O ε χ ω, l.moves W (fun j => decide (j = .inl a)) (dirInternal fun j => decide (j = .inl a)) = true →
      step (dirs op comb empty dupErr encM decM encF decF) SystemMem.dirListens nt cfg exec text s l = none) :
    ((mapOf s a).ended = true ↔ .inputEnd ∈ mapSteps ls a) ∧
      MapS.OneEach (MapS.Returns (op a)) (MapS.inputs (mapSteps ls a)) (MapS.oks (mapOf s a).outs) ∧ MapS.errs (mapOf s a).outs = [] := by
  obtain ⟨as, u, ids, Q, R, h1, hw, h3, -, h5, -, h7, -⟩ := sim_run (any := dirAny) indexed_dirs h
  have hal := (alert_run h).2
  have hsa := h7 W hst (by simp [hat.up])
  obtain ⟨w0, hW0, -⟩ := hat.worker
  have hm : (System.mapSteps as a).map mapAny = mapSteps ls a := h5 (.inl a)
  have key := C71_map a hf as u h1 W ⟨w0, hW0⟩ hsa (fun l hl => ?_) (fun p hp => ?_) (fun p hp => ?_) (work_quiet hw hal h3 h1 hsa hat hrest) fun l hl => ?_
  · rw [← hm, inputs_mapAny, inputEnd_mapAny]
    rw [System.mapOf, h3.lead] at key
    exact key
  · rw [← reliable_mapAny]; exact hrel _ (by rw [← hm]; exact List.mem_map.2 ⟨l, hl, rfl⟩)
  · exact henc p (by rw [← hm, inputs_mapAny]; exact hp)
  · exact hop p (by rw [← hm, inputs_mapAny]; exact hp)
  · refine lead_quiet (listens := SystemMem.dirListens) (int := MapS.Label.internal (α := α a) (ε := ε) (ω := ω)) (Sum.inl a) ?_ hw hal h3 hat ?_ ?_ (hrest _ (by simp [Label.moves])) (fun k => hrest _ rfl) l hl
    · exact SystemMem.responsive_map (op a) (encM a) (decM a)
    · exact fun l hl => hrest _ (by simpa [Label.moves, dirInternal] using hl)
    · exact fun l hl => hrest _ (by simpa [Label.moves, dirInternal] using hl)

/-- **C80, fold, completion (partial).** Missing: as in `C71_fold_partial`. A fold runs beside any other jobs. No connection was closed, no message lost, and workers of `W` consume from the bus (`Attended`). When neither
the workers, nor the broker, nor this leader can do anything more, then fold has returned an in-order combination of its input, or `empty()` for an empty one. -/
theorem C80_fold_completes_partial [Inhabited ω] (b : B) (hf : FoldFaithful exec text (comb b) (encF b) (decF b)) (ls : List (Label (A ⊕ B) (DirLabel α γ ε ω) T O ε χ ω)) (s : St (A ⊕ B) (DirSt α β γ ε) T O ε χ)
    (h : amqpRun op comb empty dupErr encM decM encF decF nt cfg exec text ls = some s) (W : Nat → Bool) (hst : ∀ l ∈ ls, l.steady W = true) (hat : Attended SystemMem.dirListens W (.inr b) s)
    (hrel : ∀ l ∈ foldSteps ls b, l.reliable = true) (pre post : List (Fold.Label (γ b) ε ω)) (hsplit : foldSteps ls b = pre ++ .inputEnd :: post)
    (start : Nat) (xs : List (γ b)) (hin : (Fold.inputs pre).Perm (indexed start xs)) (hrc : xs = [] ∨ (xs.length = 1 ∧ start = 0) ∨ Fold.recvs pre + 1 < xs.length)
    (henc : ∀ t, Fold.Asked (Fold.Returns (comb b)) (indexed start xs) t → (encF b t).isSome = true)
    (hop : ∀ t, Fold.Asked (Fold.Returns (comb b)) (indexed start xs) t → ∀ x, ∃ c, comb b x t.a t.b = .ok c)
    (hrest : ∀ l : Label (A ⊕ B) (DirLabel α γ ε ω) T O ε χ ω, l.moves W (fun j => decide (j = .inr b)) (dirInternal fun j => decide (j = .inr b)) = true →
      step (dirs op comb empty dupErr encM decM encF decF) SystemMem.dirListens nt cfg exec text s l = none) :
    ∃ v, (foldOf s b).outcome = some (.ok v) ∧ ((xs = [] ∧ v = empty b) ∨ Tree (Fold.Returns (comb b)) xs v) := by
  obtain ⟨as, u, ids, Q, R, h1, hw, h3, -, h5, -, h7, -⟩ := sim_run (any := dirAny) indexed_dirs h
  have hal := (alert_run h).2
  have hsa := h7 W hst (by simp [hat.up])
  obtain ⟨w0, hW0, -⟩ := hat.worker
  have hm : (System.foldSteps as b).map foldAny = foldSteps ls b := h5 (.inr b)
  have hm' := hm
  rw [hsplit, List.map_eq_append_iff] at hm'
  obtain ⟨pre', rest', e1, rfl, e2⟩ := hm'
  rw [List.map_eq_cons_iff] at e2
  obtain ⟨l0, post', rfl, e3, rfl⟩ := e2
  have e4 : l0 = .inputEnd := by cases l0 <;> simp [foldAny] at e3 <;> rfl
  subst e4
  rw [inputs_foldAny] at hin
  rw [recvs_foldAny] at hrc
  have key := C71_fold_partial b hf as u h1 W ⟨w0, hW0⟩ hsa (fun l hl => ?_) pre' post' e1 start xs hin hrc henc hop (work_quiet hw hal h3 h1 hsa hat hrest) fun l hl => ?_
  · rw [System.foldOf, h3.lead] at key
    exact key
  · rw [← reliable_foldAny]; exact hrel _ (by rw [← hm]; exact List.mem_map.2 ⟨l, hl, rfl⟩)
  · refine lead_quiet (listens := SystemMem.dirListens) (int := Fold.Label.internal (α := γ b) (ε := ε) (ω := ω)) (Sum.inr b) ?_ hw hal h3 hat ?_ ?_ (hrest _ (by simp [Label.moves])) (fun k => hrest _ rfl) l hl
    · exact SystemMem.responsive_fold (comb b) (empty b) dupErr (encF b) (decF b)
    · exact fun l hl => hrest _ (by simpa [Label.moves, dirInternal] using hl)
    · exact fun l hl => hrest _ (by simpa [Label.moves, dirInternal] using hl)

/-- **C80, the work ends.** From any state, finitely many workers `W`, the leaders of finitely many jobs `K`, and the broker delivering messages can take only a bounded number of steps without new input, as long as no
connection is lost. So with the completion theorems: whatever the schedule, the system on a broker comes to rest, and then the jobs are complete. -/
theorem C80_ends (W : Finset Nat) (K : Finset (A ⊕ B)) (ls : List (Label (A ⊕ B) (DirLabel α γ ε ω) T O ε χ ω)) (s : St (A ⊕ B) (DirSt α β γ ε) T O ε χ)
    (h : amqpRun op comb empty dupErr encM decM encF decF nt cfg exec text ls = some s) :
    ∃ N, ∀ (ls : List (Label (A ⊕ B) (DirLabel α γ ε ω) T O ε χ ω)) (s' : St (A ⊕ B) (DirSt α β γ ε) T O ε χ),
      run (dirs op comb empty dupErr encM decM encF decF) SystemMem.dirListens nt cfg exec text s ls = some s' →
      (∀ l ∈ ls, l.moves (fun w => decide (w ∈ W)) (fun j => decide (j ∈ K)) (dirInternal fun j => decide (j ∈ K)) = true ∨ l.idles = true) →
      (ls.filter fun l => l.moves (fun w => decide (w ∈ W)) (fun j => decide (j ∈ K)) (dirInternal fun j => decide (j ∈ K))).length ≤ N := by
  let f : (j : A ⊕ B) → DirSt α β γ ε j → Nat := fun j => match j with
    | .inl a => mapWork (α := α a) (β := β a)
    | .inr b => foldWork (α := γ b)
  refine ⟨_, fun ls s' h' hl => bound_run (f := f) (listens := SystemMem.dirListens) (cl := dirs op comb empty dupErr encM decM encF decF) ?_ ?_ (alert_run h).1 (Nat.le_refl _) h' hl⟩
  · intro j
    cases j with
    | inl a =>
      intro s l rs s' ts rs' hi hs
      exact measured_map (op := op a) (enc := encM a) (dec := decM a) s l rs s' ts rs' (by simp [dirInternal] at hi; exact hi.2) hs
    | inr b =>
      intro s l rs s' ts rs' hi hs
      exact measured_fold (comb := comb b) (empty := empty b) (dupErr := dupErr) (enc := encF b) (dec := decF b) s l rs s' ts rs' (by simp [dirInternal] at hi; exact hi.2) hs
  · intro j l hi
    cases j <;> simp [dirInternal] at hi <;> exact hi.1
end

/-! ## Examples -/

namespace Demo
open System.Demo

abbrev ALab := Label (Unit ⊕ Bool) (DirLabel (fun _ : Unit => String) (fun _ : Bool => Nat) String Nat) Task Out String String Nat

/-- The leaders are in one process, the workers 0 and 1 in two others; one unsettled message for each consumer. -/
def nt : Net (Unit ⊕ Bool) := ⟨fun w => w + 1, fun _ => 0, 1⟩

abbrev goA (ls : List ALab) : Option (St (Unit ⊕ Bool) (DirSt (fun _ : Unit => String) (fun _ : Unit => String) (fun _ : Bool => Nat) String) Task Out String String) :=
  amqpRun op comb' (fun _ => 0) "twice" (fun _ t => some (.inl t)) decM (fun _ t => some (.inr t)) decF nt cfg exec' text ls

abbrev mapA (l : MapS.Label String String Nat) : ALab := .lead (.inl ()) l
abbrev foldA (l : Fold.Label Nat String Nat) : ALab := .lead (.inr true) l

/-- The call with number `k` is made, and its one method performed. -/
def make (conn k : Nat) (c : Amqp.Call (Name (Unit ⊕ Bool)) (Payload (Unit ⊕ Bool) Task Out String)) : List ALab := [.net (.begin conn c), .net (.exec k), .net (.exec k)]

/-- Queues and consumers: of the bus for both workers, of the map, of the fold. -/
def setUp : List ALab :=
  make 0 0 (.declareQueue .bus Amqp.ChannelType.exactlyOnce.options) ++ make 0 1 (.declareQueue (.job (.inl ())) Amqp.ChannelType.exactlyOnce.options) ++
  make 0 2 (.declareQueue (.job (.inr true)) Amqp.ChannelType.exactlyOnce.options) ++
  make 1 3 (.declareConsumer .bus) ++ make 2 4 (.declareConsumer .bus) ++ make 0 5 (.declareConsumer (.job (.inl ()))) ++ make 0 6 (.declareConsumer (.job (.inr true))) ++
  [.attach (.worker 0) 0, .attach (.worker 1) 1, .attach (.job (.inl ())) 2, .attach (.job (.inr true)) 3]

def serveA (w : Nat) : List ALab :=
  [.work w .checkFlag, .work w .checkTerm, .work w .start, .finish w 0, .work w .pubOk, .work w .ack, .work w .settled]

/-- Everybody waits; a map and a fold publish a task each; the broker delivers the first to worker 1 and the second to worker 0; the results go to the queues of their jobs. -/
def meetA : List ALab :=
  setUp ++ [.sleep (.worker 0), .sleep (.worker 1), .sleep (.job (.inl ())), mapA (.item 0 "a"), mapA (.send 0), foldA (.item 0 3), foldA (.item 1 4), foldA (.publish 0), .net (.deliver 1), .net (.deliver 0),
   mapA .confirm, foldA .inputEnd, .deliver 0, .deliver 1] ++ serveA 0 ++ serveA 1 ++
  [.sleep (.worker 0), .sleep (.worker 1), mapA .inputEnd, .net (.deliver 2), .net (.deliver 3), .recv (.inl ()) (.recv 0), .recv (.inr true) (.recv 0), mapA .recvEnd, mapA .finish, foldA .finish,
   .ackRes (.inl ()), .ackRes (.inr true)]

def restA := (goA meetA).get (by decide +kernel)

theorem goA_meetA : goA meetA = some restA := by simp [restA]

/-- At the end nothing more can happen at the workers 0 and 1, the broker, the leader of the map and that of the fold. -/
theorem restA_stuck (K : Unit ⊕ Bool → Bool) (hK : K (.inr false) = false) (l : ALab) (hl : l.moves (fun w => decide (w < 2)) K (dirInternal K) = true) :
    step (dirs op comb' (fun _ => 0) "twice" (fun _ t => some (.inl t)) decM (fun _ t => some (.inr t)) decF) SystemMem.dirListens nt cfg exec' text restA l = none := by
  have hpc : ∀ w, decide (w < 2) = true → (restA.worker w).pc = .waiting ∧ restA.next nt.prefetch (.worker w) = none := by
    intro w hw
    have : w = 0 ∨ w = 1 := by simp at hw; omega
    rcases this with rfl | rfl <;> exact ⟨rfl, rfl⟩
  have hres : ∀ j, K j = true → restA.next nt.prefetch (.job j) = none ∧ ∃ k c, restA.consumer (.job j) = some (k, c) ∧ c.held = [] := by
    intro j hj
    match j with
    | .inl () => exact ⟨rfl, _, _, rfl, rfl⟩
    | .inr true => exact ⟨rfl, _, _, rfl, rfl⟩
    | .inr false => simp [hK] at hj
  have hint : ∀ j l, dirInternal (α := fun _ : Unit => String) (γ := fun _ : Bool => Nat) (ε := String) (ω := Nat) K j l = true → K j = true := by
    intro j l
    cases j <;> simp only [dirInternal, Bool.and_eq_true] <;> exact fun h => h.1
  have hlead : ∀ (j : Unit ⊕ Bool), K j = true → ∀ l,
      (dirs (ω := Nat) (T := Task) op comb' (fun _ => 0) "twice" (fun _ t => some (.inl t)) decM (fun _ t => some (.inr t)) decF j).step (restA.lead j) l [] = none := by
    intro j hj l
    match j with
    | .inl () =>
      have he : (mapOf restA ()).ended = true := rfl
      simp only [mapOf] at he
      simp [dirs, mapClient, MapS.step, he]
      rfl
    | .inr true =>
      have he : (foldOf restA true).outcome = some (.ok 7) := rfl
      simp only [foldOf] at he
      simp [dirs, foldClient, Fold.step, he]
      rfl
    | .inr false => simp [hK] at hj
  cases l with
  | lead j l => simp only [step, hlead j (hint j l hl) l]
  | recv j l => simp only [step, (hres j (hint j l hl)).1]
  | sleep o => cases hl
  | ackRes j =>
    obtain ⟨k, c, h1, h2⟩ := (hres j hl).2
    simp only [step, h1, h2]
  | deliver w => simp only [step, (hpc w hl).2]
  | finish w x =>
    have := (hpc w hl).1
    simp only [step]
    split
    · simp [Worker.step, this]
    · rfl
  | work w l =>
    have hl' : decide (w < 2) = true ∧ routine l = true := by simpa [Label.moves] using hl
    have := (hpc w hl'.1).1
    cases l <;> first | (simp [routine] at hl'; done) | simp [step, Worker.step, this]
  | attach o k => cases hl
  | net l =>
    cases l <;> try cases hl
    rename_i k
    match k with
    | 0 | 1 | 2 | 3 => rfl
    | k + 4 => rfl

theorem restA_attended (j : Unit ⊕ Bool) (hj : j = .inl () ∨ j = .inr true) : Attended SystemMem.dirListens (fun w => decide (w < 2)) j restA := by
  have hlen : ∀ k, restA.net.consumers[k]? ≠ none → k < 4 := by
    intro k hk
    refine Decidable.byContradiction fun h => hk (List.getElem?_eq_none ?_)
    show 4 ≤ k
    omega
  have cases4 : ∀ k name, Consumes restA.net k name → (k = 0 ∨ k = 1) ∧ name = .bus ∨ k = 2 ∧ name = .job (.inl ()) ∨ k = 3 ∧ name = .job (.inr true) := by
    rintro k name ⟨c, q, h1, h2, h3⟩
    have := hlen k (by simp [h1])
    match k, this with
    | 0, _ => cases h1; cases h2; exact .inl ⟨.inl rfl, h3.symm⟩
    | 1, _ => cases h1; cases h2; exact .inl ⟨.inr rfl, h3.symm⟩
    | 2, _ => cases h1; cases h2; exact .inr (.inl ⟨rfl, h3.symm⟩)
    | 3, _ => cases h1; cases h2; exact .inr (.inr ⟨rfl, h3.symm⟩)
  refine ⟨rfl, fun m g _ _ => ⟨?_, ?_⟩, ?_, ⟨0, rfl, 0, _, _, rfl, rfl, rfl, rfl, rfl⟩, ?_, ?_⟩
  · rw [show restA.net.lost = [] from rfl]; simp
  · rw [show restA.net.unroutable = [] from rfl]; simp
  · intro k hk
    rcases cases4 k _ hk with ⟨rfl | rfl, -⟩ | ⟨-, h⟩ | ⟨-, h⟩
    · exact ⟨0, rfl, rfl⟩
    · exact ⟨1, rfl, rfl⟩
    · cases h
    · cases h
  · intro k hk
    rcases cases4 k _ hk with ⟨-, h⟩ | ⟨rfl, h⟩ | ⟨rfl, h⟩
    · cases h
    · cases h; rfl
    · cases h; rfl
  · rcases hj with rfl | rfl <;> intro h <;> cases h

/-- Hypotheses of the completion theorems: met by `meetA`; both jobs are complete, and nothing was received twice. -/
example : goA meetA = some restA ∧ (∀ l ∈ meetA, l.steady (fun w => w < 2) = true) ∧ (∀ l ∈ mapSteps meetA (), l.reliable = true) ∧ (∀ l ∈ foldSteps meetA true, l.reliable = true) ∧
    foldSteps meetA true = [.item 0 3, .item 1 4, .publish 0] ++ .inputEnd :: [.recv 0, .finish] ∧ MapS.inputs (mapSteps meetA ()) = indexed 0 ["a"] ∧
    (mapOf restA ()).ended = true ∧ (mapOf restA ()).outs = [.ok (0, "a!")] ∧ (foldOf restA true).outcome = some (.ok 7) ∧ restA.net.yielded = [(1, 0), (0, 1), (3, 2), (2, 3)] :=
  ⟨goA_meetA, by decide +kernel, by decide +kernel, by decide +kernel, rfl, rfl, rfl, rfl, rfl, rfl⟩

/-- `C80_map_completes` at the end of `meetA`. -/
example : MapS.errs (mapOf restA ()).outs = [] :=
  (C80_map_completes (α := fun _ : Unit => String) (β := fun _ : Unit => String) (γ := fun _ : Bool => Nat) () (by rintro _ _ _ _ ⟨⟩; rfl) meetA restA goA_meetA (fun w => w < 2)
    (by decide +kernel) (restA_attended _ (.inl rfl)) (by decide +kernel) (fun _ _ => rfl) (fun _ _ _ => ⟨_, rfl⟩) (restA_stuck _ rfl)).2.2

/-- A worker loses its connection while it executes a task of a fold, is unaware of it, and the broker gives the task to worker 1; the fold is right all the same (`C80_fold`). -/
def lostA : List ALab :=
  setUp ++ [foldA (.item 0 3), foldA (.item 1 4), foldA (.publish 0), foldA .inputEnd, .net (.deliver 0), .deliver 0, .work 0 .checkFlag, .work 0 .checkTerm, .work 0 .start, .net (.lose 1), .finish 0 0,
   .net (.requeue 0), .net (.deliver 1), .deliver 1] ++ serveA 1 ++ [.net (.deliver 3), .recv (.inr true) (.recv 0), foldA .finish]

/-- Message 0, the task, was received by both workers. -/
example : ((goA lostA).map fun s => ((foldOf s true).outcome, s.net.yielded, s.net.closed)) = some (some (.ok 7), [(0, 0), (0, 1), (1, 3)], [1]) ∧
    Fold.inputs (foldSteps lostA true) = indexed 0 [3, 4] := ⟨rfl, rfl⟩

/-- The hypothesis of `C80_map` that no task was received twice is needed: worker 0 publishes its result and loses its connection before it acknowledges; worker 1 executes the task again, and the map yields two outputs
for one element. -/
def twiceA : List ALab :=
  setUp ++ [mapA (.item 0 "a"), mapA (.send 0), mapA .confirm, .net (.deliver 0), .deliver 0, .work 0 .checkFlag, .work 0 .checkTerm, .work 0 .start, .finish 0 0, .work 0 .pubOk, .net (.lose 1),
   .net (.requeue 0), .net (.deliver 1), .deliver 1] ++ serveA 1 ++ [.net (.deliver 2), .recv (.inl ()) (.recv 0), .ackRes (.inl ()), .net (.deliver 2), .recv (.inl ()) (.recv 0)]

example : (goA twiceA).map (fun s => (mapOf s ()).outs) = some [.ok (0, "a!"), .ok (0, "a!")] ∧ MapS.inputs (mapSteps twiceA ()) = indexed 0 ["a"] := ⟨rfl, rfl⟩

end Demo
end SystemAmqp
end Paladin
