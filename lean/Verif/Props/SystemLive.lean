import Verif.Props.System
import Verif.Props.MapLive
import Verif.Props.MapDup
import Verif.Props.FoldLive
import Verif.Proofs.SystemLive
import Verif.Proofs.SystemEnds
import Verif.Proofs.SystemFailsDir
/-!
# Property C71: jobs served by healthy workers complete

Vocabulary: `Verif/Spec/System.lean`. `W` are the workers taking part; `steady` excludes deaths of workers, commands, failures of broker calls and returned deliveries; `serves` are the
steps by which the workers of `W` do their work.
-/
namespace Paladin
namespace System
open Retry

section
variable {A B : Type} [DecidableEq A] [DecidableEq B] {α β : A → Type} {γ : B → Type} {T O ε χ ω : Type} {op : (a : A) → ω → α a → Except ε (β a)}
  {comb : (b : B) → ω → γ b → γ b → Except ε (γ b)} {empty : (b : B) → γ b} {dupErr : ε} {encM : (a : A) → Nat × α a → Option T} {decM : (a : A) → O → Except ε (Nat × β a)}
  {encF : (b : B) → Fold.CTask (γ b) → Option T} {decF : (b : B) → O → Except ε (Seg (γ b))} {cfg : Worker.Cfg (A ⊕ B)} {exec : ω → T → Except (OpError χ) O} {text : OpError χ → ε}

theorem published {ls : List (Label (A ⊕ B) (DirLabel α γ ε ω) O χ ω)} {s : St (A ⊕ B) (DirSt α β γ ε) T O ε χ}
    (h : dirRun op comb empty dupErr encM decM encF decF cfg exec text ls = some s) :
    ∀ d ∈ s.dels, (∀ a, d.msg.key = .inl a → ∃ t, encM a t = some d.msg.task) ∧ ∀ b, d.msg.key = .inr b → ∃ t, encF b t = some d.msg.task := by
  refine (published_run (P := fun j t => (∀ a, j = .inl a → ∃ u, encM a u = some t) ∧ ∀ b, j = .inr b → ∃ u, encF b u = some t) ?_ h).2
  intro j x l rs x' ts rs' hs t ht
  cases j with
  | inl a =>
    refine ⟨fun a' e => ?_, nofun⟩
    cases e
    exact sent_map hs t ht
  | inr b =>
    refine ⟨nofun, fun a' e => ?_⟩
    cases e
    exact sent_fold hs t ht

theorem map_never_fails {a : A} (hf : MapFaithful exec text (op a) (encM a) (decM a)) 
    {ls : List (Label (A ⊕ B) (DirLabel α γ ε ω) O χ ω)} {s : St (A ⊕ B) (DirSt α β γ ε) T O ε χ}
    (h : dirRun op comb empty dupErr encM decM encF decF cfg exec text ls = some s) (hop : ∀ p ∈ MapS.inputs (mapSteps ls a), ∀ x, ∃ u, op a x p.2 = .ok u) :
    NeverFails exec (.inl a) s := by
  intro d hd hk x e he
  obtain ⟨⟨i, v⟩, hp, ht⟩ := (map_trail a hf h).d d hd hk
  obtain ⟨u, hu⟩ := hop _ hp x
  simp only at hu
  have := hf x i v _ ht
  rw [outcome, he, hu] at this
  simp [Except.mapError, Except.bind, Except.map] at this

theorem fold_never_fails {b : B} (hf : FoldFaithful exec text (comb b) (encF b) (decF b)) 
    {ls : List (Label (A ⊕ B) (DirLabel α γ ε ω) O χ ω)} {s : St (A ⊕ B) (DirSt α β γ ε) T O ε χ}
    (h : dirRun op comb empty dupErr encM decM encF decF cfg exec text ls = some s)
    (hop : ∀ t, Fold.Asked (Fold.Returns (comb b)) (Fold.inputs (foldSteps ls b)) t → ∀ x, ∃ c, comb b x t.a t.b = .ok c) : NeverFails exec (.inr b) s := by
  intro d hd hk x e he
  obtain ⟨t, hto, ht⟩ := (fold_trail b hf h).d d hd hk
  obtain ⟨u, hu⟩ := hop t hto.asked x
  have := hf x t _ ht
  rw [outcome, he, hu] at this
  simp [Except.mapError, Except.bind, Except.map] at this

/-- **C71, map.** A map runs beside any other jobs on the workers of `W` (at least one). Nothing goes wrong around the workers and on the side of this map's leader, the inputs can be serialized, and the operation does
not fail on them. When neither the workers nor the leader can do anything more without new input, then every input received so far has been answered by exactly one output that some execution
of the operation returned for it; no error was yielded; and if the input has ended, so has the mapped stream. -/
theorem C71_map [Inhabited ω] (a : A) (hf : MapFaithful exec text (op a) (encM a) (decM a))
    (ls : List (Label (A ⊕ B) (DirLabel α γ ε ω) O χ ω)) (s : St (A ⊕ B) (DirSt α β γ ε) T O ε χ)
    (h : dirRun op comb empty dupErr encM decM encF decF cfg exec text ls = some s) (W : Nat → Bool) (hW : ∃ w, W w = true) (hst : ∀ l ∈ ls, l.steady W = true)
    (hrel : ∀ l ∈ mapSteps ls a, l.reliable = true) (henc : ∀ p ∈ MapS.inputs (mapSteps ls a), (encM a p).isSome = true)
    (hop : ∀ p ∈ MapS.inputs (mapSteps ls a), ∀ x, ∃ u, op a x p.2 = .ok u)
    (hwork : ∀ l : Label (A ⊕ B) (DirLabel α γ ε ω) O χ ω, l.serves W = true → step (dirs op comb empty dupErr encM decM encF decF) cfg exec text s l = none)
    (hlead : ∀ l : MapS.Label (α a) ε ω, l.internal = true → step (dirs op comb empty dupErr encM decM encF decF) cfg exec text s (.lead (.inl a) l) = none) :
    ((mapOf s a).ended = true ↔ .inputEnd ∈ mapSteps ls a) ∧ MapS.OneEach (MapS.Returns (op a)) (MapS.inputs (mapSteps ls a)) (MapS.oks (mapOf s a).outs) ∧
      MapS.errs (mapOf s a).outs = [] := by
  obtain ⟨jls, J, h1, h2, h3, h4, h5, h6, h7⟩ := job_idle (j := .inl a) h hst hW (map_never_fails hf h hop) hwork
  obtain ⟨pre, m, g1, g2, g3, g4, g5⟩ := map_job (exec := exec) (text := text) hf jls J h1
  have hin : JobLabel.leads pre = mapSteps ls a := g2.trans h5
  have hm : mapOf s a = { m with tasks := [], results := [] } := h2.symm.trans g4
  have hrel' : ∀ l ∈ pre.map toMap, l.reliable = true := by
    intro l hl
    obtain ⟨x, hx, rfl⟩ := List.mem_map.1 hl
    cases x with
    | lead l => exact hrel l (hin ▸ mem_leads.2 hx)
    | exec k x => rfl
    | lose k => have := h7 _ (g1.subset hx); simp [JobLabel.loses] at this
    | dup k => have := h6 _ (g1.subset hx); simp [JobLabel.dups] at this
  have hstuck : ∀ l : MapS.Label (α a) ε ω, l.internal = true → MapS.step (op a) m l = none := by
    intro l hl
    cases he : m.ended with
    | true => simp [MapS.step, he]
    | false =>
      obtain ⟨rfl, e1, e2⟩ := g5 he
      rw [h4] at e1
      have e1 : m.tasks = [] := by simpa using e1
      by_cases hml : mapLead l = true
      · have hc : (mapClient (op a) (encM a) (decM a)).step (mapOf s a) l (s.results (.inl a)) = none := none_lead (hlead l hl)
        have hc := none_map hml hc ?_
        · rw [hm, ← h3, ← e2, ← e1] at hc
          exact hc
        · intro s' t hs' ht
          refine henc t ?_
          rw [← hin, ← inputs_toMap]
          refine (MapS.redelivery_inv _ m g3).1 t (List.mem_append_left _ ?_)
          have hfl : (mapOf s a).inflight = m.inflight := by rw [hm]
          rw [← hfl]
          exact tasks_of_map hml hs' ht
      · cases l with
        | exec k x => simp [MapS.step, he, e1, Fold.takeAt]
        | _ => first | exact absurd rfl hml | simp [MapS.Label.internal] at hl
  obtain ⟨p1, _, ans, fld, p2, p3, p4⟩ := MapS.C58_progress _ m g3 hrel' hstuck
  have herr := no_errs (by rw [inputs_toMap, hin]; exact hop) g3 hrel'
  rw [hm]
  refine ⟨p1.trans ?_, ?_, herr⟩
  · rw [← hin, mem_leads, List.mem_map]
    constructor
    · rintro ⟨x, hx, e⟩
      cases x <;> simp_all [toMap]
    · exact fun h => ⟨_, h, rfl⟩
  · rw [herr] at p4
    have : fld = [] := by simpa using p4
    subst this
    rw [List.append_nil, inputs_toMap, hin] at p2
    obtain ⟨T, q1, q2, q3⟩ := p3
    exact ⟨T, q1.trans p2, q2, q3⟩

/-- **C71, fold (partial).** Missing: the case in which all results arrive before the end of the input is observed, where the claim is false already for one job
(`C08_hang`), and a single item with an index other than 0 (`C10_single`). A fold runs beside any other jobs on the workers of `W` (at least one). Nothing goes wrong around the workers and on the side of this fold's leader, the combine tasks that can arise from the input can be serialized,
and combining does not fail on them. When neither the workers nor the leader can do anything more, then fold has returned an in-order combination of its input, or `empty()` for an empty one. -/
theorem C71_fold_partial [Inhabited ω] (b : B) (hf : FoldFaithful exec text (comb b) (encF b) (decF b))
    (ls : List (Label (A ⊕ B) (DirLabel α γ ε ω) O χ ω)) (s : St (A ⊕ B) (DirSt α β γ ε) T O ε χ)
    (h : dirRun op comb empty dupErr encM decM encF decF cfg exec text ls = some s) (W : Nat → Bool) (hW : ∃ w, W w = true) (hst : ∀ l ∈ ls, l.steady W = true)
    (hrel : ∀ l ∈ foldSteps ls b, l.reliable = true) (pre post : List (Fold.Label (γ b) ε ω)) (hsplit : foldSteps ls b = pre ++ .inputEnd :: post)
    (start : Nat) (xs : List (γ b)) (hin : (Fold.inputs pre).Perm (indexed start xs)) (hrc : xs = [] ∨ (xs.length = 1 ∧ start = 0) ∨ Fold.recvs pre + 1 < xs.length)
    (henc : ∀ t, Fold.Asked (Fold.Returns (comb b)) (indexed start xs) t → (encF b t).isSome = true)
    (hop : ∀ t, Fold.Asked (Fold.Returns (comb b)) (indexed start xs) t → ∀ x, ∃ c, comb b x t.a t.b = .ok c)
    (hwork : ∀ l : Label (A ⊕ B) (DirLabel α γ ε ω) O χ ω, l.serves W = true → step (dirs op comb empty dupErr encM decM encF decF) cfg exec text s l = none)
    (hlead : ∀ l : Fold.Label (γ b) ε ω, l.internal = true → step (dirs op comb empty dupErr encM decM encF decF) cfg exec text s (.lead (.inr b) l) = none) :
    ∃ v, (foldOf s b).outcome = some (.ok v) ∧ ((xs = [] ∧ v = empty b) ∨ Tree (Fold.Returns (comb b)) xs v) := by
  have hall : Fold.inputs (foldSteps ls b) = Fold.inputs pre := by
    obtain ⟨jls, J, h1, h2, h3, h4, h5, h6⟩ := C68_isolation ls s h (.inr b)
    obtain ⟨jpre, m, g1, g2, g3, g4, g5⟩ := fold_job (exec := exec) (text := text) (foldFaithful_execute hf) jls J h1
    have hlds : JobLabel.leads jpre = foldSteps ls b := g2.trans h4
    obtain ⟨p, q, rfl, hp, hq⟩ := leads_split (hlds.trans hsplit)
    rw [List.map_append, List.map_cons] at g3
    have hall := inputs_after_end g3
    rw [hsplit, Fold.inputs_append, Fold.inputs_cons, ← hq, ← inputs_toFold, hall]
    simp [Fold.Label.items]
  have hall' : ∀ p ∈ Fold.inputs (foldSteps ls b), p ∈ indexed start xs := fun p hp => hin.subset (hall ▸ hp)
  obtain ⟨jls, J, h1, h2, h3, h4, h5, h6, h7⟩ := job_idle (j := .inr b) h hst hW (fold_never_fails hf h fun t ht => hop t (ht.mono (fun _ _ _ h => h) hall')) hwork
  obtain ⟨jpre, m, g1, g2, g3, g4, g5⟩ := fold_job (exec := exec) (text := text) (foldFaithful_execute hf) jls J h1
  have hlds : JobLabel.leads jpre = foldSteps ls b := g2.trans h5
  have hm : foldOf s b = { m with tasks := [], results := [] } := h2.symm.trans g4
  have hrel' : ∀ l ∈ jpre.map toFold, l.reliable = true := by
    intro l hl
    obtain ⟨x, hx, rfl⟩ := List.mem_map.1 hl
    cases x with
    | lead l => exact hrel l (hlds ▸ mem_leads.2 hx)
    | exec k x => rfl
    | lose k => have := h7 _ (g1.subset hx); simp [JobLabel.loses] at this
    | dup k => have := h6 _ (g1.subset hx); simp [JobLabel.dups] at this
  have hstuck : ∀ l : Fold.Label (γ b) ε ω, l.internal = true → Fold.step (comb b) (empty b) dupErr m l = none := by
    intro l hl
    cases he : m.outcome with
    | some o => simp [Fold.step, he]
    | none =>
      obtain ⟨rfl, e1, e2⟩ := g5 he
      rw [h4] at e1
      have e1 : m.tasks = [] := by simpa using e1
      by_cases hml : foldLead l = true
      · have hc : (foldClient (comb b) (empty b) dupErr (encF b) (decF b)).step (foldOf s b) l (s.results (.inr b)) = none := none_lead (hlead l hl)
        have hc := none_fold hml hc ?_
        · rw [hm, ← h3, ← e2, ← e1] at hc
          exact hc
        · intro s' t hs' ht
          have hfl : (foldOf s b).outbox = m.outbox := by rw [hm]
          have hto := (Fold.safe_run _ m g3).1.outb t (hfl ▸ tasks_of_fold hml hs' ht)
          rw [inputs_toFold, hlds] at hto
          exact henc t (hto.asked.mono (fun _ _ _ h => h) hall')
      · cases l with
        | exec k x => simp [Fold.step, he, e1, Fold.takeAt]
        | _ => first | exact absurd rfl hml | simp [Fold.Label.internal] at hl
  obtain ⟨p, q, rfl, hp, hq⟩ := leads_split (hlds.trans hsplit)
  rw [List.map_append, List.map_cons] at g3 hrel'
  have hin' : (Fold.inputs (p.map toFold)).Perm (indexed start xs) := by rw [inputs_toFold, hp]; exact hin
  have hv : ∃ v, m.outcome = some (.ok v) := by
    rcases Fold.C08_completes_partial _ _ m start xs g3 hrel' hin' (by rw [recvs_toFold, hp]; exact hrc) hstuck with hv | ⟨e, k, w, u, v, he, _, _⟩
    · exact hv
    · exfalso
      have hins : Fold.inputs (p.map toFold ++ .inputEnd :: q.map toFold) = Fold.inputs (foldSteps ls b) := by
        rw [← hlds, ← inputs_toFold, List.map_append, List.map_cons]; rfl
      have hnd : ((Fold.inputs (p.map toFold ++ .inputEnd :: q.map toFold)).map (·.1)).Nodup := by rw [hins, hall]; exact Fold.nodup_of_block hin
      rcases Fold.own_errors _ m g3 (fun l hl => Fold.lossless_once (Fold.reliable_lossless (hrel' l hl))) hnd e he with ⟨l, h1, h2⟩ | hc
      · have := hrel' l h1
        cases l <;> simp_all [Fold.Label.failure, Fold.Label.reliable]
      · obtain ⟨w, t, h1, h2⟩ := hc.asked
        obtain ⟨c, hc'⟩ := hop t (h1.mono (fun _ _ _ h => h) fun p hp => hall' p (by rw [← hins]; exact hp)) w
        rw [hc'] at h2; simp at h2
  obtain ⟨v, hv⟩ := hv
  have ho : (foldOf s b).outcome = some (.ok v) := by rw [hm]; exact hv
  refine ⟨v, ho, ?_⟩
  by_cases hx : xs = []
  · subst hx
    left
    refine ⟨rfl, ?_⟩
    have hi : Fold.inputs (p.map toFold ++ toFold (.lead .inputEnd) :: q.map toFold) = [] := by
      rw [← List.map_cons, ← List.map_append, inputs_toFold, hlds, hall]
      simpa [indexed] using hin
    rcases Fold.C05_fold_ok _ m v g3 hv with ⟨_, h0⟩ | ⟨st, ys, hpm, ht⟩
    · exact h0
    · rw [hi] at hpm
      have := hpm.length_eq
      rw [Fold.length_indexed] at this
      obtain rfl : ys = [] := List.length_eq_zero_iff.1 this.symm
      exact absurd rfl ht.ne_nil
  · exact .inr (C68_fold b hf ls s h v ho start xs (by rw [hall]; exact hin) hx)

/-- **C71, the work ends.** From any state, finitely many workers `W` and the leaders of finitely many jobs `K` can take only a bounded number of steps without new input (time may pass and
records of terminated jobs may be cleaned up in between). So with `C71_map` and `C71_fold_partial`: whatever the schedule, the system comes to rest, and then the jobs are complete. -/
theorem C71_ends (W : Finset Nat) (K : Finset (A ⊕ B)) (s : St (A ⊕ B) (DirSt α β γ ε) T O ε χ) :
    ∃ N, ∀ (ls : List (Label (A ⊕ B) (DirLabel α γ ε ω) O χ ω)) (s' : St (A ⊕ B) (DirSt α β γ ε) T O ε χ),
      run (dirs op comb empty dupErr encM decM encF decF) cfg exec text s ls = some s' →
      (∀ l ∈ ls, l.moves (fun w => decide (w ∈ W)) (dirInternal fun j => decide (j ∈ K)) = true ∨ l.idles = true) →
      (ls.filter fun l => l.moves (fun w => decide (w ∈ W)) (dirInternal fun j => decide (j ∈ K))).length ≤ N := by
  let f : (j : A ⊕ B) → DirSt α β γ ε j → Nat := fun j => match j with
    | .inl a => mapWork (α := α a) (β := β a)
    | .inr b => foldWork (α := γ b)
  refine ⟨total W K f s, fun ls s' h hl => ?_⟩
  refine Nat.le_trans (Nat.le_add_right _ (total W K f s')) (total_run (f := f) (cl := dirs op comb empty dupErr encM decM encF decF) ?_ ?_ h hl)
  · intro j
    cases j with
    | inl a =>
      intro s l rs s' ts rs' hi hs
      exact measured_map (op := op a) (enc := encM a) (dec := decM a) s l rs s' ts rs' (by simp [dirInternal] at hi; exact hi.2) hs
    | inr b =>
      intro s l rs s' ts rs' hi hs
      exact measured_fold (comb := comb b) (empty := empty b) (dupErr := dupErr) (enc := encF b) (dec := decF b) s l rs s' ts rs' (by simp [dirInternal] at hi; exact hi.2) hs
  · intro j l hi
    cases j <;> simp [dirInternal] at hi <;> exact hi.1
end

/-! ## Examples -/

namespace Demo

/-- As `exec`, but adding never fails. -/
def exec' (x : Nat) : Task → Except (OpError String) Out := fun t => exec 0 t
def comb' (_ : Bool) (_ a b : Nat) : Except String Nat := .ok (a + b)

abbrev go' (ls : List Lab) : Option (St (Unit ⊕ Bool) (DirSt (fun _ : Unit => String) (fun _ : Unit => String) (fun _ : Bool => Nat) String) Task Out String String) :=
  dirRun op comb' (fun _ => 0) "twice" (fun _ t => some (.inl t)) decM (fun _ t => some (.inr t)) decF cfg exec' text ls

/-- A map and a fold side by side on the workers 0 and 1. -/
def calm : List Lab :=
  [mapL (.item 0 "a"), mapL (.send 0), mapL .confirm, foldL (.item 0 3), foldL (.item 1 4), foldL (.publish 0), foldL .inputEnd, .deliver 0 1, .deliver 1 0] ++ serve 0 0 ++ serve 1 0 ++
  [mapL .inputEnd, mapL (.recv 0), foldL (.recv 0), mapL .recvEnd, mapL .finish, foldL .finish]

/-- The state at the end: the workers wait and no leader can do anything. -/
def rest := (go' calm).get (by decide)

theorem rest_work (l : Lab) (hl : l.serves (fun w => w < 2) = true) :
    step (dirs op comb' (fun _ => 0) "twice" (fun _ t => some (.inl t)) decM (fun _ t => some (.inr t)) decF) cfg exec' text rest l = none := by
  have hq : rest.queue = [] := rfl
  have hpc : ∀ w, decide (w < 2) = true → (rest.worker w).pc = .waiting := by
    intro w hw
    have : w = 0 ∨ w = 1 := by simp at hw; omega
    rcases this with rfl | rfl <;> rfl
  cases l with
  | lead j l => simp [Label.serves] at hl
  | deliver w k => simp [step, hq, Fold.takeAt]
  | finish w x =>
    have := hpc w hl
    simp only [step]
    split
    · simp [Worker.step, this]
    · rfl
  | work w l =>
    have hl' : decide (w < 2) = true ∧ routine l = true := by simpa [Label.serves] using hl
    have := hpc w hl'.1
    cases l <;> first | (simp [routine] at hl'; done) | simp [step, Worker.step, this]
  | requeue n => simp [Label.serves] at hl

/-- Hypotheses of `C71_map` and `C71_fold_partial`: met by `calm`. -/
example : go' calm = some rest ∧ (∀ l ∈ calm, l.steady (fun w => w < 2) = true) ∧ (∀ l ∈ mapSteps calm (), l.reliable = true) ∧
    (∀ l : Lab, l.serves (fun w => w < 2) = true →
      step (dirs op comb' (fun _ => 0) "twice" (fun _ t => some (.inl t)) decM (fun _ t => some (.inr t)) decF) cfg exec' text rest l = none) ∧
    (∀ l : MapS.Label String String Nat, l.internal = true →
      step (dirs op comb' (fun _ => 0) "twice" (fun _ t => some (.inl t)) decM (fun _ t => some (.inr t)) decF) cfg exec' text rest (mapL l) = none) ∧
    (mapOf rest ()).ended = true ∧ (mapOf rest ()).outs = [.ok (0, "a!")] := by
  refine ⟨rfl, by decide, by decide, rest_work, ?_, rfl, rfl⟩
  intro l _
  have he : (mapOf rest ()).ended = true := rfl
  have : (mapClient (op ()) (fun t => some (Sum.inl t)) (decM ()) : Client _ _ Task (Except String Out)).step (mapOf rest ()) l (rest.results (.inl ())) = none := by simp [mapClient, MapS.step, he]
  exact lead_none this

example : (∀ l ∈ foldSteps calm true, l.reliable = true) ∧ foldSteps calm true = [.item 0 3, .item 1 4, .publish 0] ++ .inputEnd :: [.recv 0, .finish] ∧
    (∀ l : Fold.Label Nat String Nat, l.internal = true →
      step (dirs op comb' (fun _ => 0) "twice" (fun _ t => some (.inl t)) decM (fun _ t => some (.inr t)) decF) cfg exec' text rest (foldL l) = none) ∧
    FoldFaithful exec' text (comb' true) (fun t => some (.inr t)) (decF true) ∧ MapFaithful exec' text (op ()) (fun t => some (.inl t)) (decM ()) ∧ (foldOf rest true).outcome = some (.ok 7) := by
  refine ⟨by decide, rfl, ?_, by rintro _ _ _ ⟨⟩; rfl, by rintro _ _ _ _ ⟨⟩; rfl, rfl⟩
  intro l _
  have he : (foldOf rest true).outcome = some (.ok 7) := rfl
  have : (foldClient (comb' true) 0 "twice" (fun t => some (Sum.inr t)) (decF true) : Client _ _ Task (Except String Out)).step (foldOf rest true) l (rest.results (.inr true)) = none := by
    simp [foldClient, Fold.step, he]
  exact lead_none this

end Demo
end System
end Paladin
