import Verif.Proofs.SystemMem
/-! # Tasks in the order of publishing: proofs -/
namespace Paladin
namespace SystemMem
open Retry Paladin.System

section
variable {κ : Type} {σ ℓ : κ → Type} {T O ε χ ω : Type} [DecidableEq κ] {cl : (j : κ) → Client (σ j) (ℓ j) T (Except ε O)} {listens : (j : κ) → σ j → Bool} {cfg : Worker.Cfg κ}
  {exec : ω → T → Except (OpError χ) O} {text : OpError χ → ε}

theorem dels_step (hc : ∀ j, Local (cl j)) {s s' : St κ σ T O ε χ} {l : Label κ ℓ O χ ω} (hi : Inv s) (h : step cl listens cfg exec text s l = some s') : s.sys.dels.length ≤ s'.sys.dels.length := by
  obtain ⟨hi', hm⟩ := step_inv hc hi h
  rw [Matches] at hm
  cases hl : l.sys with
  | none =>
    rw [hl] at hm
    simp only at hm
    have h1 : s'.view.dels = s.view.dels := by rw [hm]
    have h1 : s'.sys.dels = s.sys.dels := h1
    exact Nat.le_of_eq (congrArg List.length h1).symm
  | some l' =>
    rw [hl] at hm
    simp only at hm
    by_cases hd : ∃ w k, l' = .deliver w k
    · obtain ⟨w, k, rfl⟩ := hd
      have e1 : s'.view.dels = s'.sys.dels := rfl
      have e3 : s.view.dels = s.sys.dels := rfl
      simp only [System.step] at hm
      split at hm <;> try simp only [reduceCtorEq] at hm
      split at hm <;> simp only [Option.some.injEq, reduceCtorEq] at hm
      rw [← e1, ← hm, ← e3]
      simp
    · have h1 : s'.sys.dels.map Del.msg = s.sys.dels.map Del.msg := (sys_dels hm (sys_requeues hl)).2 fun w k e => hd ⟨w, k, e⟩
      have := congrArg List.length h1
      simp only [List.length_map] at this
      omega

theorem dels_run (hc : ∀ j, Local (cl j)) {s s' : St κ σ T O ε χ} {ls : List (Label κ ℓ O χ ω)} (hi : Inv s) (h : run cl listens cfg exec text s ls = some s') : s.sys.dels.length ≤ s'.sys.dels.length := by
  induction ls generalizing s with
  | nil => cases h; exact Nat.le_refl _
  | cons l ls ih =>
    obtain ⟨s1, h1, h2⟩ := Lts.run_cons.1 h
    exact Nat.le_trans (dels_step hc hi h1) (ih (step_inv hc hi h1).1 h2)

end

section
variable {A B : Type} [DecidableEq A] [DecidableEq B] {α β : A → Type} {γ : B → Type} {T O ε χ ω : Type} {op : (a : A) → ω → α a → Except ε (β a)}
  {comb : (b : B) → ω → γ b → γ b → Except ε (γ b)} {empty : (b : B) → γ b} {dupErr : ε} {encM : (a : A) → Nat × α a → Option T} {decM : (a : A) → O → Except ε (Nat × β a)}
  {encF : (b : B) → Fold.CTask (γ b) → Option T} {decF : (b : B) → O → Except ε (Seg (γ b))} {cfg : Worker.Cfg (A ⊕ B)} {exec : ω → T → Except (OpError χ) O} {text : OpError χ → ε}

/-- The map's leader reads its input and has no publish under way. -/
def Free (m : MapS.St α' β' ε) : Prop := m.ended = false ∧ m.sendDone = false ∧ m.inflight = [] ∧ m.unconf = 0

/-- The three steps in which a map publishes an item. -/
def one (a : A) (i : Nat) (x : α a) : List (Label (A ⊕ B) (DirLabel α γ ε ω) O χ ω) :=
  [.lead (.inl a) (MapS.Label.item i x : MapS.Label (α a) ε ω), .lead (.inl a) (MapS.Label.send 0 : MapS.Label (α a) ε ω), .lead (.inl a) (MapS.Label.confirm : MapS.Label (α a) ε ω)]

theorem lead_run {s : St (A ⊕ B) (DirSt α β γ ε) T O ε χ} {a : A} {l : MapS.Label (α a) ε ω} (hl : mapLead l = true) (hq : s.sys.queue = []) (hr : s.sys.results = fun _ => []) (hm : ∀ rs : List (Except ε O), mapLeft l rs = rs)
    {m : MapS.St (α a) (β a) ε} (h : MapS.step (op a) { (s.sys.lead (.inl a) : MapS.St (α a) (β a) ε) with tasks := [], results := [] } l = some m) {ts : List T} (ht : m.tasks.mapM (encM a) = some ts) :
    ∃ s', step (dirs op comb empty dupErr encM decM encF decF) dirListens cfg exec text s (.lead (.inl a) l) = some s' ∧ (s'.sys.lead (.inl a) : MapS.St (α a) (β a) ε) = { m with tasks := [], results := [] } ∧ s'.sys.queue = [] ∧
      s'.sys.results = (fun _ => []) ∧ s'.tq.msgs = s.tq.msgs ++ ts.map (fun t => ⟨.inl a, t⟩) ∧ s'.sys.dels = s.sys.dels ∧ ∀ j, j ≠ .inl a → s'.sys.lead j = s.sys.lead j := by
  have hs : (dirs op comb empty dupErr encM decM encF decF (.inl a)).step (s.sys.lead (.inl a)) l (s.sys.results (.inl a)) = some (({ m with tasks := [], results := [] } : MapS.St (α a) (β a) ε), ts, []) := by
    simp only [dirs, mapClient, hl, if_true, hr, List.map_nil]
    rw [h]
    simp only [ht, hm, Option.map_some]
    rfl
  refine ⟨s.flush { s.sys with
      lead := Function.update s.sys.lead (.inl a) ({ m with tasks := [], results := [] } : MapS.St (α a) (β a) ε), results := Function.update s.sys.results (.inl a) [], queue := s.sys.queue ++ ts.map fun t => ⟨.inl a, t⟩ }, ?_, ?_⟩
  · simp only [step, System.step]
    rw [hs]
    rfl
  · refine ⟨?_, rfl, rfl, by simp [St.flush, hq, InMem.Chan.foldl_push], rfl, fun j hj => Function.update_of_ne hj ..⟩
    exact Function.update_self ..

theorem one_run {s : St (A ⊕ B) (DirSt α β γ ε) T O ε χ} {a : A} (hf : Free (s.sys.lead (.inl a) : MapS.St (α a) (β a) ε)) (hq : s.sys.queue = []) (hr : s.sys.results = fun _ => []) {i : Nat} {x : α a} {t : T}
    (ht : encM a (i, x) = some t) :
    ∃ s', run (dirs op comb empty dupErr encM decM encF decF) dirListens cfg exec text s (one a i x) = some s' ∧ Free (s'.sys.lead (.inl a) : MapS.St (α a) (β a) ε) ∧ s'.sys.queue = [] ∧ s'.sys.results = (fun _ => []) ∧
      s'.tq.msgs = s.tq.msgs ++ [⟨.inl a, t⟩] ∧ s'.sys.dels = s.sys.dels ∧ ∀ j, j ≠ .inl a → s'.sys.lead j = s.sys.lead j := by
  obtain ⟨h1, h2, h3, h4⟩ := hf
  obtain ⟨s1, a1, b1, c1, d1, e1, f1, g1⟩ := lead_run (op := op) (comb := comb) (empty := empty) (dupErr := dupErr) (encM := encM) (decM := decM) (encF := encF) (decF := decF) (cfg := cfg) (exec := exec) (text := text)
    (s := s) (a := a) (l := .item i x) rfl hq hr (fun _ => rfl) (by simp only [MapS.step, h1, h2, h3, h4]; rfl) rfl
  obtain ⟨s2, a2, b2, c2, d2, e2, f2, g2⟩ := lead_run (op := op) (comb := comb) (empty := empty) (dupErr := dupErr) (encM := encM) (decM := decM) (encF := encF) (decF := decF) (cfg := cfg) (exec := exec) (text := text)
    (s := s1) (a := a) (l := .send 0) rfl c1 d1 (fun _ => rfl) (by rw [b1]; simp only [MapS.step]; rfl) (ts := [t]) (by simp [ht])
  obtain ⟨s3, a3, b3, c3, d3, e3, f3, g3⟩ := lead_run (op := op) (comb := comb) (empty := empty) (dupErr := dupErr) (encM := encM) (decM := decM) (encF := encF) (decF := decF) (cfg := cfg) (exec := exec) (text := text)
    (s := s2) (a := a) (l := .confirm) rfl c2 d2 (fun _ => rfl) (by rw [b2]; simp only [MapS.step]; rfl) rfl
  refine ⟨s3, ?_, ?_, c3, d3, ?_, by rw [f3, f2, f1], fun j hj => by rw [g3 j hj, g2 j hj, g1 j hj]⟩
  · exact Lts.run_cons.2 ⟨s1, a1, Lts.run_cons.2 ⟨s2, a2, Lts.run_cons.2 ⟨s3, a3, rfl⟩⟩⟩
  · rw [b3]; exact ⟨rfl, rfl, rfl, rfl⟩
  · rw [e3, e2, e1]; simp

/-- The steps in which a map publishes the items of a list. -/
def several (a : A) : Nat → List (α a) → List (Label (A ⊕ B) (DirLabel α γ ε ω) O χ ω)
  | _, [] => []
  | n, x :: xs => one a n x ++ several a (n + 1) xs

theorem several_run {a : A} (he : ∀ i x, (encM a (i, x)).isSome) (xs : List (α a)) (n : Nat) {s : St (A ⊕ B) (DirSt α β γ ε) T O ε χ} (hf : Free (s.sys.lead (.inl a) : MapS.St (α a) (β a) ε)) (hq : s.sys.queue = [])
    (hr : s.sys.results = fun _ => []) :
    ∃ s' ts, run (dirs op comb empty dupErr encM decM encF decF) dirListens cfg exec text s (several a n xs) = some s' ∧ s'.sys.queue = [] ∧ s'.sys.results = (fun _ => []) ∧
      (∀ i : Nat, ∀ x : α a, xs[i]? = some x → ∃ t, encM a (n + i, x) = some t ∧ ts[i]? = some (⟨.inl a, t⟩ : Msg (A ⊕ B) T)) ∧ ts.length = xs.length ∧
      s'.tq.msgs = s.tq.msgs ++ ts ∧ s'.sys.dels = s.sys.dels ∧ ∀ j, j ≠ .inl a → s'.sys.lead j = s.sys.lead j := by
  induction xs generalizing n s with
  | nil => exact ⟨s, [], rfl, hq, hr, by simp, rfl, by simp, rfl, fun _ _ => rfl⟩
  | cons x xs ih =>
    obtain ⟨t, ht⟩ := Option.isSome_iff_exists.1 (he n x)
    obtain ⟨s1, a1, b1, c1, d1, e1, f1, g1⟩ := one_run (op := op) (comb := comb) (empty := empty) (dupErr := dupErr) (decM := decM) (encF := encF) (decF := decF) (cfg := cfg) (exec := exec) (text := text) hf hq hr ht
    obtain ⟨s2, ts, a2, b2, c2, d2, e2, f2, g2, h2⟩ := ih (n + 1) b1 c1 d1
    refine ⟨s2, ⟨.inl a, t⟩ :: ts, Lts.run_append.2 ⟨s1, a1, a2⟩, b2, c2, ?_, by simp [e2], by rw [f2, e1]; simp, by rw [g2, f1], fun j hj => by rw [h2 j hj, g1 j hj]⟩
    intro i y hy
    cases i with
    | zero =>
      simp only [List.getElem?_cons_zero, Option.some.injEq] at hy
      subst hy
      exact ⟨t, ht, rfl⟩
    | succ i =>
      simp only [List.getElem?_cons_succ] at hy
      obtain ⟨t', h1, h2⟩ := d2 i y hy
      exact ⟨t', by rw [← h1]; congr 2; omega, by simpa using h2⟩

end
end SystemMem
end Paladin
