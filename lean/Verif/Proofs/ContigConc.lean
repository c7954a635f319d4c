import Verif.Spec.ContigConc
import Verif.Proofs.MapS
import Verif.Proofs.Contig
/-! # Invariants of the shared `ContiguousQueue` -/
namespace Paladin
namespace Conc

/-- Case analysis of `callStep`. -/
inductive CallR (nodes : List (Node α)) (c : Call α) (w : Option Nat) : List (Node α) → Sum (Call α) (Option (Seg α × Seg α)) → Prop
  | findR0 : c.pc = .findR → w = none → CallR nodes c w nodes (.inl { c with pc := .findL })
  | findR (id n) : c.pc = .findR → w = some id → nodes[id]? = some n → c.x.lo ≤ n.key → CallR nodes c w nodes (.inl { c with pc := .peekR id })
  | peekRy (id n v) : c.pc = .peekR id → nodes[id]? = some n → n.cell = some v → c.x.isContiguous v = true →
      CallR nodes c w nodes (.inl { c with pc := .takeR id })
  | peekRn (id) : c.pc = .peekR id → (∀ n v, nodes[id]? = some n → n.cell = some v → c.x.isContiguous v = false) →
      CallR nodes c w nodes (.inl { c with pc := .findL })
  | takeR (id n v) : c.pc = .takeR id → nodes[id]? = some n → n.cell = some v →
      CallR nodes c w (nodes.set id { n with cell := none }) (.inl { c with pc := .removeR id v })
  | takeRn (id) : c.pc = .takeR id → (∀ n, nodes[id]? = some n → n.cell = none) → CallR nodes c w nodes (.inl { c with pc := .findL })
  | removeR (id v n) : c.pc = .removeR id v → nodes[id]? = some n → CallR nodes c w (unlink nodes n.key) (.inr (some (c.x, v)))
  | findL0 : c.pc = .findL → w = none → CallR nodes c w nodes (.inl { c with pc := .insert })
  | findL (id n) : c.pc = .findL → w = some id → nodes[id]? = some n → n.key < c.x.lo → CallR nodes c w nodes (.inl { c with pc := .peekL id })
  | peekLy (id n v) : c.pc = .peekL id → nodes[id]? = some n → n.cell = some v → c.x.isContiguous v = true →
      CallR nodes c w nodes (.inl { c with pc := .takeL id })
  | peekLn (id) : c.pc = .peekL id → (∀ n v, nodes[id]? = some n → n.cell = some v → c.x.isContiguous v = false) →
      CallR nodes c w nodes (.inl { c with pc := .insert })
  | takeL (id n v) : c.pc = .takeL id → nodes[id]? = some n → n.cell = some v →
      CallR nodes c w (nodes.set id { n with cell := none }) (.inl { c with pc := .removeL id v })
  | takeLn (id) : c.pc = .takeL id → (∀ n, nodes[id]? = some n → n.cell = none) → CallR nodes c w nodes (.inl { c with pc := .insert })
  | removeL (id v n) : c.pc = .removeL id v → nodes[id]? = some n → CallR nodes c w (unlink nodes n.key) (.inr (some (v, c.x)))
  | insert : c.pc = .insert →
      CallR nodes c w (unlink nodes c.x.lo ++ [{ key := c.x.lo, cell := some c.x, linked := true, earlier := c.earlier }]) (.inr none)

theorem bind_cell_some {nodes : List (Node α)} {id : Nat} {v : Seg α} (h : nodes[id]?.bind Node.cell = some v) :
    ∃ n, nodes[id]? = some n ∧ n.cell = some v := by
  cases hn : nodes[id]? with
  | none => simp [hn] at h
  | some n => exact ⟨n, rfl, by simpa [hn] using h⟩

theorem bind_cell_none {nodes : List (Node α)} {id : Nat} (h : nodes[id]?.bind Node.cell = none) : ∀ n, nodes[id]? = some n → n.cell = none := by
  intro n hn; simpa [hn] using h

theorem callR_of_callStep {nodes nodes' : List (Node α)} {c : Call α} {w : Option Nat} {r : Sum (Call α) (Option (Seg α × Seg α))}
    (h : callStep nodes c w = some (nodes', r)) : CallR nodes c w nodes' r := by
  unfold callStep at h
  split at h
  · rename_i hpc
    split at h
    · simp at h; obtain ⟨rfl, rfl⟩ := h; exact .findR0 hpc rfl
    · rename_i id
      split at h
      · rename_i n hn
        split at h
        · simp at h; obtain ⟨rfl, rfl⟩ := h; exact .findR id n hpc rfl hn ‹_›
        · simp at h
      · simp at h
  · rename_i id hpc
    split at h
    · rename_i v hv
      obtain ⟨n, hn, hv⟩ := bind_cell_some hv
      split at h
      · simp at h; obtain ⟨rfl, rfl⟩ := h; exact .peekRy id n v hpc hn hv ‹_›
      · rename_i hc
        simp at h; obtain ⟨rfl, rfl⟩ := h
        refine .peekRn id hpc ?_
        intro n' v' hn' hv'
        rw [hn] at hn'; simp at hn'; subst hn'
        rw [hv] at hv'; simp at hv'; subst hv'
        simpa using hc
    · rename_i hv
      simp at h; obtain ⟨rfl, rfl⟩ := h
      refine .peekRn id hpc ?_
      intro n' v' hn' hv'
      rw [bind_cell_none hv n' hn'] at hv'; simp at hv'
  · rename_i id hpc
    split at h
    · rename_i v hv
      obtain ⟨n, hn, hv⟩ := bind_cell_some hv
      simp [clear, hn] at h; obtain ⟨rfl, rfl⟩ := h
      exact .takeR id n v hpc hn hv
    · rename_i hv
      simp at h; obtain ⟨rfl, rfl⟩ := h
      exact .takeRn id hpc (bind_cell_none hv)
  · rename_i id v hpc
    split at h
    · rename_i n hn
      simp at h; obtain ⟨rfl, rfl⟩ := h
      exact .removeR id v n hpc hn
    · simp at h
  · rename_i hpc
    split at h
    · simp at h; obtain ⟨rfl, rfl⟩ := h; exact .findL0 hpc rfl
    · rename_i id
      split at h
      · rename_i n hn
        split at h
        · simp at h; obtain ⟨rfl, rfl⟩ := h; exact .findL id n hpc rfl hn ‹_›
        · simp at h
      · simp at h
  · rename_i id hpc
    split at h
    · rename_i v hv
      obtain ⟨n, hn, hv⟩ := bind_cell_some hv
      split at h
      · simp at h; obtain ⟨rfl, rfl⟩ := h; exact .peekLy id n v hpc hn hv ‹_›
      · rename_i hc
        simp at h; obtain ⟨rfl, rfl⟩ := h
        refine .peekLn id hpc ?_
        intro n' v' hn' hv'
        rw [hn] at hn'; simp at hn'; subst hn'
        rw [hv] at hv'; simp at hv'; subst hv'
        simpa using hc
    · rename_i hv
      simp at h; obtain ⟨rfl, rfl⟩ := h
      refine .peekLn id hpc ?_
      intro n' v' hn' hv'
      rw [bind_cell_none hv n' hn'] at hv'; simp at hv'
  · rename_i id hpc
    split at h
    · rename_i v hv
      obtain ⟨n, hn, hv⟩ := bind_cell_some hv
      simp [clear, hn] at h; obtain ⟨rfl, rfl⟩ := h
      exact .takeL id n v hpc hn hv
    · rename_i hv
      simp at h; obtain ⟨rfl, rfl⟩ := h
      exact .takeLn id hpc (bind_cell_none hv)
  · rename_i id v hpc
    split at h
    · rename_i n hn
      simp at h; obtain ⟨rfl, rfl⟩ := h
      exact .removeL id v n hpc hn
    · simp at h
  · rename_i hpc
    simp at h; obtain ⟨rfl, rfl⟩ := h
    exact .insert hpc

/-- Case analysis of `step`. -/
inductive StepR (s : St α) : Label α → St α → Prop
  | start (x) : StepR s (.start x) { s with calls := s.calls ++ [{ x := x, pc := .findR, earlier := full s.nodes }] }
  | go (k w c a b nodes c') : Fold.takeAt s.calls k = some (c, a ++ b) → s.calls = a ++ c :: b → CallR s.nodes c w nodes (.inl c') →
      StepR s (.act k w) { s with nodes := nodes, calls := c' :: (a ++ b) }
  | ret (k w c a b nodes out) : Fold.takeAt s.calls k = some (c, a ++ b) → s.calls = a ++ c :: b → CallR s.nodes c w nodes (.inr out) →
      StepR s (.act k w) { s with nodes := nodes, calls := a ++ b, outs := s.outs ++ [out] }

theorem stepR_of_step {s s' : St α} {l : Label α} (h : step s l = some s') : StepR s l s' := by
  cases l with
  | start x => simp [step] at h; subst h; exact .start x
  | act k w =>
    simp only [step] at h
    split at h
    · rename_i c rest hk
      obtain ⟨a, b, he, rfl⟩ := takeAt_split hk
      split at h
      · rename_i nodes c' hc; simp at h; subst h; exact .go k w c a b nodes c' hk he (callR_of_callStep hc)
      · rename_i nodes out hc; simp at h; subst h; exact .ret k w c a b nodes out hk he (callR_of_callStep hc)
      · simp at h
    · simp at h

/-- All cells, whether or not their node is in the map. -/
def cells (nodes : List (Node α)) : List (Seg α) := nodes.filterMap Node.cell

theorem cells_unlink (nodes : List (Node α)) (k : Nat) : cells (unlink nodes k) = cells nodes := by
  unfold cells unlink
  rw [List.filterMap_map]
  congr 1
  funext n; simp only [Function.comp]; split <;> rfl

theorem cells_clear {nodes : List (Node α)} {id : Nat} {n : Node α} {v : Seg α} (hn : nodes[id]? = some n) (hv : n.cell = some v) :
    (cells nodes).Perm (v :: cells (nodes.set id { n with cell := none })) := by
  induction nodes generalizing id with
  | nil => simp at hn
  | cons m nodes ih =>
    cases id with
    | zero => simp at hn; subst hn; simp [cells, hv]
    | succ id =>
      simp at hn
      have := ih hn
      unfold cells at this ⊢
      simp only [List.set_cons_succ, List.filterMap_cons]
      cases m.cell with
      | none => exact this
      | some u => exact (List.Perm.cons u this).trans (List.Perm.swap _ _ _)

/-- What a step keeps of the nodes: keys stay, cells stay or become empty, no node is put back into the map. -/
def Ext (nodes nodes' : List (Node α)) : Prop :=
  ∀ (i : Nat) (n : Node α), nodes[i]? = some n → ∃ n' : Node α, nodes'[i]? = some n' ∧ n'.key = n.key ∧ (n'.cell = n.cell ∨ n'.cell = none) ∧ n'.earlier = n.earlier ∧
    (n'.linked = true → n.linked = true)

theorem Ext.refl (nodes : List (Node α)) : Ext nodes nodes := fun _ n h => ⟨n, h, rfl, .inl rfl, rfl, id⟩

theorem getElem?_unlink (nodes : List (Node α)) (k i : Nat) :
    (unlink nodes k)[i]? = nodes[i]?.map fun n => if n.key = k then { n with linked := false } else n := by
  simp [unlink]

theorem ext_unlink (nodes : List (Node α)) (k : Nat) : Ext nodes (unlink nodes k) := by
  intro i n h
  refine ⟨_, by rw [getElem?_unlink, h]; rfl, ?_⟩
  dsimp only
  split <;> simp

theorem ext_clear {nodes : List (Node α)} {id : Nat} {n : Node α} (hn : nodes[id]? = some n) : Ext nodes (nodes.set id { n with cell := none }) := by
  intro i m h
  by_cases hi : id = i
  · subst hi; rw [hn] at h; simp at h; subst h
    have := (List.getElem?_eq_some_iff.1 hn).1
    exact ⟨{ n with cell := none }, by simp [this], rfl, .inr rfl, rfl, fun h => h⟩
  · exact ⟨m, by rw [List.getElem?_set_ne hi, h], rfl, .inl rfl, rfl, fun h => h⟩

theorem ext_append {nodes nodes' : List (Node α)} (h : Ext nodes nodes') (x : Node α) : Ext nodes (nodes' ++ [x]) := by
  intro i n hn
  obtain ⟨n', h1, h2⟩ := h i n hn
  refine ⟨n', ?_, h2⟩
  rw [List.getElem?_append_left (List.getElem?_eq_some_iff.1 h1).1, h1]

theorem callR_ext {nodes nodes' : List (Node α)} {c : Call α} {w : Option Nat} {r} (h : CallR nodes c w nodes' r) : Ext nodes nodes' := by
  cases h with
  | takeR id n v _ hn hv => exact ext_clear hn
  | takeL id n v _ hn hv => exact ext_clear hn
  | removeR id v n _ hn => exact ext_unlink _ _
  | removeL id v n _ hn => exact ext_unlink _ _
  | insert _ => exact ext_append (ext_unlink _ _) _
  | _ => exact Ext.refl _

/-- What a call knows about the node it is looking at. -/
def CallOk (nodes : List (Node α)) (c : Call α) : Prop :=
  match c.pc with
  | .peekR id => ∃ n, nodes[id]? = some n ∧ c.x.lo ≤ n.key
  | .takeR id => ∃ n, nodes[id]? = some n ∧ c.x.lo ≤ n.key ∧ ∀ v, n.cell = some v → c.x.isContiguous v = true
  | .removeR id v => ∃ n, nodes[id]? = some n ∧ n.key = v.lo ∧ c.x.lo ≤ v.lo ∧ c.x.isContiguous v = true
  | .peekL id => ∃ n, nodes[id]? = some n ∧ n.key < c.x.lo
  | .takeL id => ∃ n, nodes[id]? = some n ∧ n.key < c.x.lo ∧ ∀ v, n.cell = some v → c.x.isContiguous v = true
  | .removeL id v => ∃ n, nodes[id]? = some n ∧ n.key = v.lo ∧ v.lo < c.x.lo ∧ c.x.isContiguous v = true
  | _ => True

theorem CallOk.ext {nodes nodes' : List (Node α)} {c : Call α} (h : CallOk nodes c) (he : Ext nodes nodes') : CallOk nodes' c := by
  unfold CallOk at h ⊢
  split at h
  all_goals first | trivial | skip
  all_goals
    obtain ⟨n, hn, h⟩ := h
    obtain ⟨n', hn', hk, hc, -⟩ := he _ n hn
  · exact ⟨n', hn', by omega⟩
  · refine ⟨n', hn', by omega, fun v hv => ?_⟩
    rcases hc with hc | hc
    · exact h.2 v (by rw [← hc, hv])
    · rw [hc] at hv; simp at hv
  · exact ⟨n', hn', by omega, h.2⟩
  · exact ⟨n', hn', by omega⟩
  · refine ⟨n', hn', by omega, fun v hv => ?_⟩
    rcases hc with hc | hc
    · exact h.2 v (by rw [← hc, hv])
    · rw [hc] at hv; simp at hv
  · exact ⟨n', hn', by omega, h.2⟩

structure Inv (ls : List (Label α)) (s : St α) : Prop where
  perm : (offered ls).Perm (cells s.nodes ++ inCalls s ++ returned s)
  linked : ∀ n ∈ s.nodes, n.cell.isSome = true → n.linked = true
  key : ∀ n ∈ s.nodes, ∀ v, n.cell = some v → n.key = v.lo
  nd : ((cells s.nodes ++ inCalls s).map Seg.lo).Nodup
  callOk : ∀ c ∈ s.calls, CallOk s.nodes c
  outs : ∀ l r, some (l, r) ∈ s.outs → Adjacent l r ∧ l.lo ≤ r.lo

theorem queued_eq {s : St α} (h : ∀ n ∈ s.nodes, n.cell.isSome = true → n.linked = true) : queued s = cells s.nodes := by
  unfold queued cells
  apply List.filterMap_congr
  intro n hn
  have := h n hn
  cases hc : n.cell with
  | none => simp
  | some v => simp [hc] at this; simp [this]

theorem offered_append (ls : List (Label α)) (l : Label α) : offered (ls ++ [l]) = offered ls ++ offered [l] := by simp [offered]

theorem held_cons (c : Call α) : held c = c.x :: (held c).tail := by unfold held; split <;> rfl

/-- The values of a result. -/
def outVals (o : Option (Seg α × Seg α)) : List (Seg α) := match o with
  | some (l, r) => [l, r]
  | none => []

theorem callR_go {nodes nodes' : List (Node α)} {c c' : Call α} {w : Option Nat} (h : CallR nodes c w nodes' (.inl c')) :
    (cells nodes ++ held c).Perm (cells nodes' ++ held c') ∧ c'.x = c.x ∧ c'.earlier = c.earlier := by
  cases h with
  | takeR id n v hpc hn hv =>
    refine ⟨?_, rfl, rfl⟩
    have := (cells_clear hn hv).append_right (held c)
    refine this.trans ?_
    simp only [held, hpc]
    perm_count
  | takeL id n v hpc hn hv =>
    refine ⟨?_, rfl, rfl⟩
    have := (cells_clear hn hv).append_right (held c)
    refine this.trans ?_
    simp only [held, hpc]
    perm_count
  | _ => simp_all [held]

theorem callR_ret {nodes nodes' : List (Node α)} {c : Call α} {w : Option Nat} {out} (h : CallR nodes c w nodes' (.inr out)) :
    (cells nodes ++ held c).Perm (cells nodes' ++ outVals out) := by
  cases h with
  | removeR id v n hpc hn => simp [held, hpc, cells_unlink, outVals]
  | removeL id v n hpc hn =>
    simp only [held, hpc, cells_unlink, outVals]
    exact List.Perm.append_left _ (List.Perm.swap _ _ _)
  | insert hpc =>
    have : cells (unlink nodes c.x.lo ++ [{ key := c.x.lo, cell := some c.x, linked := true, earlier := c.earlier }]) = cells nodes ++ [c.x] := by
      rw [← cells_unlink nodes c.x.lo]; simp [cells]
    rw [this]; simp [held, hpc, outVals]

theorem inCalls_split {s : St α} {a b : List (Call α)} {c : Call α} (h : s.calls = a ++ c :: b) : (inCalls s).Perm (held c ++ (a ++ b).flatMap held) := by
  unfold inCalls; rw [h]
  simp only [List.flatMap_append, List.flatMap_cons]
  perm_count

theorem nodup_of_perm {l l' r : List (Seg α)} (h : (l.map Seg.lo).Nodup) (hp : l.Perm (l' ++ r)) : (l'.map Seg.lo).Nodup := by
  have := (hp.map Seg.lo).nodup_iff.1 h
  rw [List.map_append] at this
  exact (List.nodup_append.1 this).1

theorem nd_ne {xs ys : List (Seg α)} (h : ((xs ++ ys).map Seg.lo).Nodup) {u v : Seg α} (hu : u ∈ xs) (hv : v ∈ ys) : u.lo ≠ v.lo := by
  rw [List.map_append, List.nodup_append] at h
  exact h.2.2 _ (List.mem_map_of_mem hu) _ (List.mem_map_of_mem hv)

theorem mem_cells {nodes : List (Node α)} {n : Node α} {v : Seg α} (hn : n ∈ nodes) (hv : n.cell = some v) : v ∈ cells nodes :=
  List.mem_filterMap.2 ⟨n, hn, hv⟩

theorem mem_inCalls {s : St α} {c : Call α} {v : Seg α} (hc : c ∈ s.calls) (hv : v ∈ held c) : v ∈ inCalls s :=
  List.mem_flatMap.2 ⟨c, hc, hv⟩

theorem mem_of_ext {nodes nodes' : List (Node α)} (hlen : nodes'.length = nodes.length) (he : Ext nodes nodes') {n' : Node α} (h : n' ∈ nodes') :
    ∃ n ∈ nodes, n'.key = n.key ∧ (n'.cell = n.cell ∨ n'.cell = none) := by
  obtain ⟨i, hi, rfl⟩ := List.getElem_of_mem h
  have hi' : i < nodes.length := by omega
  obtain ⟨n', h1, h2, h3, -⟩ := he i nodes[i] (List.getElem?_eq_getElem hi')
  rw [List.getElem?_eq_getElem hi] at h1; simp at h1; subst h1
  exact ⟨_, List.getElem_mem hi', h2, h3⟩

/-- Nodes after a step of a call of an execution with distinct keys. -/
theorem nodes_step {s : St α} {a b : List (Call α)} {c : Call α} {w : Option Nat} {nodes' : List (Node α)} {r}
    (hc : s.calls = a ++ c :: b) (hl : ∀ n ∈ s.nodes, n.cell.isSome = true → n.linked = true) (hk : ∀ n ∈ s.nodes, ∀ v, n.cell = some v → n.key = v.lo)
    (nd : ((cells s.nodes ++ inCalls s).map Seg.lo).Nodup) (hco : CallOk s.nodes c) (h : CallR s.nodes c w nodes' r) :
    (∀ n ∈ nodes', n.cell.isSome = true → n.linked = true) ∧ (∀ n ∈ nodes', ∀ v, n.cell = some v → n.key = v.lo) := by
  have hcm : c ∈ s.calls := by rw [hc]; simp
  have hun : ∀ k, (∀ v ∈ cells s.nodes, v.lo ≠ k) → (∀ n ∈ unlink s.nodes k, n.cell.isSome = true → n.linked = true) ∧
      (∀ n ∈ unlink s.nodes k, ∀ v, n.cell = some v → n.key = v.lo) := by
    intro k hkv
    constructor
    · intro n hn hs
      obtain ⟨m, hm, rfl⟩ := List.mem_map.1 hn
      split
      · rename_i hmk
        simp only [hmk, if_true] at hs
        obtain ⟨v, hv⟩ := Option.isSome_iff_exists.1 hs
        exact absurd (by rw [← hk m hm v hv]; exact hmk) (hkv v (mem_cells hm hv))
      · rename_i hmk
        simp only [hmk, if_false] at hs
        exact hl m hm hs
    · intro n hn v hv
      obtain ⟨m, hm, rfl⟩ := List.mem_map.1 hn
      split at hv <;> split <;> first | exact hk m hm v hv | contradiction
  have hcl : ∀ id n, s.nodes[id]? = some n → (∀ m ∈ s.nodes.set id { n with cell := none }, m.cell.isSome = true → m.linked = true) ∧
      (∀ m ∈ s.nodes.set id { n with cell := none }, ∀ v, m.cell = some v → m.key = v.lo) := by
    intro id n hn
    constructor
    · intro m hm hs
      rcases List.mem_or_eq_of_mem_set hm with h | h
      · exact hl m h hs
      · subst h; simp at hs
    · intro m hm v hv
      rcases List.mem_or_eq_of_mem_set hm with h | h
      · exact hk m h v hv
      · subst h; simp at hv
  cases h with
  | takeR id n v _ hn hv => exact hcl id n hn
  | takeL id n v _ hn hv => exact hcl id n hn
  | removeR id v n hpc hn =>
    apply hun
    intro u hu
    simp only [CallOk, hpc] at hco
    obtain ⟨n', hn', hk', -⟩ := hco
    rw [hn] at hn'; simp at hn'; subst hn'
    rw [hk']
    exact nd_ne nd hu (mem_inCalls hcm (by simp [held, hpc]))
  | removeL id v n hpc hn =>
    apply hun
    intro u hu
    simp only [CallOk, hpc] at hco
    obtain ⟨n', hn', hk', -⟩ := hco
    rw [hn] at hn'; simp at hn'; subst hn'
    rw [hk']
    exact nd_ne nd hu (mem_inCalls hcm (by simp [held, hpc]))
  | insert hpc =>
    have hx : ∀ v ∈ cells s.nodes, v.lo ≠ c.x.lo := fun v hv => nd_ne nd hv (mem_inCalls hcm (by rw [held_cons]; simp))
    obtain ⟨h1, h2⟩ := hun c.x.lo hx
    constructor
    · intro n hn hs
      simp at hn
      rcases hn with hn | rfl
      · exact h1 n hn hs
      · rfl
    · intro n hn v hv
      simp at hn
      rcases hn with hn | rfl
      · exact h2 n hn v hv
      · simp at hv; subst hv; rfl
  | _ => exact ⟨hl, hk⟩

theorem callOk_go {nodes nodes' : List (Node α)} {c c' : Call α} {w : Option Nat} (hk : ∀ n ∈ nodes, ∀ v, n.cell = some v → n.key = v.lo)
    (hco : CallOk nodes c) (h : CallR nodes c w nodes' (.inl c')) : CallOk nodes' c' := by
  have hlt : ∀ {id : Nat} {n : Node α}, nodes[id]? = some n → id < nodes.length := fun h => (List.getElem?_eq_some_iff.1 h).1
  have hmem : ∀ {id : Nat} {n : Node α}, nodes[id]? = some n → n ∈ nodes := fun h => List.mem_of_getElem? h
  cases h with
  | findR id n hpc hw hn hle => exact ⟨n, hn, hle⟩
  | findL id n hpc hw hn hle => exact ⟨n, hn, hle⟩
  | peekRy id n v hpc hn hv hcon =>
    simp only [CallOk, hpc] at hco
    obtain ⟨n', hn', hle⟩ := hco
    rw [hn] at hn'; simp at hn'; subst hn'
    exact ⟨n, hn, hle, fun u hu => by rw [hv] at hu; simp at hu; subst hu; exact hcon⟩
  | peekLy id n v hpc hn hv hcon =>
    simp only [CallOk, hpc] at hco
    obtain ⟨n', hn', hle⟩ := hco
    rw [hn] at hn'; simp at hn'; subst hn'
    exact ⟨n, hn, hle, fun u hu => by rw [hv] at hu; simp at hu; subst hu; exact hcon⟩
  | takeR id n v hpc hn hv =>
    simp only [CallOk, hpc] at hco
    obtain ⟨n', hn', hle, hcon⟩ := hco
    rw [hn] at hn'; simp at hn'; subst hn'
    have hkv := hk n (hmem hn) v hv
    exact ⟨{ n with cell := none }, by simp [hlt hn], hkv, by simpa [← hkv] using hle, hcon v hv⟩
  | takeL id n v hpc hn hv =>
    simp only [CallOk, hpc] at hco
    obtain ⟨n', hn', hle, hcon⟩ := hco
    rw [hn] at hn'; simp at hn'; subst hn'
    have hkv := hk n (hmem hn) v hv
    exact ⟨{ n with cell := none }, by simp [hlt hn], hkv, by simpa [← hkv] using hle, hcon v hv⟩
  | _ => trivial

theorem returned_append (s : St α) (nodes : List (Node α)) (calls : List (Call α)) (out) :
    returned { s with nodes := nodes, calls := calls, outs := s.outs ++ [out] } = returned s ++ outVals out := by
  simp [returned, outVals]; rfl

theorem inv_step {ls : List (Label α)} {s s' : St α} {l : Label α} (hi : Inv ls s) (hok : DistinctKeys s l) (h : step s l = some s') : Inv (ls ++ [l]) s' := by
  have hq := queued_eq hi.linked
  cases stepR_of_step h with
  | start x =>
    refine ⟨?_, hi.linked, hi.key, ?_, ?_, hi.outs⟩
    · rw [offered_append]
      have := hi.perm
      have e : inCalls { s with calls := s.calls ++ [{ x := x, pc := .findR, earlier := full s.nodes }] } = inCalls s ++ [x] := by simp [inCalls, held]
      rw [e]
      have e2 : offered [Label.start x] = [x] := rfl
      rw [e2]
      refine (this.append_right [x]).trans ?_
      simp only [returned]
      perm_count
    · have e : inCalls { s with calls := s.calls ++ [{ x := x, pc := .findR, earlier := full s.nodes }] } = inCalls s ++ [x] := by simp [inCalls, held]
      rw [e, ← List.append_assoc, List.map_append, List.nodup_append]
      refine ⟨hi.nd, by simp, ?_⟩
      intro k hk k' hk'
      simp at hk'; subst hk'
      obtain ⟨v, hv, rfl⟩ := List.mem_map.1 hk
      exact hok x rfl v (by unfold live; rw [hq]; exact hv)
    · intro c hc
      simp at hc
      rcases hc with hc | rfl
      · exact hi.callOk c hc
      · trivial
  | go k w c a b nodes c' hk hc hr =>
    have hcm : c ∈ s.calls := by rw [hc]; simp
    obtain ⟨hb, hx, -⟩ := callR_go hr
    have hp : (cells s.nodes ++ inCalls s).Perm (cells nodes ++ inCalls { s with nodes := nodes, calls := c' :: (a ++ b) }) := by
      refine ((inCalls_split hc).append_left _).trans ?_
      rw [← List.append_assoc]
      refine (hb.append_right _).trans ?_
      rw [List.append_assoc]; rfl
    obtain ⟨n1, n2⟩ := nodes_step hc hi.linked hi.key hi.nd (hi.callOk c hcm) hr
    refine ⟨?_, n1, n2, ?_, ?_, hi.outs⟩
    · rw [offered_append]
      have e2 : offered [(Label.act k w : Label α)] = [] := rfl
      rw [e2, List.append_nil]
      exact hi.perm.trans (hp.append_right _)
    · exact nodup_of_perm (r := []) hi.nd (by simpa using hp)
    · intro d hd
      simp at hd
      rcases hd with rfl | hd
      · exact callOk_go hi.key (hi.callOk c hcm) hr
      · exact (hi.callOk d (by rw [hc]; simp; tauto)).ext (callR_ext hr)
  | ret k w c a b nodes out hk hc hr =>
    have hcm : c ∈ s.calls := by rw [hc]; simp
    have hb := callR_ret hr
    have hp : (cells s.nodes ++ inCalls s).Perm (cells nodes ++ inCalls { s with nodes := nodes, calls := a ++ b, outs := s.outs ++ [out] } ++ outVals out) := by
      refine ((inCalls_split hc).append_left _).trans ?_
      rw [← List.append_assoc]
      refine (hb.append_right _).trans ?_
      simp only [inCalls]
      perm_count
    obtain ⟨n1, n2⟩ := nodes_step hc hi.linked hi.key hi.nd (hi.callOk c hcm) hr
    refine ⟨?_, n1, n2, ?_, ?_, ?_⟩
    · rw [offered_append]
      have e2 : offered [(Label.act k w : Label α)] = [] := rfl
      rw [e2, List.append_nil, returned_append]
      refine (hi.perm.trans (hp.append_right _)).trans ?_
      simp only [returned, inCalls]
      perm_count
    · exact nodup_of_perm hi.nd hp
    · intro d hd
      exact (hi.callOk d (by rw [hc]; simp at hd ⊢; tauto)).ext (callR_ext hr)
    · intro l r hlr
      simp at hlr
      rcases hlr with hlr | hlr
      · exact hi.outs l r hlr
      · subst hlr
        have hco := hi.callOk c hcm
        cases hr with
        | removeR id v n hpc hn =>
          simp only [CallOk, hpc] at hco
          obtain ⟨n', hn', hk', hle, hcon⟩ := hco
          exact ⟨CQueue.isContiguous_iff.1 hcon, hle⟩
        | removeL id v n hpc hn =>
          simp only [CallOk, hpc] at hco
          obtain ⟨n', hn', hk', hle, hcon⟩ := hco
          exact ⟨(CQueue.isContiguous_iff.1 hcon).symm, by omega⟩

theorem inv_exec {ok : St α → Label α → Prop} (hd : ∀ s l, ok s l → DistinctKeys s l) {ls : List (Label α)} {s : St α} (h : Exec ok ls s) : Inv ls s := by
  induction h with
  | nil => constructor <;> simp [offered, init, cells, inCalls, returned]
  | snoc _ hok hs ih => exact inv_step ih (hd _ _ hok) hs

end Conc
end Paladin
