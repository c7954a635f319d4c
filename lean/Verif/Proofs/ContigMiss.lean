import Verif.Proofs.ContigConc
/-! # Which pairs a shared `ContiguousQueue` can miss -/
namespace Paladin
namespace Conc

/-- Value `a` sits in the cell of one of the nodes `ids`, at index `i`. -/
def At (nodes : List (Node α)) (i : Nat) (a : Seg α) : Prop := ∃ m, nodes[i]? = some m ∧ m.cell = some a

def NoRight (nodes : List (Node α)) (c : Call α) : Prop := ∀ i ∈ c.earlier, ∀ a, At nodes i a → ¬ Before c.x a
def NoLeft (nodes : List (Node α)) (c : Call α) : Prop := ∀ i ∈ c.earlier, ∀ a, At nodes i a → ¬ Before a c.x
def OnlyRight (nodes : List (Node α)) (c : Call α) (id : Nat) : Prop := ∀ i ∈ c.earlier, ∀ a, At nodes i a → Before c.x a → i = id
def OnlyLeft (nodes : List (Node α)) (c : Call α) (id : Nat) : Prop := ∀ i ∈ c.earlier, ∀ a, At nodes i a → Before a c.x → i = id

/-- What a call has established about the nodes that were full when it began. -/
def Miss (nodes : List (Node α)) (c : Call α) : Prop :=
  match c.pc with
  | .findR => True
  | .peekR id => OnlyRight nodes c id
  | .takeR id => OnlyRight nodes c id
  | .removeR _ _ => True
  | .findL => NoRight nodes c
  | .peekL id => NoRight nodes c ∧ OnlyLeft nodes c id
  | .takeL id => NoRight nodes c ∧ OnlyLeft nodes c id
  | .removeL _ _ => True
  | .insert => NoRight nodes c ∧ NoLeft nodes c

theorem at_ext {nodes nodes' : List (Node α)} (he : Ext nodes nodes') {i : Nat} (hi : i < nodes.length) {a : Seg α} (h : At nodes' i a) : At nodes i a := by
  obtain ⟨m', hm', ha⟩ := h
  obtain ⟨n', h1, -, h3, -⟩ := he i nodes[i] (List.getElem?_eq_getElem hi)
  rw [hm'] at h1; simp at h1; subst h1
  rcases h3 with h3 | h3
  · exact ⟨nodes[i], List.getElem?_eq_getElem hi, by rw [← h3, ha]⟩
  · rw [h3] at ha; simp at ha

theorem Miss.ext {nodes nodes' : List (Node α)} {c : Call α} (he : Ext nodes nodes') (hb : ∀ i ∈ c.earlier, i < nodes.length) (h : Miss nodes c) : Miss nodes' c := by
  unfold Miss at h ⊢
  split at h
  · trivial
  · exact fun i hi a ha => h i hi a (at_ext he (hb i hi) ha)
  · exact fun i hi a ha => h i hi a (at_ext he (hb i hi) ha)
  · trivial
  · exact fun i hi a ha => h i hi a (at_ext he (hb i hi) ha)
  · exact ⟨fun i hi a ha => h.1 i hi a (at_ext he (hb i hi) ha), fun i hi a ha => h.2 i hi a (at_ext he (hb i hi) ha)⟩
  · exact ⟨fun i hi a ha => h.1 i hi a (at_ext he (hb i hi) ha), fun i hi a ha => h.2 i hi a (at_ext he (hb i hi) ha)⟩
  · trivial
  · exact ⟨fun i hi a ha => h.1 i hi a (at_ext he (hb i hi) ha), fun i hi a ha => h.2 i hi a (at_ext he (hb i hi) ha)⟩

structure InvM (ls : List (Label α)) (s : St α) : Prop where
  valid : ∀ v ∈ offered ls, v.Valid
  disj : (cells s.nodes ++ inCalls s).Pairwise Disjoint
  uniq : ∀ (i j : Nat) (n m : Node α), s.nodes[i]? = some n → s.nodes[j]? = some m → n.linked = true → m.linked = true → n.key = m.key → i = j
  live : ∀ (i : Nat) (n : Node α), s.nodes[i]? = some n → n.linked = true → n.cell.isSome = true ∨ ∃ c ∈ s.calls, ∃ v, c.pc = .removeR i v ∨ c.pc = .removeL i v
  callBound : ∀ c ∈ s.calls, ∀ i ∈ c.earlier, i < s.nodes.length
  nodeBound : ∀ n ∈ s.nodes, ∀ i ∈ n.earlier, i < s.nodes.length
  callMiss : ∀ c ∈ s.calls, Miss s.nodes c
  nodeMiss : ∀ (j : Nat) (b : Seg α) (n : Node α), s.nodes[j]? = some n → n.cell = some b → ∀ i ∈ n.earlier, ∀ a, At s.nodes i a → ¬ Adjacent b a

theorem disjoint_symm {a b : Seg α} (h : Disjoint a b) : Disjoint b a := h.symm

theorem pairwise_mem {l : List (Seg α)} (h : l.Pairwise Disjoint) {a b : Seg α} (ha : a ∈ l) (hb : b ∈ l) (hne : a ≠ b) : Disjoint a b := by
  induction l with
  | nil => simp at ha
  | cons x l ih =>
    rw [List.pairwise_cons] at h
    simp at ha hb
    rcases ha with rfl | ha <;> rcases hb with rfl | hb
    · exact absurd rfl hne
    · exact h.1 b hb
    · exact (h.1 a ha).symm
    · exact ih h.2 ha hb

theorem pairwise_of_perm {l l' r : List (Seg α)} (h : l.Pairwise Disjoint) (hp : l.Perm (l' ++ r)) : l'.Pairwise Disjoint :=
  (List.pairwise_append.1 ((hp.pairwise_iff disjoint_symm).1 h)).1

theorem length_ext {nodes nodes' : List (Node α)} {c : Call α} {w r} (h : CallR nodes c w nodes' r) : nodes.length ≤ nodes'.length := by
  cases h <;> simp [unlink]

/-- A node in the map has a value with its key, in its cell or held by a call about to remove it. -/
theorem live_value {ls : List (Label α)} {s : St α} (hi : Inv ls s) (hm : InvM ls s) {a b : List (Call α)} {c : Call α} (hc : s.calls = a ++ c :: b)
    (hpc : ∀ i v, c.pc ≠ .removeR i v ∧ c.pc ≠ .removeL i v) {i : Nat} {n : Node α} (hn : s.nodes[i]? = some n) (hl : n.linked = true) :
    ∃ v, v ∈ cells s.nodes ++ (a ++ b).flatMap held ∧ v.lo = n.key ∧ v.Valid := by
  have hval : ∀ v ∈ cells s.nodes ++ (a ++ b).flatMap held, v.Valid := by
    intro v hv
    refine hm.valid v (hi.perm.symm.subset ?_)
    have : v ∈ cells s.nodes ++ inCalls s := by
      simp only [List.mem_append] at hv ⊢
      refine hv.imp id fun h => ?_
      exact (inCalls_split hc).symm.subset (by simp only [List.mem_append]; exact .inr (by simpa using h))
    simp only [List.mem_append] at this ⊢; exact .inl this
  rcases hm.live i n hn hl with h | ⟨c2, hc2, v, hv⟩
  · obtain ⟨v, hv⟩ := Option.isSome_iff_exists.1 h
    have hmem := List.mem_of_getElem? hn
    have : v ∈ cells s.nodes ++ (a ++ b).flatMap held := by simp only [List.mem_append]; exact .inl (mem_cells hmem hv)
    exact ⟨v, this, (hi.key n hmem v hv).symm, hval v this⟩
  · have hne : c2 ≠ c := by rintro rfl; rcases hv with hv | hv; exact (hpc _ _).1 hv; exact (hpc _ _).2 hv
    have hc2' : c2 ∈ a ++ b := by rw [hc] at hc2; simp at hc2 ⊢; tauto
    have hco := hi.callOk c2 hc2
    have : v ∈ cells s.nodes ++ (a ++ b).flatMap held := by
      simp only [List.mem_append, List.mem_flatMap]
      refine .inr ⟨c2, List.mem_append.1 hc2', ?_⟩
      rcases hv with hv | hv <;> simp [held, hv]
    refine ⟨v, this, ?_, hval v this⟩
    rcases hv with hv | hv
    · simp only [CallOk, hv] at hco
      obtain ⟨n', hn', hk, -⟩ := hco
      rw [hn] at hn'; simp at hn'; subst hn'; exact hk.symm
    · simp only [CallOk, hv] at hco
      obtain ⟨n', hn', hk, -⟩ := hco
      rw [hn] at hn'; simp at hn'; subst hn'; exact hk.symm

theorem distinct_of_disjoint {ls : List (Label α)} {s : St α} {l : Label α} (hi : Inv ls s) (hm : InvM ls s) (h : DisjointRanges s l) : DistinctKeys s l := by
  intro x hx v hv
  obtain ⟨hxv, hd⟩ := h x hx
  have hvv : v.Valid := by
    refine hm.valid v (hi.perm.symm.subset ?_)
    unfold live at hv; rw [queued_eq hi.linked] at hv
    simp only [List.mem_append] at hv ⊢; exact .inl hv
  have := hd v hv
  unfold Disjoint at this; unfold Seg.Valid at hxv hvv
  omega

theorem invM_step {ls : List (Label α)} {s s' : St α} {l : Label α} (hi : Inv ls s) (hm : InvM ls s) (hd : DisjointRanges s l) (hex : ExactLookup s l)
    (h : step s l = some s') : InvM (ls ++ [l]) s' := by
  have hq := queued_eq hi.linked
  have hst := stepR_of_step h
  clear h
  cases hst with
  | start x =>
    obtain ⟨hxv, hxd⟩ := hd x rfl
    have e : inCalls { s with calls := s.calls ++ [{ x := x, pc := .findR, earlier := full s.nodes }] } = inCalls s ++ [x] := by simp [inCalls, held]
    refine ⟨?_, ?_, hm.uniq, ?_, ?_, hm.nodeBound, ?_, hm.nodeMiss⟩
    · intro v hv
      rw [offered_append] at hv
      simp [offered] at hv
      rcases hv with hv | rfl
      · exact hm.valid v (by simpa [offered] using hv)
      · exact hxv
    · dsimp only
      rw [e, ← List.append_assoc, List.pairwise_append]
      refine ⟨hm.disj, by simp, ?_⟩
      intro v hv u hu
      simp only [List.mem_singleton] at hu; subst hu
      exact hxd v (by unfold live; rw [hq]; exact hv)
    · intro i n hn hl
      rcases hm.live i n hn hl with h | ⟨c, hc, h⟩
      · exact .inl h
      · exact .inr ⟨c, by simp [hc], h⟩
    · intro c hc i hi
      simp at hc
      rcases hc with hc | rfl
      · exact hm.callBound c hc i hi
      · simp [full] at hi; exact hi.1
    · intro c hc
      simp at hc
      rcases hc with hc | rfl
      · exact hm.callMiss c hc
      · trivial
  | go k w c a b nodes c' hk hc hr =>
    have hcm : c ∈ s.calls := by rw [hc]; simp
    obtain ⟨hb, hx, hear⟩ := callR_go hr
    have hp : (cells s.nodes ++ inCalls s).Perm (cells nodes ++ inCalls { s with nodes := nodes, calls := c' :: (a ++ b) }) := by
      refine ((inCalls_split hc).append_left _).trans ?_
      rw [← List.append_assoc]
      refine (hb.append_right _).trans ?_
      rw [List.append_assoc]; rfl
    have hext := callR_ext hr
    have hlen := length_ext hr
    have hrest : ∀ d ∈ a ++ b, d ∈ s.calls := by intro d hd; rw [hc]; simp at hd ⊢; tauto
    have hoff : offered (ls ++ [(Label.act k w : Label α)]) = offered ls := by rw [offered_append]; simp [offered]
    have hlen' : nodes.length = s.nodes.length := by cases hr <;> simp
    have hback : ∀ {i : Nat} {n' : Node α}, nodes[i]? = some n' → ∃ n, s.nodes[i]? = some n ∧ n'.key = n.key ∧ (n'.cell = n.cell ∨ n'.cell = none) ∧
        n'.earlier = n.earlier ∧ (n'.linked = true → n.linked = true) := by
      intro i n' hn'
      have hi' : i < s.nodes.length := by rw [← hlen']; exact (List.getElem?_eq_some_iff.1 hn').1
      obtain ⟨n2, h1, h2⟩ := hext i s.nodes[i] (List.getElem?_eq_getElem hi')
      rw [hn'] at h1; simp at h1; subst h1
      exact ⟨_, List.getElem?_eq_getElem hi', h2⟩
    refine ⟨by rw [hoff]; exact hm.valid, ?_, ?_, ?_, ?_, ?_, ?_, ?_⟩
    · exact pairwise_of_perm (r := []) hm.disj (by simpa using hp)
    · intro i j n m hn hm' ln lm hkey
      obtain ⟨n0, hn0, k1, -, -, l1⟩ := hback hn
      obtain ⟨m0, hm0, k2, -, -, l2⟩ := hback hm'
      exact hm.uniq i j n0 m0 hn0 hm0 (l1 ln) (l2 lm) (by rw [← k1, ← k2, hkey])
    · intro i n hn ln
      obtain ⟨n0, hn0, k1, hcell, -, l1⟩ := hback hn
      rcases hm.live i n0 hn0 (l1 ln) with h | ⟨c2, hc2, v, hv⟩
      · cases hr with
        | takeR id n1 v hpc hn1 hv =>
          by_cases hii : i = id
          · subst hii; exact .inr ⟨_, by simp; exact .inl rfl, v, .inl rfl⟩
          · rw [List.getElem?_set_ne (Ne.symm hii)] at hn
            rw [hn0] at hn; simp at hn; subst hn; exact .inl h
        | takeL id n1 v hpc hn1 hv =>
          by_cases hii : i = id
          · subst hii; exact .inr ⟨_, by simp; exact .inl rfl, v, .inr rfl⟩
          · rw [List.getElem?_set_ne (Ne.symm hii)] at hn
            rw [hn0] at hn; simp at hn; subst hn; exact .inl h
        | _ => rw [hn0] at hn; simp at hn; subst hn; exact .inl h
      · have hne : c2 ≠ c := by
          rintro rfl
          cases hr <;> rcases hv with hv | hv <;> simp_all
        exact .inr ⟨c2, by rw [hc] at hc2; simp at hc2 ⊢; tauto, v, hv⟩
    · intro d hd i hi'
      simp at hd
      rw [hlen']
      rcases hd with rfl | hd
      · exact hm.callBound c hcm i (hear ▸ hi')
      · exact hm.callBound d (hrest d (by simp; exact hd)) i hi'
    · intro n hn i hi'
      obtain ⟨j, hj⟩ := List.getElem?_of_mem hn
      obtain ⟨n0, hn0, -, -, he, -⟩ := hback hj
      rw [hlen']
      exact hm.nodeBound n0 (List.mem_of_getElem? hn0) i (he ▸ hi')
    · intro d hd
      simp at hd
      rcases hd with rfl | hd
      · have hmc := hm.callMiss c hcm
        have hex' := hex k w c (a ++ b) rfl hk
        have hlk : ∀ {i : Nat} {v : Seg α}, At s.nodes i v → ∃ m, s.nodes[i]? = some m ∧ m.cell = some v ∧ m.linked = true ∧ m.key = v.lo ∧ m ∈ s.nodes ∧ v.Valid := by
          rintro i v ⟨m, h1, h2⟩
          have hmem := List.mem_of_getElem? h1
          refine ⟨m, h1, h2, hi.linked m hmem (by simp [h2]), hi.key m hmem v h2, hmem, hm.valid v (hi.perm.symm.subset ?_)⟩
          have := mem_cells hmem h2
          simp only [List.mem_append]; exact .inl (.inl this)
        have hxv : c.x.Valid := by
          refine hm.valid _ (hi.perm.symm.subset ?_)
          have : c.x ∈ inCalls s := mem_inCalls hcm (by rw [held_cons]; simp)
          simp only [List.mem_append]; exact .inl (.inr this)
        unfold Seg.Valid at hxv
        cases hr with
        | findR0 hpc hw =>
          have hnx := hex'.1 hpc
          rw [hw] at hnx
          intro i hi' v hv hbef
          obtain ⟨m, h1, h2, h3, h4, h5, h6⟩ := hlk hv
          have := hnx m h5 h3
          simp only [Before] at hbef; omega
        | findR id n hpc hw hn hle =>
          have hnx := hex'.1 hpc
          rw [hw] at hnx
          obtain ⟨n', hn', hl', -, hleast⟩ := hnx
          rw [hn] at hn'; simp at hn'; subst hn'
          intro i hi' v hv hbef
          obtain ⟨m, h1, h2, h3, h4, h5, h6⟩ := hlk hv
          simp only [Before] at hbef
          have hnm := hleast m h5 h3 (by omega)
          obtain ⟨u, hu, hu1, hu2⟩ := live_value hi hm hc (by simp [hpc]) hn hl'
          have hxu : Disjoint c.x u := by
            have hp2 : (cells s.nodes ++ inCalls s).Perm (c.x :: (cells s.nodes ++ (a ++ b).flatMap held)) := by
              refine ((inCalls_split hc).append_left _).trans ?_
              simp only [held, hpc]
              perm_count
            exact (List.pairwise_cons.1 ((hp2.pairwise_iff disjoint_symm).1 hm.disj)).1 u hu
          unfold Disjoint at hxu; unfold Seg.Valid at hu2
          exact hm.uniq i id m n h1 hn h3 hl' (by omega)
        | peekRy id n v hpc hn hv hcon => simp only [Miss, hpc] at hmc; exact hmc
        | peekRn id hpc hno =>
          simp only [Miss, hpc] at hmc
          intro i hi' v hv hbef
          have := hmc i hi' v hv hbef
          subst this
          obtain ⟨m, h1, h2⟩ := hv
          have := hno m v h1 h2
          rw [← Bool.not_eq_true, CQueue.isContiguous_iff] at this
          exact this (.inl hbef)
        | takeR id n v hpc hn hv => trivial
        | takeRn id hpc hno =>
          simp only [Miss, hpc] at hmc
          intro i hi' v hv hbef
          have := hmc i hi' v hv hbef
          subst this
          obtain ⟨m, h1, h2⟩ := hv
          rw [hno m h1] at h2; simp at h2
        | findL0 hpc hw =>
          simp only [Miss, hpc] at hmc
          refine ⟨hmc, ?_⟩
          have hnx := hex'.2 hpc
          rw [hw] at hnx
          intro i hi' v hv hbef
          obtain ⟨m, h1, h2, h3, h4, h5, h6⟩ := hlk hv
          have := hnx m h5 h3
          unfold Seg.Valid at h6
          simp only [Before] at hbef; omega
        | findL id n hpc hw hn hle =>
          simp only [Miss, hpc] at hmc
          refine ⟨hmc, ?_⟩
          have hnx := hex'.2 hpc
          rw [hw] at hnx
          obtain ⟨n', hn', hl', hlt', hgreat⟩ := hnx
          rw [hn] at hn'; simp at hn'; subst hn'
          intro i hi' v hv hbef
          obtain ⟨m, h1, h2, h3, h4, h5, h6⟩ := hlk hv
          simp only [Before] at hbef
          unfold Seg.Valid at h6
          have hnm := hgreat m h5 h3 (by omega)
          obtain ⟨u, hu, hu1, hu2⟩ := live_value hi hm hc (by simp [hpc]) hn hl'
          by_cases hkk : n.key = m.key
          · exact hm.uniq i id m n h1 hn h3 hl' hkk.symm
          · exfalso
            have hne : u ≠ v := by rintro rfl; omega
            have hu' : u ∈ cells s.nodes ++ inCalls s := by
              simp only [List.mem_append] at hu ⊢
              refine hu.imp (fun h => h) fun h => ?_
              exact (inCalls_split hc).symm.subset (by simp only [List.mem_append]; exact .inr (by simpa using h))
            have hv' : v ∈ cells s.nodes ++ inCalls s := by simp only [List.mem_append]; exact .inl (mem_cells h5 h2)
            have huv := pairwise_mem hm.disj hu' hv' hne
            unfold Disjoint at huv; unfold Seg.Valid at hu2
            omega
        | peekLy id n v hpc hn hv hcon => simp only [Miss, hpc] at hmc; exact hmc
        | peekLn id hpc hno =>
          simp only [Miss, hpc] at hmc
          refine ⟨hmc.1, ?_⟩
          intro i hi' v hv hbef
          have := hmc.2 i hi' v hv hbef
          subst this
          obtain ⟨m, h1, h2⟩ := hv
          have := hno m v h1 h2
          rw [← Bool.not_eq_true, CQueue.isContiguous_iff] at this
          exact this (.inr hbef)
        | takeL id n v hpc hn hv => trivial
        | takeLn id hpc hno =>
          simp only [Miss, hpc] at hmc
          refine ⟨hmc.1, ?_⟩
          intro i hi' v hv hbef
          have := hmc.2 i hi' v hv hbef
          subst this
          obtain ⟨m, h1, h2⟩ := hv
          rw [hno m h1] at h2; simp at h2
      · exact (hm.callMiss d (hrest d (by simp; exact hd))).ext hext (hm.callBound d (hrest d (by simp; exact hd)))
    · intro j bv n hn hbv i hi' av hav
      obtain ⟨n0, hn0, -, hcell, he, -⟩ := hback hn
      have hcell0 : n0.cell = some bv := by
        rcases hcell with h | h
        · rw [← h, hbv]
        · rw [h] at hbv; simp at hbv
      rw [he] at hi'
      exact hm.nodeMiss j bv n0 hn0 hcell0 i hi' av (at_ext hext (hm.nodeBound n0 (List.mem_of_getElem? hn0) i hi') hav)
  | ret k w c a b nodes out hk hc hr =>
    have hcm : c ∈ s.calls := by rw [hc]; simp
    have hb := callR_ret hr
    have hp : (cells s.nodes ++ inCalls s).Perm (cells nodes ++ inCalls { s with nodes := nodes, calls := a ++ b, outs := s.outs ++ [out] } ++ outVals out) := by
      refine ((inCalls_split hc).append_left _).trans ?_
      rw [← List.append_assoc]
      refine (hb.append_right _).trans ?_
      simp only [inCalls]
      perm_count
    have hext := callR_ext hr
    have hlen := length_ext hr
    have hrest : ∀ d ∈ a ++ b, d ∈ s.calls := by intro d hd; rw [hc]; simp at hd ⊢; tauto
    have hoff : offered (ls ++ [(Label.act k w : Label α)]) = offered ls := by rw [offered_append]; simp [offered]
    have hback : ∀ {i : Nat} {n' : Node α}, i < s.nodes.length → nodes[i]? = some n' → ∃ n, s.nodes[i]? = some n ∧ n'.key = n.key ∧ (n'.cell = n.cell ∨ n'.cell = none) ∧
        n'.earlier = n.earlier ∧ (n'.linked = true → n.linked = true) := by
      intro i n' hi' hn'
      obtain ⟨n2, h1, h2⟩ := hext i s.nodes[i] (List.getElem?_eq_getElem hi')
      rw [hn'] at h1; simp at h1; subst h1
      exact ⟨_, List.getElem?_eq_getElem hi', h2⟩
    -- the new node, if any
    have hnew : ∀ {i : Nat} {n' : Node α}, ¬ i < s.nodes.length → nodes[i]? = some n' → i = s.nodes.length ∧ c.pc = .insert ∧
        n' = { key := c.x.lo, cell := some c.x, linked := true, earlier := c.earlier } ∧
        ∀ (j : Nat) (m : Node α), j < s.nodes.length → nodes[j]? = some m → m.linked = true → m.key ≠ c.x.lo := by
      intro i n' hi' hn'
      cases hr with
      | removeR id v n hpc hn => rw [List.getElem?_eq_none (by simp [unlink]; omega)] at hn'; simp at hn'
      | removeL id v n hpc hn => rw [List.getElem?_eq_none (by simp [unlink]; omega)] at hn'; simp at hn'
      | insert hpc =>
        have hul : (unlink s.nodes c.x.lo).length = s.nodes.length := by simp [unlink]
        have hie : i = s.nodes.length := by
          have := (List.getElem?_eq_some_iff.1 hn').1
          simp [hul] at this; omega
        refine ⟨hie, hpc, ?_, ?_⟩
        · subst hie
          rw [List.getElem?_append_right (by omega)] at hn'
          simp [hul] at hn'; exact hn'.symm
        · intro j m hj hm' hlm
          rw [List.getElem?_append_left (by omega), getElem?_unlink] at hm'
          intro hkey
          cases hsj : s.nodes[j]? with
          | none => simp [hsj] at hm'
          | some m0 =>
            simp [hsj] at hm'
            by_cases hm0 : m0.key = c.x.lo
            · simp [hm0] at hm'; subst hm'; simp at hlm
            · simp [hm0] at hm'; subst hm'; exact hm0 hkey
    refine ⟨by rw [hoff]; exact hm.valid, ?_, ?_, ?_, ?_, ?_, ?_, ?_⟩
    · exact pairwise_of_perm hm.disj hp
    · intro i j n m hn hm' ln lm hkey
      by_cases hil : i < s.nodes.length
      · obtain ⟨n0, hn0, k1, -, -, l1⟩ := hback hil hn
        by_cases hjl : j < s.nodes.length
        · obtain ⟨m0, hm0, k2, -, -, l2⟩ := hback hjl hm'
          exact hm.uniq i j n0 m0 hn0 hm0 (l1 ln) (l2 lm) (by rw [← k1, ← k2, hkey])
        · obtain ⟨e1, -, e2, e3⟩ := hnew hjl hm'
          subst e2; exact absurd hkey (e3 i n hil hn ln)
      · obtain ⟨e1, -, e2, e3⟩ := hnew hil hn
        by_cases hjl : j < s.nodes.length
        · subst e2; exact absurd hkey.symm (e3 j m hjl hm' lm)
        · rw [e1, (hnew hjl hm').1]
    · intro i n hn ln
      by_cases hil : i < s.nodes.length
      · obtain ⟨n0, hn0, k1, hcell, -, l1⟩ := hback hil hn
        rcases hm.live i n0 hn0 (l1 ln) with h | ⟨c2, hc2, v, hv⟩
        · left
          have hsame : n.cell = n0.cell := by
            cases hr with
            | removeR id v n1 hpc hn1 =>
              rw [getElem?_unlink, hn0] at hn; simp at hn; subst hn; split <;> rfl
            | removeL id v n1 hpc hn1 =>
              rw [getElem?_unlink, hn0] at hn; simp at hn; subst hn; split <;> rfl
            | insert hpc =>
              rw [List.getElem?_append_left (by simp [unlink]; omega), getElem?_unlink, hn0] at hn; simp at hn; subst hn; split <;> rfl
          rw [hsame]; exact h
        · right
          have hne : c2 ≠ c := by
            rintro rfl
            cases hr with
            | removeR id v' n1 hpc hn1 =>
              rcases hv with hv | hv
              · rw [hpc] at hv; simp at hv; obtain ⟨rfl, rfl⟩ := hv
                rw [hn0] at hn1; simp at hn1; subst hn1
                rw [getElem?_unlink, hn0] at hn; simp at hn; subst hn; simp at ln
              · rw [hpc] at hv; simp at hv
            | removeL id v' n1 hpc hn1 =>
              rcases hv with hv | hv
              · rw [hpc] at hv; simp at hv
              · rw [hpc] at hv; simp at hv; obtain ⟨rfl, rfl⟩ := hv
                rw [hn0] at hn1; simp at hn1; subst hn1
                rw [getElem?_unlink, hn0] at hn; simp at hn; subst hn; simp at ln
            | insert hpc => rw [hpc] at hv; simp at hv
          exact ⟨c2, by rw [hc] at hc2; simp at hc2 ⊢; tauto, v, hv⟩
      · obtain ⟨-, -, e2, -⟩ := hnew hil hn
        subst e2; exact .inl rfl
    · intro d hd i hi'
      exact Nat.lt_of_lt_of_le (hm.callBound d (hrest d hd) i hi') hlen
    · intro n hn i hi'
      obtain ⟨j, hj⟩ := List.getElem?_of_mem hn
      by_cases hjl : j < s.nodes.length
      · obtain ⟨n0, hn0, -, -, he, -⟩ := hback hjl hj
        exact Nat.lt_of_lt_of_le (hm.nodeBound n0 (List.mem_of_getElem? hn0) i (he ▸ hi')) hlen
      · obtain ⟨-, -, e2, -⟩ := hnew hjl hj
        subst e2
        exact Nat.lt_of_lt_of_le (hm.callBound c hcm i hi') hlen
    · intro d hd
      exact (hm.callMiss d (hrest d hd)).ext hext (hm.callBound d (hrest d hd))
    · intro j bv n hn hbv i hi' av hav
      by_cases hjl : j < s.nodes.length
      · obtain ⟨n0, hn0, -, hcell, he, -⟩ := hback hjl hn
        have hcell0 : n0.cell = some bv := by
          rcases hcell with h | h
          · rw [← h, hbv]
          · rw [h] at hbv; simp at hbv
        rw [he] at hi'
        exact hm.nodeMiss j bv n0 hn0 hcell0 i hi' av (at_ext hext (hm.nodeBound n0 (List.mem_of_getElem? hn0) i hi') hav)
      · obtain ⟨-, hpc, e2, -⟩ := hnew hjl hn
        subst e2
        simp at hbv; subst hbv
        have hmc := hm.callMiss c hcm
        simp only [Miss, hpc] at hmc
        have hav0 := at_ext hext (hm.callBound c hcm i hi') hav
        rintro (h | h)
        · exact hmc.1 i hi' av hav0 h
        · exact hmc.2 i hi' av hav0 h

theorem invM_exec {ok : St α → Label α → Prop} (h1 : ∀ s l, ok s l → DisjointRanges s l) (h2 : ∀ s l, ok s l → ExactLookup s l)
    {ls : List (Label α)} {s : St α} (h : Exec ok ls s) : Inv ls s ∧ InvM ls s := by
  induction h with
  | nil =>
    refine ⟨?_, ?_⟩
    · constructor <;> simp [offered, init, cells, inCalls, returned]
    · constructor <;> simp [offered, init, cells, inCalls]
  | snoc _ hok hs ih => exact ⟨inv_step ih.1 (distinct_of_disjoint ih.1 ih.2 (h1 _ _ hok)) hs, invM_step ih.1 ih.2 (h1 _ _ hok) (h2 _ _ hok) hs⟩

/-- When calls do not overlap, a call knows every full node, and every node knows the full nodes before it. -/
structure InvS (s : St α) : Prop where
  one : s.calls.length ≤ 1
  call : ∀ c ∈ s.calls, ∀ i a, At s.nodes i a → i ∈ c.earlier
  node : ∀ i j a b, i < j → At s.nodes i a → At s.nodes j b → ∀ n, s.nodes[j]? = some n → i ∈ n.earlier

theorem invS_step {ls : List (Label α)} {s s' : St α} {l : Label α} (hm : InvM ls s) (hs : InvS s) (ho : OneAtATime s l) (h : step s l = some s') : InvS s' := by
  cases stepR_of_step h with
  | start x =>
    have h0 := ho x rfl
    refine ⟨by simp [h0], ?_, hs.node⟩
    intro c hc i a ha
    simp [h0] at hc; subst hc
    obtain ⟨m, h1, h2⟩ := ha
    simp [full, h1, h2]
    exact (List.getElem?_eq_some_iff.1 h1).1
  | go k w c a b nodes c' hk hc hr =>
    have hcm : c ∈ s.calls := by rw [hc]; simp
    have hone := hs.one
    rw [hc] at hone
    have ha0 : a = [] := by cases a <;> simp at hone ⊢
    have hb0 : b = [] := by cases b <;> simp [ha0] at hone ⊢
    subst ha0; subst hb0
    obtain ⟨-, -, hear⟩ := callR_go hr
    have hext := callR_ext hr
    have hlen' : nodes.length = s.nodes.length := by cases hr <;> simp
    have hat : ∀ {i : Nat} {v : Seg α}, At nodes i v → At s.nodes i v := by
      intro i v hv
      refine at_ext hext ?_ hv
      obtain ⟨m, h1, -⟩ := hv
      rw [← hlen']; exact (List.getElem?_eq_some_iff.1 h1).1
    refine ⟨by simp, ?_, ?_⟩
    · intro d hd i v hv
      simp at hd; subst hd
      rw [hear]; exact hs.call c hcm i v (hat hv)
    · intro i j av bv hij hav hbv n hn
      have hj : j < s.nodes.length := by rw [← hlen']; exact (List.getElem?_eq_some_iff.1 hn).1
      obtain ⟨n2, h1, -, -, h4, -⟩ := hext j s.nodes[j] (List.getElem?_eq_getElem hj)
      dsimp only at hn
      rw [hn] at h1; simp at h1; subst h1
      rw [h4]
      exact hs.node i j av bv hij (hat hav) (hat hbv) _ (List.getElem?_eq_getElem hj)
  | ret k w c a b nodes out hk hc hr =>
    have hcm : c ∈ s.calls := by rw [hc]; simp
    have hone := hs.one
    rw [hc] at hone
    have ha0 : a = [] := by cases a <;> simp at hone ⊢
    have hb0 : b = [] := by cases b <;> simp [ha0] at hone ⊢
    subst ha0; subst hb0
    have hext := callR_ext hr
    refine ⟨by simp, by simp, ?_⟩
    intro i j av bv hij hav hbv n hn
    by_cases hj : j < s.nodes.length
    · obtain ⟨n2, h1, -, -, h4, -⟩ := hext j s.nodes[j] (List.getElem?_eq_getElem hj)
      dsimp only at hn
      rw [hn] at h1; simp at h1; subst h1
      rw [h4]
      exact hs.node i j av bv hij (at_ext hext (by omega) hav) (at_ext hext hj hbv) _ (List.getElem?_eq_getElem hj)
    · cases hr with
      | removeR id v n1 hpc hn1 => simp at hn; rw [List.getElem?_eq_none (by simp [unlink]; omega)] at hn; simp at hn
      | removeL id v n1 hpc hn1 => simp at hn; rw [List.getElem?_eq_none (by simp [unlink]; omega)] at hn; simp at hn
      | insert hpc =>
        have hul : (unlink s.nodes c.x.lo).length = s.nodes.length := by simp [unlink]
        have hje : j = s.nodes.length := by
          have := (List.getElem?_eq_some_iff.1 hn).1
          simp [hul] at this; omega
        dsimp only at hn
        rw [List.getElem?_append_right (by omega)] at hn
        simp [hul, hje] at hn; subst hn
        exact hs.call c hcm i av (at_ext hext (by omega) hav)

theorem invS_exec {ok : St α → Label α → Prop} (h1 : ∀ s l, ok s l → DisjointRanges s l) (h2 : ∀ s l, ok s l → ExactLookup s l)
    (h3 : ∀ s l, ok s l → OneAtATime s l) {ls : List (Label α)} {s : St α} (h : Exec ok ls s) : InvS s := by
  induction h with
  | nil => constructor <;> simp [init, At]
  | snoc hx hok hs ih => exact invS_step (invM_exec h1 h2 hx).2 ih (h3 _ _ hok) hs

end Conc
end Paladin
