import Verif.Proofs.ContigMiss
/-! # Threads sharing a `ContiguousQueue` (C03, C04) -/
namespace Paladin
namespace Conc

/-- **C03**: in every execution of any number of concurrent `acquire_contiguous_pair_or_queue` calls in which values that are in the queue or in running calls have
distinct keys, every offered value is in exactly one place: in the queue, in a running call, or in one returned pair. Every returned pair consists of two
adjacent values in order. Lookups may return stale nodes. -/
theorem C03_conserved {ls : List (Label α)} {s : St α} (h : Exec DistinctKeys ls s) :
    (offered ls).Perm (queued s ++ inCalls s ++ returned s) ∧ ∀ l r, some (l, r) ∈ s.outs → Adjacent l r ∧ l.lo ≤ r.lo := by
  have hi := inv_exec (fun _ _ h => h) h
  rw [queued_eq hi.linked]
  exact ⟨hi.perm, hi.outs⟩

/-- **C03** when all calls have returned: every offered value is in the queue or in exactly one returned pair. -/
theorem C03_at_rest {ls : List (Label α)} {s : St α} (h : Exec DistinctKeys ls s) (hrest : s.calls = []) : (offered ls).Perm (queued s ++ returned s) := by
  have := (C03_conserved h).1
  simpa [inCalls, hrest] using this

/-! ## Executable form of executions, for the concrete cases -/

def runB (okb : St α → Label α → Bool) (s : St α) : List (Label α) → Option (St α)
  | [] => some s
  | l :: ls => if okb s l then (step s l).bind fun s' => runB okb s' ls else none

theorem exec_of_runB {okb : St α → Label α → Bool} {ok : St α → Label α → Prop} (hok : ∀ s l, okb s l = true → ok s l) {pre ls : List (Label α)} {s s' : St α}
    (h0 : Exec ok pre s) (h : runB okb s ls = some s') : Exec ok (pre ++ ls) s' := by
  induction ls generalizing pre s with
  | nil => simp [runB] at h; subst h; simpa using h0
  | cons l ls ih =>
    simp only [runB] at h
    split at h
    · rename_i hl
      cases hs : step s l with
      | none => simp [hs] at h
      | some s1 =>
        simp [hs] at h
        simpa using ih (Exec.snoc h0 (hok s l hl) hs) h
    · simp at h

def keysB (s : St α) : Label α → Bool
  | .start x => (live s).all fun v => decide (v.lo ≠ x.lo)
  | _ => true

theorem keysB_ok (s : St α) (l : Label α) (h : keysB s l = true) : DistinctKeys s l := by
  rintro x rfl v hv
  simp [keysB] at h; exact h v hv

def rangesB (s : St α) : Label α → Bool
  | .start x => decide (x.lo ≤ x.hi) && (live s).all fun v => decide (v.hi < x.lo ∨ x.hi < v.lo)
  | _ => true

theorem rangesB_ok (s : St α) (l : Label α) (h : rangesB s l = true) : DisjointRanges s l := by
  rintro x rfl
  simp [rangesB] at h; exact h

def exactB (s : St α) : Label α → Bool
  | .start _ => true
  | .act k w =>
    match s.calls[k]? with
    | some c =>
      match c.pc with
      | .findR =>
        match w with
        | none => s.nodes.all fun n => !n.linked || decide (n.key < c.x.lo)
        | some id => match s.nodes[id]? with
          | some n => n.linked && decide (c.x.lo ≤ n.key) && s.nodes.all fun m => !m.linked || decide (m.key < c.x.lo) || decide (n.key ≤ m.key)
          | none => false
      | .findL =>
        match w with
        | none => s.nodes.all fun n => !n.linked || decide (c.x.lo ≤ n.key)
        | some id => match s.nodes[id]? with
          | some n => n.linked && decide (n.key < c.x.lo) && s.nodes.all fun m => !m.linked || decide (c.x.lo ≤ m.key) || decide (m.key ≤ n.key)
          | none => false
      | _ => true
    | none => true

theorem exactB_ok (s : St α) (l : Label α) (h : exactB s l = true) : ExactLookup s l := by
  rintro k w c rest rfl hk
  have hk' : s.calls[k]? = some c := by
    unfold Fold.takeAt at hk
    cases hc : s.calls[k]? with
    | none => simp [hc] at hk
    | some c' => simp [hc] at hk; rw [hk.1]
  simp only [exactB, hk'] at h
  constructor
  · intro hpc
    simp only [hpc] at h
    cases w with
    | none =>
      simp only [IsNext]; intro n hn hl
      simp at h; have := h n hn; simp [hl] at this; exact this
    | some id =>
      simp only [IsNext] at h ⊢
      cases hn : s.nodes[id]? with
      | none => simp [hn] at h
      | some n =>
        simp [hn] at h
        refine ⟨n, rfl, h.1.1, h.1.2, fun m hm hl hle => ?_⟩
        have := h.2 m hm
        simp [hl] at this; omega
  · intro hpc
    simp only [hpc] at h
    cases w with
    | none =>
      simp only [IsPrev]; intro n hn hl
      simp at h; have := h n hn; simp [hl] at this; exact this
    | some id =>
      simp only [IsPrev] at h ⊢
      cases hn : s.nodes[id]? with
      | none => simp [hn] at h
      | some n =>
        simp [hn] at h
        refine ⟨n, rfl, h.1.1, h.1.2, fun m hm hl hle => ?_⟩
        have := h.2 m hm
        simp [hl] at this; omega

def oneB (s : St α) : Label α → Bool
  | .start _ => s.calls.isEmpty
  | _ => true

theorem oneB_ok (s : St α) (l : Label α) (h : oneB s l = true) : OneAtATime s l := by
  rintro x rfl
  simpa [oneB] using h

/-! ## C03: a concrete case -/

/-- Two calls race for the value 1..1 in the queue: 0..0 takes it although 2..2 peeked at it first; 2..2 is queued. -/
def race : List (Label Nat) :=
  [.start ⟨1, 1, 11⟩, .act 0 none, .act 0 none, .act 0 none, .start ⟨0, 0, 10⟩, .start ⟨2, 2, 12⟩, .act 1 none, .act 0 (some 0), .act 0 none, .act 1 (some 0), .act 0 none,
   .act 0 none, .act 1 none, .act 0 none, .act 0 none]

example : ∃ s, Exec DistinctKeys race s ∧ s.calls = [] ∧ queued s = [⟨2, 2, 12⟩] ∧ s.outs = [none, none, some (⟨0, 0, 10⟩, ⟨1, 1, 11⟩)] :=
  ⟨_, exec_of_runB (pre := []) keysB_ok .nil (show runB keysB init race = some _ from rfl), by decide⟩

/-! ## C04 -/

/-- **C04** is false: two calls offer adjacent values, each looks before the other has inserted, and both values stay in the queue after both calls returned;
all lookups are atomic. -/
theorem C04_missed_pair_witness : ∃ (ls : List (Label Nat)) (s : St Nat), Exec (fun s l => DisjointRanges s l ∧ ExactLookup s l) ls s ∧ s.calls = [] ∧
    queued s = [⟨0, 0, 10⟩, ⟨1, 1, 11⟩] ∧ s.outs = [none, none] :=
  ⟨[.start ⟨0, 0, 10⟩, .start ⟨1, 1, 11⟩, .act 0 none, .act 1 none, .act 0 none, .act 1 none, .act 0 none, .act 0 none], _,
    exec_of_runB (pre := []) (okb := fun s l => rangesB s l && exactB s l)
      (fun s l h => by simp at h; exact ⟨rangesB_ok s l h.1, exactB_ok s l h.2⟩) .nil (show runB _ init _ = some _ from rfl), by decide⟩

/-- **C04**, what holds for every interleaving with atomic lookups and disjoint ranges (partial): when two adjacent values are both in the queue, the two calls that
queued them overlapped: neither value was in the queue when the other's call began (`earlier` of a node lists the nodes that held a value when the call that
inserted it began). -/
theorem C04_missed_only_if_overlapping_partial {ls : List (Label α)} {s : St α} (h : Exec (fun s l => DisjointRanges s l ∧ ExactLookup s l) ls s)
    {i j : Nat} {ni nj : Node α} {a b : Seg α} (hi : s.nodes[i]? = some ni) (ha : ni.cell = some a) (hj : s.nodes[j]? = some nj) (hb : nj.cell = some b)
    (hadj : Adjacent a b) : i ∉ nj.earlier ∧ j ∉ ni.earlier := by
  have hm := (invM_exec (fun _ _ h => h.1) (fun _ _ h => h.2) h).2
  exact ⟨fun hmem => hm.nodeMiss j b nj hj hb i hmem a ⟨ni, hi, ha⟩ hadj.symm, fun hmem => hm.nodeMiss i a ni hi ha j hmem b ⟨nj, hj, hb⟩ hadj⟩

/-- **C04**, partial: when calls do not overlap (the way fold uses the queue), no two adjacent values are in the queue. -/
theorem C04_one_at_a_time_partial {ls : List (Label α)} {s : St α}
    (h : Exec (fun s l => (DisjointRanges s l ∧ ExactLookup s l) ∧ OneAtATime s l) ls s) : ∀ a ∈ queued s, ∀ b ∈ queued s, ¬ Adjacent a b := by
  obtain ⟨hi, hm⟩ := invM_exec (fun _ _ h => h.1.1) (fun _ _ h => h.1.2) h
  have hs := invS_exec (fun _ _ h => h.1.1) (fun _ _ h => h.1.2) (fun _ _ h => h.2) h
  intro a ha b hb hadj
  rw [queued_eq hi.linked] at ha hb
  obtain ⟨na, hna, hca⟩ := List.mem_filterMap.1 ha
  obtain ⟨nb, hnb, hcb⟩ := List.mem_filterMap.1 hb
  obtain ⟨i, hni⟩ := List.getElem?_of_mem hna
  obtain ⟨j, hnj⟩ := List.getElem?_of_mem hnb
  rcases Nat.lt_trichotomy i j with hlt | heq | hlt
  · exact hm.nodeMiss j b nb hnj hcb i (hs.node i j a b hlt ⟨na, hni, hca⟩ ⟨nb, hnj, hcb⟩ nb hnj) a ⟨na, hni, hca⟩ hadj.symm
  · subst heq
    rw [hni] at hnj; simp at hnj; subst hnj
    rw [hca] at hcb; simp at hcb; subst hcb
    have hv : a.Valid := hm.valid a (hi.perm.symm.subset (by simp only [List.mem_append]; exact .inl (.inl ha)))
    unfold Seg.Valid at hv
    rcases hadj with h | h <;> · unfold Before at h; omega
  · exact hm.nodeMiss i a na hni hca j (hs.node j i b a hlt ⟨nb, hnj, hcb⟩ ⟨na, hni, hca⟩ na hni) b ⟨nb, hnj, hcb⟩ hadj

/-- The hypotheses are met: 0..0, then 2..2, then 1..1 (which takes its right neighbour), one call at a time. -/
example : ∃ s : St Nat, Exec (fun s l => (DisjointRanges s l ∧ ExactLookup s l) ∧ OneAtATime s l)
    ([.start ⟨0, 0, 10⟩, .act 0 none, .act 0 none, .act 0 none, .start ⟨2, 2, 12⟩, .act 0 none, .act 0 (some 0), .act 0 none, .act 0 none,
      .start ⟨1, 1, 11⟩, .act 0 (some 1), .act 0 none, .act 0 none, .act 0 none] : List (Label Nat)) s ∧
    s.outs = [none, none, some (⟨1, 1, 11⟩, ⟨2, 2, 12⟩)] ∧ queued s = [⟨0, 0, 10⟩] :=
  ⟨_, exec_of_runB (pre := []) (okb := fun s l => rangesB s l && exactB s l && oneB s l)
      (fun s l h => by simp at h; exact ⟨⟨rangesB_ok s l h.1.1, exactB_ok s l h.1.2⟩, oneB_ok s l h.2⟩) .nil (show runB _ init _ = some _ from rfl), by decide⟩

end Conc
end Paladin
