import Verif.Proofs.Chan
/-! # Properties C51, C52 and C67: leased result channels -/
namespace Paladin
namespace Chan
open Amqp (getElem?_set' getElem?_snoc)

variable {N : Type} [DecidableEq N] {byName : Bool} {s s' : St N} {ls : List (Label N)}

/-! ## C51 -/

/-- **C51.** A receiver yields only messages that were routed to its own identifier. -/
theorem C51_own (h : run byName init ls = some s) {m l : Nat} (hr : (m, l) ∈ s.received) : ∃ x, s.leases[l]? = some x ∧ s.msgs[m]? = some x.id := (inv_run h).recv m l hr

/-- **C51.** If the identifiers differ, a message routed to one lease is received by no other. -/
theorem C51_isolated (h : run byName init ls = some s) (hd : Distinct s) {m l k : Nat} {x : Lease N} (hx : s.leases[l]? = some x) (hm : s.msgs[m]? = some x.id) (hr : (m, k) ∈ s.received) : k = l := by
  obtain ⟨y, hy, h2⟩ := (inv_run h).recv m k hr
  rw [hm, Option.some.injEq] at h2
  exact distinct_eq hd hy hx h2.symm

/-- **C51.** No message is received twice; each is in a queue, received, or lost with a deleted queue. -/
theorem C51_once (h : run byName init ls = some s) (m : Nat) :
    (s.insts.flatMap Inst.queue).count m + (s.received.map Prod.fst).count m + s.lost.count m = if m < s.msgs.length then 1 else 0 := (inv_run h).count m

/-- The queue an open receiver consumes is there, if identifiers differ. -/
theorem opened_present (hi : Inv byName s) (hd : Distinct s) {l i : Nat} {x : Lease N} (hx : s.leases[l]? = some x) (hp : x.phase = .opened i) :
    ∃ q, s.insts[i]? = some q ∧ q.present = true ∧ q.name = x.id := by
  obtain ⟨q, h1, h2⟩ := hi.lease l i x hx (.inr hp)
  cases hb : byName with
  | true =>
    obtain ⟨p, h3, h4⟩ := hi.opened hb hd l i x hx hp
    rw [h1] at h3; cases h3
    exact ⟨q, h1, h4, h2⟩
  | false =>
    refine ⟨q, h1, ?_, h2⟩
    cases hpr : q.present with
    | true => rfl
    | false =>
      obtain ⟨k, y, hy, h3, h4⟩ := hi.gone hb i q h1 hpr
      have := distinct_eq hd hy hx (h3.trans h2)
      subst this
      rw [hx] at hy; cases hy
      rw [hp] at h4; cases h4

theorem current_eq (hi : Inv byName s) {i : Nat} {q : Inst N} (hq : s.insts[i]? = some q) (hp : q.present = true) : current s q.name = some i := by
  cases hc : current s q.name with
  | none => exact absurd rfl (current_none hc (List.mem_of_getElem? hq) hp)
  | some j =>
    obtain ⟨p, h1, h2, h3⟩ := current_some hc
    rw [hi.uniq j i p q h1 hq h2 hp h3]

omit [DecidableEq N] in
theorem rec_append {s : St N} {x : Nat × Nat} : x ∈ s.received ++ [x] := by simp

/-- The receiver of an open lease gets the messages of its queue one after the other. -/
theorem recv_all {l i : Nat} {x : Lease N} (rest : List Nat) {m : Nat} {post : List Nat} : ∀ {s : St N}, s.leases[l]? = some x → x.phase = .opened i →
    ∀ {q : Inst N}, s.insts[i]? = some q → q.present = true → q.queue = rest ++ m :: post → ∃ s', run byName s (List.replicate (rest.length + 1) (.recv l)) = some s' ∧ (m, l) ∈ s'.received := by
  induction rest with
  | nil =>
    intro s hx hp q hq hpr hk
    obtain ⟨id, ph⟩ := x
    simp only at hp; subst hp
    obtain ⟨name, present, queue⟩ := q
    simp only at hk hpr; subst hk hpr
    refine ⟨{ s with insts := s.insts.set i ⟨name, true, post⟩, received := s.received ++ [(m, l)] }, ?_, by simp⟩
    simp [run, Lts.run, step, hx, hq]
  | cons a rest ih =>
    intro s hx hp q hq hpr hk
    obtain ⟨id, ph⟩ := x
    simp only at hp; subst hp
    obtain ⟨name, present, queue⟩ := q
    simp only at hk hpr; subst hk hpr
    obtain ⟨s', h1, h2⟩ := ih (s := { s with insts := s.insts.set i ⟨name, true, rest ++ m :: post⟩, received := s.received ++ [(a, l)] }) hx rfl
      (q := ⟨name, true, rest ++ m :: post⟩) (List.getElem?_set_self (List.getElem?_eq_some_iff.1 hq).1) rfl rfl
    refine ⟨s', ?_, h2⟩
    rw [List.length_cons, List.replicate_succ]
    refine Lts.run_cons.2 ⟨_, ?_, h1⟩
    simp [step, hx, hq]

/-- **C51.** If the identifiers differ, what a result sender for an open lease's identifier publishes ends up in the queue of that lease, and polling its receiver yields it: however many other
leases and senders there are, and whenever the sender was made. -/
theorem C51_reaches (h : run byName init ls = some s) (hd : Distinct s) {l i k : Nat} {x : Lease N} {t : Sender N} (hx : s.leases[l]? = some x) (hp : x.phase = .opened i)
    (ht : s.senders[k]? = some t) (hn : t.name = x.id) : ∃ n s', run byName s (.publish k :: List.replicate n (.recv l)) = some s' ∧ (s.msgs.length, l) ∈ s'.received := by
  have hi := inv_run h
  obtain ⟨q, h1, h2, h3⟩ := opened_present hi hd hx hp
  obtain ⟨name, j⟩ := t
  simp only at hn; subst hn
  have hj : (if byName then current s x.id else some j) = some i := by
    split
    · rw [← h3]; exact current_eq hi h1 h2
    · rename_i hb
      obtain ⟨p, h4, h5⟩ := hi.send k _ ht
      simp only at h4 h5
      cases hpr : p.present with
      | true => rw [hi.uniq j i p q h4 h1 hpr h2 (h5.trans h3.symm)]
      | false =>
        obtain ⟨k', y, hy, h6, h7⟩ := hi.gone (by simpa using hb) j p h4 hpr
        have := distinct_eq hd hy hx (h6.trans h5)
        subst this
        rw [hx] at hy; cases hy
        rw [hp] at h7; cases h7
  have hstep : step byName s (.publish k) = some { s with insts := s.insts.set i { q with queue := q.queue ++ [s.msgs.length] }, msgs := s.msgs ++ [x.id] } := by
    simp only [step, ht, hj, h1]
  obtain ⟨s', h4, h5⟩ := recv_all (byName := byName) (l := l) (i := i) (x := x) q.queue (m := s.msgs.length) (post := []) (s := { s with insts := s.insts.set i { q with queue := q.queue ++ [s.msgs.length] }, msgs := s.msgs ++ [x.id] }) hx hp
    (q := { q with queue := q.queue ++ [s.msgs.length] }) (List.getElem?_set_self (List.getElem?_eq_some_iff.1 h1).1) h2 rfl
  exact ⟨_, s', Lts.run_cons.2 ⟨_, hstep, h4⟩, h5⟩

/-- **C51.** A lease that draws the identifier of an existing queue shares it: its receiver is made on the same queue. -/
theorem C51_shared (h : run byName init ls = some s) {i l : Nat} {q : Inst N} (hq : s.insts[i]? = some q) (hpr : q.present = true) (hx : s.leases[l]? = some ⟨q.name, .issued⟩) :
    ∃ s', run byName s [.declare l, .consume l] = some s' ∧ s'.insts = s.insts ∧ s'.leases[l]? = some ⟨q.name, .opened i⟩ := by
  have hc := current_eq (inv_run h) hq hpr
  have hdq : declareQueue s q.name = (s, i) := by simp [declareQueue, hc]
  have hlt := (List.getElem?_eq_some_iff.1 hx).1
  refine ⟨{ s with leases := (s.leases.set l ⟨q.name, .declared i⟩).set l ⟨q.name, .opened i⟩ }, ?_, rfl, List.getElem?_set_self (by simpa using hlt)⟩
  have h1 : step byName s (.declare l) = some { s with leases := s.leases.set l ⟨q.name, .declared i⟩ } := by
    simp only [step, hx, hdq, setPhase_eq hx]
  refine Lts.run_cons.2 ⟨_, h1, Lts.run_one.2 ?_⟩
  have h2 : ({ s with leases := s.leases.set l ⟨q.name, .declared i⟩ } : St N).leases[l]? = some ⟨q.name, .declared i⟩ := List.getElem?_set_self hlt
  have h3 : current ({ s with leases := s.leases.set l ⟨q.name, .declared i⟩ } : St N) q.name = some i := hc
  simp only [step, h2, h3, setPhase_eq h2]
  split <;> rfl

/-- Two leases draw the identifier 7; a worker sends a result for it; the second receives it. -/
def exSame : List (Label Nat) := [.issue 7, .declare 0, .consume 0, .issue 7, .declare 1, .consume 1, .sender 7, .publish 0, .recv 1]

/-- **C51**: without distinct identifiers the result can go to the other lease. -/
theorem C51_same_witness : ∃ s : St Nat, run false init exSame = some s ∧ s.received = [(0, 1)] := ⟨_, rfl, by decide +kernel⟩

/-- A case for `C51_isolated` and `C51_reaches`: two leases with different identifiers, a sender for the second, a message for the first received. -/
def exTwo : List (Label Nat) := [.issue 7, .issue 8, .declare 1, .declare 0, .consume 1, .consume 0, .sender 8, .sender 7, .publish 1, .recv 0]

example (b : Bool) : ∃ s : St Nat, run b init exTwo = some s ∧ Distinct s ∧ s.leases = [⟨7, .opened 1⟩, ⟨8, .opened 0⟩] ∧ s.senders[0]? = some ⟨8, 0⟩ ∧ s.msgs = [7] ∧ (0, 0) ∈ s.received := by
  cases b <;> exact ⟨_, rfl, by unfold Distinct; decide +kernel, by decide +kernel, by decide +kernel, by decide +kernel, by decide +kernel⟩

/-- The fixed routing keys, runtime/mod.rs:125-127. -/
def fixedKeys : List String := ["command-ipc-routing-key", "task-ipc-routing-key", "abort-all-key"]

/-- A random identifier, five letters or digits (common/mod.rs:3-9), is none of the fixed routing keys. -/
theorem C51_fixed (id : String) (h : id.length = 5) : id ∉ fixedKeys := by
  rintro hm
  simp only [fixedKeys, List.mem_cons, List.not_mem_nil, or_false] at hm
  rcases hm with rfl | rfl | rfl <;> revert h <;> decide

/-! ## C52 -/

/-- How often a lease in this phase was dropped and how often it deleted. -/
def drops : Option Phase → Nat
  | some .dropped | some .released | some .unreleased => 1
  | _ => 0
def releases : Option Phase → Nat
  | some .released => 1
  | _ => 0

def phaseOf (s : St N) (k : Nat) : Option Phase := s.leases[k]?.map Lease.phase

omit [DecidableEq N] in
theorem phaseOf_set {l k : Nat} {x : Lease N} {p : Phase} (hx : s.leases[l]? = some x) {is : List (Inst N)} {ss : List (Sender N)} {ms : List N} {re : List (Nat × Nat)} {lo : List Nat} :
    phaseOf ⟨is, s.leases.set l { x with phase := p }, ss, ms, re, lo⟩ k = if l = k then some p else phaseOf s k := by
  simp only [phaseOf, List.getElem?_set, (List.getElem?_eq_some_iff.1 hx).1, if_true]
  split <;> simp_all

theorem deleteQueue_leases (name : N) : (deleteQueue byName s name).leases = s.leases := by
  unfold deleteQueue; (repeat' split) <;> rfl

theorem declareQueue_leases (name : N) : (declareQueue s name).1.leases = s.leases := by
  unfold declareQueue; split <;> rfl

theorem phase_step {lab : Label N} (h : step byName s lab = some s') (k : Nat) :
    drops (phaseOf s' k) = drops (phaseOf s k) + (if lab = .drop k then 1 else 0) ∧ releases (phaseOf s' k) = releases (phaseOf s k) + (if lab = .release k then 1 else 0) := by
  have same : s'.leases = s.leases → (∀ k, lab ≠ .drop k) → (∀ k, lab ≠ .release k) → drops (phaseOf s' k) = drops (phaseOf s k) + (if lab = .drop k then 1 else 0) ∧ releases (phaseOf s' k) = releases (phaseOf s k) + (if lab = .release k then 1 else 0) := by
    intro h1 h2 h3
    simp [phaseOf, h1, h2 k, h3 k]
  have set : ∀ (l : Nat) (x : Lease N) (p : Phase), s.leases[l]? = some x → s'.leases = s.leases.set l { x with phase := p } →
      drops (some p) = drops (some x.phase) + (if lab = .drop l then 1 else 0) → releases (some p) = releases (some x.phase) + (if lab = .release l then 1 else 0) →
      (∀ k, k ≠ l → lab ≠ .drop k ∧ lab ≠ .release k) →
      drops (phaseOf s' k) = drops (phaseOf s k) + (if lab = .drop k then 1 else 0) ∧ releases (phaseOf s' k) = releases (phaseOf s k) + (if lab = .release k then 1 else 0) := by
    intro l x p hx he h1 h2 h3
    have : phaseOf s' k = if l = k then some p else phaseOf s k := by
      have := phaseOf_set (k := k) (p := p) hx (is := s'.insts) (ss := s'.senders) (ms := s'.msgs) (re := s'.received) (lo := s'.lost)
      rw [← this]; simp [phaseOf, he]
    rw [this]
    by_cases hlk : l = k
    · subst hlk
      have hk : phaseOf s l = some x.phase := by simp [phaseOf, hx]
      simp only [if_true, hk]; exact ⟨h1, h2⟩
    · obtain ⟨h4, h5⟩ := h3 k (fun h => hlk h.symm)
      simp [hlk, h4, h5]
  cases lab with
  | issue id =>
    simp only [step, Option.some.injEq] at h; subst h
    simp only [reduceCtorEq, if_false, Nat.add_zero, phaseOf, List.getElem?_append]
    split
    · exact ⟨rfl, rfl⟩
    · rename_i hk
      rw [List.getElem?_eq_none (Nat.le_of_not_lt hk)]
      cases hj : k - s.leases.length with
      | zero => simp [drops, releases]
      | succ n => simp
  | declare l =>
    simp only [step] at h
    split at h <;> try simp only [reduceCtorEq] at h
    rename_i id hx
    simp only [Option.some.injEq] at h; subst h
    refine set l _ (.declared (declareQueue s id).2) hx ?_ rfl rfl (by simp)
    have hx' : (declareQueue s id).1.leases[l]? = some ⟨id, .issued⟩ := by rw [declareQueue_leases]; exact hx
    rw [setPhase_eq hx']; simp [declareQueue_leases]
  | consume l =>
    simp only [step] at h
    split at h <;> try simp only [reduceCtorEq] at h
    rename_i id i hx
    (repeat' split at h) <;> simp only [Option.some.injEq] at h <;> subst h <;> exact set l _ _ hx (by rw [setPhase_eq hx]) rfl rfl (by simp)
  | fail l =>
    simp only [step] at h
    split at h <;> (try simp only [reduceCtorEq] at h) <;>
    · rename_i hx
      simp only [Option.some.injEq] at h; subst h
      exact set l _ _ hx (by rw [setPhase_eq hx]) rfl rfl (by simp)
  | drop l =>
    simp only [step] at h
    split at h <;> (try simp only [reduceCtorEq] at h)
    rename_i hx
    simp only [Option.some.injEq] at h; subst h
    refine set l _ _ hx (by rw [setPhase_eq hx]) (by simp [drops]) rfl ?_
    intro k hk; simp [Ne.symm hk]
  | release l =>
    simp only [step] at h
    split at h <;> (try simp only [reduceCtorEq] at h)
    rename_i id hx
    simp only [Option.some.injEq] at h; subst h
    have hx' : (deleteQueue byName s id).leases[l]? = some ⟨id, .dropped⟩ := by rw [deleteQueue_leases]; exact hx
    refine set l _ .released hx (by rw [setPhase_eq hx']; simp [deleteQueue_leases]) (by simp [drops]) (by simp [releases]) ?_
    intro k hk; simp [Ne.symm hk]
  | giveUp l =>
    simp only [step] at h
    split at h <;> (try simp only [reduceCtorEq] at h)
    rename_i hx
    simp only [Option.some.injEq] at h; subst h
    exact set l _ _ hx (by rw [setPhase_eq hx]) rfl rfl (by simp)
  | sender name =>
    simp only [step, Option.some.injEq] at h; subst h
    exact same (declareQueue_leases name) (by simp) (by simp)
  | publish k' =>
    refine same ?_ (by simp) (by simp)
    simp only [step] at h
    (repeat' split at h) <;> first | (simp only [reduceCtorEq] at h; done) | (simp only [Option.some.injEq] at h; subst h; rfl)
  | recv l =>
    refine same ?_ (by simp) (by simp)
    simp only [step] at h
    (repeat' split at h) <;> first | (simp only [reduceCtorEq] at h; done) | (simp only [Option.some.injEq] at h; subst h; rfl)
  | expire i =>
    refine same ?_ (by simp) (by simp)
    simp only [step] at h
    (repeat' split at h) <;> first | (simp only [reduceCtorEq] at h; done) | (simp only [Option.some.injEq] at h; subst h; rfl)

theorem counts_run (h : run byName init ls = some s) (k : Nat) : ls.count (.drop k) = drops (phaseOf s k) ∧ ls.count (.release k) = releases (phaseOf s k) := by
  refine Lts.run_induction (P := fun (ls : List (Label N)) (s : St N) => ls.count (.drop k) = drops (phaseOf s k) ∧ ls.count (.release k) = releases (phaseOf s k)) ?_ ?_ ls s h
  · simp [init, phaseOf, drops, releases]
  · rintro ls l s s' - ⟨h1, h2⟩ hs
    have := phase_step hs k
    simp only [List.count_append, List.count_singleton, beq_iff_eq, h1, h2]
    exact ⟨this.1.symm, this.2.symm⟩

/-- **C52.** For every lease: at most one drop, at most as many deletions as drops; and exactly one deletion once the spawned task is through. -/
theorem C52_once (h : run byName init ls = some s) (l : Nat) : ls.count (.release l) ≤ ls.count (.drop l) ∧ ls.count (.drop l) ≤ 1 ∧
    ∀ x, s.leases[l]? = some x → (x.phase = .released → ls.count (.release l) = 1) ∧ (x.phase = .dropped → ls.count (.drop l) = 1 ∧ ls.count (.release l) = 0 ∧ (step byName s (.release l)).isSome) := by
  obtain ⟨h1, h2⟩ := counts_run h l
  refine ⟨?_, ?_, ?_⟩
  · rw [h1, h2]
    rcases phaseOf s l with _ | ⟨_ | _ | _ | _ | _ | _ | _⟩ <;> simp [drops, releases]
  · rw [h1]
    rcases phaseOf s l with _ | ⟨_ | _ | _ | _ | _ | _ | _⟩ <;> simp [drops]
  · intro x hx
    have hp : phaseOf s l = some x.phase := by simp [phaseOf, hx]
    rw [hp] at h1 h2
    refine ⟨fun he => by rw [h2, he]; rfl, fun he => ⟨by rw [h1, he]; rfl, by rw [h2, he]; rfl, ?_⟩⟩
    obtain ⟨id, ph⟩ := x
    simp only at he; subst he
    simp [step, hx]

/-- **C52.** A queue goes away only when the receiver of a lease with its name has been dropped, or, on AMQP, when it has had no consumer for 30 minutes. -/
theorem C52_only {lab : Label N} (hs : step byName s lab = some s') {i : Nat} {q q' : Inst N} (hq : s.insts[i]? = some q) (hp : q.present = true)
    (hq' : s'.insts[i]? = some q') (hg : q'.present = false) : (∃ l, lab = .release l ∧ s.leases[l]? = some ⟨q.name, .dropped⟩) ∨ (byName = true ∧ lab = .expire i ∧ ∀ x ∈ s.leases, x.phase ≠ .opened i) := by
  have same : s'.insts[i]? = some q → False := by
    intro h1; rw [hq'] at h1; cases h1; rw [hp] at hg; cases hg
  have decl : ∀ name, (declareQueue s name).1.insts[i]? = some q := by
    intro name
    unfold declareQueue
    split
    · exact hq
    · simp only; rw [List.getElem?_append_left (List.getElem?_eq_some_iff.1 hq).1]; exact hq
  have sp : ∀ {t : St N} {l p}, (setPhase t l p).insts = t.insts := by
    intro t l p; unfold setPhase; split <;> rfl
  cases lab with
  | issue id => simp only [step, Option.some.injEq] at hs; subst hs; exact (same hq).elim
  | declare l =>
    simp only [step] at hs
    split at hs <;> try simp only [reduceCtorEq] at hs
    simp only [Option.some.injEq] at hs; subst hs
    exact (same (by rw [sp]; exact decl _)).elim
  | consume l =>
    simp only [step] at hs
    (repeat' split at hs) <;> first | (simp only [reduceCtorEq] at hs; done) | (simp only [Option.some.injEq] at hs; subst hs; exact (same (by rw [sp]; exact hq)).elim)
  | fail l =>
    simp only [step] at hs
    (repeat' split at hs) <;> first | (simp only [reduceCtorEq] at hs; done) | (simp only [Option.some.injEq] at hs; subst hs; exact (same (by rw [sp]; exact hq)).elim)
  | drop l =>
    simp only [step] at hs
    (repeat' split at hs) <;> first | (simp only [reduceCtorEq] at hs; done) | (simp only [Option.some.injEq] at hs; subst hs; exact (same (by rw [sp]; exact hq)).elim)
  | giveUp l =>
    simp only [step] at hs
    (repeat' split at hs) <;> first | (simp only [reduceCtorEq] at hs; done) | (simp only [Option.some.injEq] at hs; subst hs; exact (same (by rw [sp]; exact hq)).elim)
  | release l =>
    simp only [step] at hs
    split at hs <;> try simp only [reduceCtorEq] at hs
    rename_i id hx
    simp only [Option.some.injEq] at hs; subst hs
    left
    refine ⟨l, rfl, ?_⟩
    suffices q.name = id by rw [this]; exact hx
    by_cases hne : q.name = id
    · exact hne
    · exfalso
      refine same ?_
      rw [sp]
      unfold deleteQueue
      split
      · rename_i j hc
        obtain ⟨p, h1, h2, h3⟩ := current_some hc
        have hij : j ≠ i := by rintro rfl; rw [hq] at h1; cases h1; exact hne h3
        simp only [h1]
        split <;> simp only <;> rw [List.getElem?_set_ne hij] <;> exact hq
      · exact hq
  | sender name =>
    simp only [step, Option.some.injEq] at hs; subst hs; exact (same (decl name)).elim
  | publish k =>
    exfalso
    simp only [step] at hs
    (repeat' split at hs) <;> first
      | (simp only [reduceCtorEq] at hs; done)
      | (simp only [Option.some.injEq] at hs; subst hs; exact same hq)
      | (rename_i j _ p hp'
         simp only [Option.some.injEq] at hs; subst hs
         rcases getElem?_set' hq' with ⟨rfl, rfl⟩ | ⟨_, hq'⟩
         · rw [hq] at hp'; cases hp'; simp [hp] at hg
         · rw [hq] at hq'; cases hq'; rw [hp] at hg; cases hg)
  | recv l =>
    exfalso
    simp only [step] at hs
    split at hs <;> try simp only [reduceCtorEq] at hs
    split at hs <;> try simp only [reduceCtorEq] at hs
    rename_i name present m rest hq1
    split at hs <;> try simp only [reduceCtorEq] at hs
    simp only [Option.some.injEq] at hs; subst hs
    rcases getElem?_set' hq' with ⟨rfl, rfl⟩ | ⟨_, hq'⟩
    · rw [hq] at hq1; cases hq1; simp at hp hg; rw [hp] at hg; cases hg
    · rw [hq] at hq'; cases hq'; rw [hp] at hg; cases hg
  | expire j =>
    simp only [step] at hs
    split at hs <;> try simp only [reduceCtorEq] at hs
    rename_i name queue hq1
    split at hs <;> try simp only [reduceCtorEq] at hs
    rename_i hb
    simp only [Bool.and_eq_true] at hb
    simp only [Option.some.injEq] at hs; subst hs
    rcases getElem?_set' hq' with ⟨rfl, rfl⟩ | ⟨_, hq'⟩
    · refine .inr ⟨hb.1, rfl, ?_⟩
      intro x hx
      simpa using List.all_eq_true.1 hb.2 x hx
    · rw [hq] at hq'; cases hq'; rw [hp] at hg; cases hg

/-- No step makes a queue of a name unless it asks for one. -/
theorem exists_step {name : N} {lab : Label N} (hs : step byName s lab = some s') (hq : ¬ lab.mayCreate s name) (he : Exists s' name) : Exists s name := by
  have sp : ∀ {t : St N} {l p}, (setPhase t l p).insts = t.insts := by
    intro t l p; unfold setPhase; split <;> rfl
  obtain ⟨q, hm, hp, hn⟩ := he
  have decl : ∀ n, n ≠ name → q ∈ (declareQueue s n).1.insts → Exists s name := by
    intro n hne hm
    unfold declareQueue at hm
    split at hm
    · exact ⟨q, hm, hp, hn⟩
    · simp only [List.mem_append, List.mem_singleton] at hm
      rcases hm with hm | rfl
      · exact ⟨q, hm, hp, hn⟩
      · exact absurd hn hne
  have set : ∀ (j : Nat) (p p' : Inst N), s.insts[j]? = some p → q ∈ s.insts.set j p' → p'.name = p.name → (p'.present = true → p.present = true) → Exists s name := by
    intro j p p' hj hm h1 h2
    rcases List.mem_or_eq_of_mem_set hm with hm | rfl
    · exact ⟨q, hm, hp, hn⟩
    · exact ⟨p, List.mem_of_getElem? hj, h2 hp, h1.symm.trans hn⟩
  have same : s'.insts = s.insts → Exists s name := fun h => ⟨q, h ▸ hm, hp, hn⟩
  cases lab with
  | issue id => simp only [step, Option.some.injEq] at hs; subst hs; exact same rfl
  | declare l =>
    simp only [step] at hs
    split at hs <;> try simp only [reduceCtorEq] at hs
    rename_i id hx
    simp only [Option.some.injEq] at hs; subst hs
    rw [sp] at hm
    exact decl id (fun h => hq ⟨_, hx, h⟩) hm
  | consume l =>
    simp only [step] at hs
    (repeat' split at hs) <;> first | (simp only [reduceCtorEq] at hs; done) | (simp only [Option.some.injEq] at hs; subst hs; exact same sp)
  | fail l =>
    simp only [step] at hs
    (repeat' split at hs) <;> first | (simp only [reduceCtorEq] at hs; done) | (simp only [Option.some.injEq] at hs; subst hs; exact same sp)
  | drop l =>
    simp only [step] at hs
    (repeat' split at hs) <;> first | (simp only [reduceCtorEq] at hs; done) | (simp only [Option.some.injEq] at hs; subst hs; exact same sp)
  | giveUp l =>
    simp only [step] at hs
    (repeat' split at hs) <;> first | (simp only [reduceCtorEq] at hs; done) | (simp only [Option.some.injEq] at hs; subst hs; exact same sp)
  | release l =>
    simp only [step] at hs
    split at hs <;> try simp only [reduceCtorEq] at hs
    rename_i id hx
    simp only [Option.some.injEq] at hs; subst hs
    rw [sp] at hm
    unfold deleteQueue at hm
    split at hm
    · rename_i j hc
      obtain ⟨p, h1, h2, h3⟩ := current_some hc
      simp only [h1] at hm
      split at hm <;> exact set j p _ h1 hm rfl (by simp)
    · exact ⟨q, hm, hp, hn⟩
  | sender n =>
    simp only [step, Option.some.injEq] at hs; subst hs
    exact decl n hq hm
  | publish k =>
    simp only [step] at hs
    (repeat' split at hs) <;> first
      | (simp only [reduceCtorEq] at hs; done)
      | (simp only [Option.some.injEq] at hs; subst hs; exact same rfl)
      | (rename_i j _ p hp'
         simp only [Option.some.injEq] at hs; subst hs
         exact set _ p _ hp' hm rfl id)
  | recv l =>
    simp only [step] at hs
    split at hs <;> try simp only [reduceCtorEq] at hs
    split at hs <;> try simp only [reduceCtorEq] at hs
    rename_i hq1
    split at hs <;> try simp only [reduceCtorEq] at hs
    simp only [Option.some.injEq] at hs; subst hs
    exact set _ _ _ hq1 hm rfl id
  | expire j =>
    simp only [step] at hs
    split at hs <;> try simp only [reduceCtorEq] at hs
    rename_i name queue hq1
    split at hs <;> try simp only [reduceCtorEq] at hs
    simp only [Option.some.injEq] at hs; subst hs
    exact set _ _ _ hq1 hm rfl (by simp)

theorem exists_run {name : N} (hq : Quiet byName name s ls) (h : run byName s ls = some s') (he : Exists s' name) : Exists s name := by
  induction ls generalizing s with
  | nil => simp [run, Lts.run] at h; subst h; exact he
  | cons l ls ih =>
    obtain ⟨s1, h1, h2⟩ := Lts.run_cons.1 h
    exact exists_step h1 hq.1 (ih (hq.2 s1 h1) h2)

/-- **C52.** After a release no queue with the identifier exists, for as long as nobody asks for one. -/
theorem C52_gone_partial (h : run byName init ls = some s) {l : Nat} {x : Lease N} (hx : s.leases[l]? = some x) {s1 : St N} (h1 : step byName s (.release l) = some s1) {ls' : List (Label N)}
    (hq : Quiet byName x.id s1 ls') (h2 : run byName s1 ls' = some s') : ¬ Exists s' x.id := by
  intro he
  have hi := inv_run h
  obtain ⟨q, hm, hp, hn⟩ := exists_run hq h2 he
  simp only [step] at h1
  split at h1 <;> try simp only [reduceCtorEq] at h1
  rename_i id hx1
  rw [hx] at hx1; cases hx1
  simp only [Option.some.injEq] at h1; subst h1
  have sp : ∀ {t : St N} {l p}, (setPhase t l p).insts = t.insts := by
    intro t l p; unfold setPhase; split <;> rfl
  rw [sp] at hm
  unfold deleteQueue at hm
  split at hm
  · rename_i i hc
    obtain ⟨p, h1, h2, h3⟩ := current_some hc
    simp only [h1] at hm
    have key : ∀ p' : Inst N, p'.present = false → q ∈ s.insts.set i p' → False := by
      intro p' hp' hm
      obtain ⟨j, hj⟩ := List.mem_iff_getElem?.1 hm
      rcases getElem?_set' hj with ⟨rfl, rfl⟩ | ⟨hne, hj⟩
      · rw [hp] at hp'; cases hp'
      · exact hne (hi.uniq i j p q h1 hj h2 hp (h3.trans hn.symm))
    split at hm
    · exact key _ rfl hm
    · exact key _ rfl hm
  · rename_i hc
    exact current_none hc hm hp hn

/-- **C52**, last sentence, is false: whenever a worker asks for a result sender, even after the release, a queue with the identifier exists afterwards. -/
theorem C52_late (name : N) : ∃ s', step byName s (.sender name) = some s' ∧ Exists s' name := by
  refine ⟨_, rfl, ?_⟩
  rcases declare_cases (s := s) name with ⟨i, q, he, h1, h2, h3⟩ | ⟨hc, he⟩
  · rw [he]; exact ⟨q, List.mem_of_getElem? h1, h2, h3⟩
  · rw [he]; exact ⟨⟨name, true, []⟩, by simp, rfl, rfl⟩

/-- Nobody will delete a queue of this name: no lease with this identifier is on its way. -/
def Orphan (s : St N) (name : N) : Prop := ∀ x ∈ s.leases, x.id = name → x.phase = .released ∨ x.phase = .unreleased ∨ x.phase = .failed

theorem leases_step {lab : Label N} (hs : step byName s lab = some s') {x : Lease N} (hx : x ∈ s'.leases) :
    x ∈ s.leases ∨ lab = .issue x.id ∨ ∃ y ∈ s.leases, y.id = x.id ∧ ¬ (y.phase = .released ∨ y.phase = .unreleased ∨ y.phase = .failed) := by
  have same : s'.leases = s.leases → x ∈ s.leases := fun h => h ▸ hx
  have set : ∀ (t : St N) (l : Nat) (y : Lease N) (p : Phase), t.leases = s.leases → s.leases[l]? = some y → ¬ (y.phase = .released ∨ y.phase = .unreleased ∨ y.phase = .failed) → s' = setPhase t l p →
      x ∈ s.leases ∨ lab = .issue x.id ∨ ∃ y ∈ s.leases, y.id = x.id ∧ ¬ (y.phase = .released ∨ y.phase = .unreleased ∨ y.phase = .failed) := by
    intro t l y p ht hy hn he
    subst he
    have hy' : t.leases[l]? = some y := ht ▸ hy
    rw [setPhase_eq hy'] at hx
    rcases List.mem_or_eq_of_mem_set hx with hx | rfl
    · exact .inl (ht ▸ hx)
    · exact .inr (.inr ⟨y, List.mem_of_getElem? hy, rfl, hn⟩)
  cases lab with
  | issue id =>
    simp only [step, Option.some.injEq] at hs; subst hs
    simp only [List.mem_append, List.mem_singleton] at hx
    rcases hx with hx | rfl
    · exact .inl hx
    · exact .inr (.inl rfl)
  | declare l =>
    simp only [step] at hs
    split at hs <;> try simp only [reduceCtorEq] at hs
    rename_i h1
    simp only [Option.some.injEq] at hs
    exact set _ l _ _ (declareQueue_leases _) h1 (by simp) hs.symm
  | release l =>
    simp only [step] at hs
    split at hs <;> try simp only [reduceCtorEq] at hs
    rename_i h1
    simp only [Option.some.injEq] at hs
    exact set _ l _ _ (deleteQueue_leases _) h1 (by simp) hs.symm
  | consume l =>
    simp only [step] at hs
    split at hs <;> try simp only [reduceCtorEq] at hs
    rename_i h1
    (repeat' split at hs) <;> simp only [Option.some.injEq] at hs <;> exact set _ l _ _ rfl h1 (by simp) hs.symm
  | fail l =>
    simp only [step] at hs
    split at hs <;> (try simp only [reduceCtorEq] at hs) <;>
    · rename_i h1
      simp only [Option.some.injEq] at hs
      exact set _ l _ _ rfl h1 (by simp) hs.symm
  | drop l =>
    simp only [step] at hs
    split at hs <;> try simp only [reduceCtorEq] at hs
    rename_i h1
    simp only [Option.some.injEq] at hs
    exact set _ l _ _ rfl h1 (by simp) hs.symm
  | giveUp l =>
    simp only [step] at hs
    split at hs <;> try simp only [reduceCtorEq] at hs
    rename_i h1
    simp only [Option.some.injEq] at hs
    exact set _ l _ _ rfl h1 (by simp) hs.symm
  | sender name =>
    simp only [step, Option.some.injEq] at hs; subst hs
    exact .inl (same (declareQueue_leases name))
  | publish k =>
    simp only [step] at hs
    (repeat' split at hs) <;> first | (simp only [reduceCtorEq] at hs; done) | (simp only [Option.some.injEq] at hs; subst hs; exact .inl hx)
  | recv l =>
    simp only [step] at hs
    (repeat' split at hs) <;> first | (simp only [reduceCtorEq] at hs; done) | (simp only [Option.some.injEq] at hs; subst hs; exact .inl hx)
  | expire i =>
    simp only [step] at hs
    (repeat' split at hs) <;> first | (simp only [reduceCtorEq] at hs; done) | (simp only [Option.some.injEq] at hs; subst hs; exact .inl hx)

/-- Queues keep their place and their name. -/
theorem insts_eff (he : Eff byName s s') {i : Nat} {q : Inst N} (hq : s.insts[i]? = some q) : ∃ q', s'.insts[i]? = some q' ∧ q'.name = q.name := by
  have set : ∀ (j : Nat) (p p' : Inst N), s.insts[j]? = some p → p'.name = p.name → ∃ q', (s.insts.set j p')[i]? = some q' ∧ q'.name = q.name := by
    intro j p p' hj hn
    by_cases hij : j = i
    · subst hij; rw [hq] at hj; cases hj
      exact ⟨p', List.getElem?_set_self (List.getElem?_eq_some_iff.1 hq).1, hn⟩
    · exact ⟨q, by rw [List.getElem?_set_ne hij]; exact hq, rfl⟩
  cases he with
  | new name hc => exact ⟨q, by simp only; rw [List.getElem?_append_left (List.getElem?_eq_some_iff.1 hq).1]; exact hq, rfl⟩
  | remove l j x p hx hd hj => exact set j p _ hj rfl
  | publish j p hj => exact set j p _ hj rfl
  | recv l j m x p rest hx ho hj => exact set j p _ hj rfl
  | expire j p hj => exact set j p _ hj rfl
  | _ => exact ⟨q, hq, rfl⟩

theorem insts_step (hi : Inv byName s) {lab : Label N} (hs : step byName s lab = some s') {i : Nat} {q : Inst N} (hq : s.insts[i]? = some q) : ∃ q', s'.insts[i]? = some q' ∧ q'.name = q.name := by
  rcases eff_of_step hi hs with he | ⟨s1, h1, h2⟩
  · exact insts_eff he hq
  · obtain ⟨p, h3, h4⟩ := insts_eff h1 hq
    obtain ⟨r, h5, h6⟩ := insts_eff h2 h3
    exact ⟨r, h5, h6.trans h4⟩

/-- **C52**, last sentence: on a broker, such a queue can expire, which removes it. -/
theorem C52_expires {name : N} (h : run true init ls = some s) (he : Exists s name) (ho : Orphan s name) : ∃ i s', step true s (.expire i) = some s' ∧ ¬ Exists s' name := by
  have hi := inv_run h
  obtain ⟨q, hq, hp, hn⟩ := he
  obtain ⟨i, hlt, hqi⟩ := List.mem_iff_getElem.1 hq
  have hqi' : s.insts[i]? = some q := List.getElem?_eq_some_iff.2 ⟨hlt, hqi⟩
  have hu : unused s i = true := by
    rw [unused, List.all_eq_true]
    intro x hx
    obtain ⟨l, hl, hxl⟩ := List.mem_iff_getElem.1 hx
    simp only [ne_eq, decide_not, Bool.not_eq_eq_eq_not, Bool.not_true, decide_eq_false_iff_not]
    intro hph
    obtain ⟨r, hr, hrn⟩ := hi.lease l i x (List.getElem?_eq_some_iff.2 ⟨hl, hxl⟩) (.inr hph)
    rw [hqi'] at hr; cases hr
    have := ho x hx (hrn.symm.trans hn)
    simp [hph] at this
  obtain ⟨qn, qp, qq⟩ := q
  simp only at hp hn
  subst hp
  refine ⟨i, { s with insts := s.insts.set i ⟨qn, false, []⟩, lost := s.lost ++ qq }, by simp only [step, hqi', hu, Bool.and_self, if_true], ?_⟩
  rintro ⟨r, hr, hrp, hrn⟩
  obtain ⟨j, hj, hrj⟩ := List.mem_iff_getElem.1 hr
  have hj' : (s.insts.set i ⟨qn, false, []⟩)[j]? = some r := List.getElem?_eq_some_iff.2 ⟨hj, hrj⟩
  by_cases hij : i = j
  · subst hij
    rw [List.getElem?_set_self hlt] at hj'
    cases hj'
    simp at hrp
  · rw [List.getElem?_set_ne hij] at hj'
    exact hij (hi.uniq i j _ r hqi' hj' rfl hrp (hn.trans hrn.symm))

/-- **C52**, last sentence: in memory, such a queue then stays for ever, unless another lease draws its identifier. -/
theorem C52_stays {name : N} (h : run false init ls = some s) (he : Exists s name) (ho : Orphan s name) {ls' : List (Label N)} (hn : Label.issue name ∉ ls') (h2 : run false s ls' = some s') : Exists s' name := by
  suffices ∀ (ls' : List (Label N)) (s s' : St N), Inv false s → Exists s name → Orphan s name → Label.issue name ∉ ls' → run false s ls' = some s' → Exists s' name from
    this ls' s s' (inv_run h) he ho hn h2
  clear h he ho hn h2
  intro ls'
  induction ls' with
  | nil => intro s s' hi he ho hn h; simp [run, Lts.run] at h; subst h; exact he
  | cons l ls' ih =>
    intro s s' hi he ho hn h
    obtain ⟨s1, h1, h2⟩ := Lts.run_cons.1 h
    have hx : Exists s1 name ∧ Orphan s1 name := by
      constructor
      · obtain ⟨q, hm, hp, hnm⟩ := he
        obtain ⟨i, hq⟩ := List.mem_iff_getElem?.1 hm
        obtain ⟨q', h3, h4⟩ := insts_step hi h1 hq
        refine ⟨q', List.mem_of_getElem? h3, ?_, h4.trans hnm⟩
        cases hp' : q'.present with
        | true => rfl
        | false =>
          rcases C52_only h1 hq hp h3 hp' with ⟨k, -, hk⟩ | ⟨hb, -⟩
          · have := ho _ (List.mem_of_getElem? hk) hnm
            simp at this
          · cases hb
      · intro x hx hid
        rcases leases_step h1 hx with hx | rfl | ⟨y, hy, h3, h4⟩
        · exact ho x hx hid
        · exact absurd (by rw [hid]; simp) hn
        · exact absurd (ho y hy (h3.trans hid)) h4
    exact ih s1 s' (inv_step hi h1) hx.1 hx.2 (fun h => hn (List.mem_cons_of_mem _ h)) h2

/-- A lease is dropped and released while a worker is still busy with one of its tasks; the worker then sends its result. -/
def exLate : List (Label Nat) := [.issue 7, .declare 0, .consume 0, .drop 0, .release 0, .sender 7, .publish 0]

/-- **C52**, last sentence, is false: afterwards a queue named 7 exists, with the result in it, and nobody is going to delete it. -/
theorem C52_late_witness (b : Bool) : ∃ s : St Nat, run b init exLate = some s ∧ Exists s 7 ∧ Orphan s 7 ∧ (s.insts.map Inst.queue) = [[], [0]] := by
  cases b <;> exact ⟨_, rfl, by unfold Exists; decide +kernel, by unfold Orphan; decide +kernel, by decide +kernel⟩

/-- A case for `C52_once` and `C52_gone_partial`: two leases, the first dropped and released, a worker serving the second. -/
example (b : Bool) : ∃ s : St Nat, run b init [.issue 7, .issue 8, .declare 0, .declare 1, .consume 0, .consume 1, .drop 0] = some s ∧ s.leases[0]? = some ⟨7, .dropped⟩ ∧ Exists s 7 ∧
    ∃ s1, step b s (.release 0) = some s1 ∧ ∃ s', run b s1 [.sender 8, .publish 0, .recv 1] = some s' ∧ ¬ Exists s' 7 ∧ Exists s' 8 := by
  cases b <;> exact ⟨_, rfl, by decide +kernel, by unfold Exists; decide +kernel, _, rfl, _, rfl, by unfold Exists; decide +kernel, by unfold Exists; decide +kernel⟩

/-- Two leases with the same identifier: dropping the first deletes the queue of the second. -/
theorem C52_same_witness : ∃ s : St Nat, run true init [.issue 7, .declare 0, .consume 0, .issue 7, .declare 1, .consume 1, .drop 0, .release 0] = some s ∧ s.leases[1]? = some ⟨7, .opened 0⟩ ∧ ¬ Exists s 7 :=
  ⟨_, rfl, by decide +kernel, by unfold Exists; decide +kernel⟩

/-! ## C67 -/

theorem failed_step {lab : Label N} (hs : step byName s lab = some s') {l : Nat} {id : N} (hx : s.leases[l]? = some ⟨id, .failed⟩) : ∃ x, s'.leases[l]? = some x ∧ x.phase = .failed := by
  have set : ∀ (t : St N) (k : Nat) (y : Lease N) (p : Phase), t.leases = s.leases → s.leases[k]? = some y → y.phase ≠ .failed → s' = setPhase t k p → ∃ x, s'.leases[l]? = some x ∧ x.phase = .failed := by
    intro t k y p ht hy hn he
    subst he
    have hy' : t.leases[k]? = some y := ht ▸ hy
    have hkl : k ≠ l := by rintro rfl; rw [hx] at hy; cases hy; exact hn rfl
    rw [setPhase_eq hy']
    exact ⟨_, by simp only; rw [List.getElem?_set_ne hkl, ht]; exact hx, rfl⟩
  have same : s'.leases = s.leases → ∃ x, s'.leases[l]? = some x ∧ x.phase = .failed := fun h => ⟨_, h ▸ hx, rfl⟩
  cases lab with
  | issue id =>
    simp only [step, Option.some.injEq] at hs; subst hs
    exact ⟨_, by simp only; rw [List.getElem?_append_left (List.getElem?_eq_some_iff.1 hx).1]; exact hx, rfl⟩
  | declare l =>
    simp only [step] at hs
    split at hs <;> try simp only [reduceCtorEq] at hs
    rename_i h1
    simp only [Option.some.injEq] at hs
    exact set _ l _ _ (declareQueue_leases _) h1 (by simp) hs.symm
  | release l =>
    simp only [step] at hs
    split at hs <;> try simp only [reduceCtorEq] at hs
    rename_i h1
    simp only [Option.some.injEq] at hs
    exact set _ l _ _ (deleteQueue_leases _) h1 (by simp) hs.symm
  | consume l =>
    simp only [step] at hs
    split at hs <;> try simp only [reduceCtorEq] at hs
    rename_i h1
    (repeat' split at hs) <;> simp only [Option.some.injEq] at hs <;> exact set _ l _ _ rfl h1 (by simp) hs.symm
  | fail l =>
    simp only [step] at hs
    split at hs <;> (try simp only [reduceCtorEq] at hs) <;>
    · rename_i h1
      simp only [Option.some.injEq] at hs
      exact set _ l _ _ rfl h1 (by simp) hs.symm
  | drop l =>
    simp only [step] at hs
    split at hs <;> try simp only [reduceCtorEq] at hs
    rename_i h1
    simp only [Option.some.injEq] at hs
    exact set _ l _ _ rfl h1 (by simp) hs.symm
  | giveUp l =>
    simp only [step] at hs
    split at hs <;> try simp only [reduceCtorEq] at hs
    rename_i h1
    simp only [Option.some.injEq] at hs
    exact set _ l _ _ rfl h1 (by simp) hs.symm
  | sender name =>
    simp only [step, Option.some.injEq] at hs; subst hs
    exact same (declareQueue_leases name)
  | publish k =>
    simp only [step] at hs
    (repeat' split at hs) <;> first | (simp only [reduceCtorEq] at hs; done) | (simp only [Option.some.injEq] at hs; subst hs; exact ⟨_, hx, rfl⟩)
  | recv l =>
    simp only [step] at hs
    (repeat' split at hs) <;> first | (simp only [reduceCtorEq] at hs; done) | (simp only [Option.some.injEq] at hs; subst hs; exact ⟨_, hx, rfl⟩)
  | expire i =>
    simp only [step] at hs
    (repeat' split at hs) <;> first | (simp only [reduceCtorEq] at hs; done) | (simp only [Option.some.injEq] at hs; subst hs; exact ⟨_, hx, rfl⟩)

/-- **C52**, leases that drew the same identifier, in memory: the second one goes on receiving from the queue that the first one has removed, what is sent by those who got their sender before. -/
theorem C52_same_memory_witness : ∃ s : St Nat, run false init [.issue 7, .declare 0, .consume 0, .issue 7, .declare 1, .consume 1, .sender 7, .drop 0, .release 0, .publish 0, .recv 1] = some s ∧
    ¬ Exists s 7 ∧ s.received = [(0, 1)] := ⟨_, rfl, by unfold Exists; decide +kernel, by decide +kernel⟩

/-- **C67** is false: a lease that fails after its queue was declared leaves the queue behind, and nobody is going to delete it. -/
theorem C67_witness (b : Bool) : ∃ s : St Nat, run b init [.issue 7, .declare 0, .fail 0] = some s ∧ Exists s 7 ∧ Orphan s 7 := by
  cases b <;> exact ⟨_, rfl, by unfold Exists; decide +kernel, by unfold Orphan; decide +kernel⟩

/-- **C67**, as far as it holds: a lease that fails before declaring its queue makes none. -/
theorem C67_before_partial {l : Nat} {id : N} (hx : s.leases[l]? = some ⟨id, .issued⟩) : ∃ s', step byName s (.fail l) = some s' ∧ s'.insts = s.insts ∧ ∀ ls' s'', run byName s' ls' = some s'' → Label.declare l ∉ ls' := by
  refine ⟨setPhase s l .failed, by simp [step, hx], ?_, ?_⟩
  · rw [setPhase_eq hx]
  · have key : ∀ (ls' : List (Label N)) (s s'' : St N), (∃ x, s.leases[l]? = some x ∧ x.phase = .failed) → run byName s ls' = some s'' → Label.declare l ∉ ls' := by
      intro ls'
      induction ls' with
      | nil => simp
      | cons a ls' ih =>
        rintro s s'' ⟨⟨id', ph⟩, h1, h2⟩ h
        simp only at h2; subst h2
        obtain ⟨s1, h3, h4⟩ := Lts.run_cons.1 h
        have hne : a ≠ .declare l := by rintro rfl; simp [step, h1] at h3
        have h5 : ∃ x, s1.leases[l]? = some x ∧ x.phase = .failed := failed_step h3 h1
        simp only [List.mem_cons, not_or]
        exact ⟨fun h => hne h.symm, ih s1 s'' h5 h4⟩
    refine fun ls' s'' h => key ls' _ s'' ?_ h
    rw [setPhase_eq hx]
    exact ⟨_, List.getElem?_set_self (List.getElem?_eq_some_iff.1 hx).1, rfl⟩

end Chan
end Paladin
