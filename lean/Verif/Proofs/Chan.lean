import Verif.Spec.Chan
import Verif.Proofs.Lts
import Verif.Proofs.AmqpData
/-! # Invariants of leased channels -/
namespace Paladin
namespace Chan
open Amqp (getElem?_set' getElem?_snoc count_set)

variable {N : Type} [DecidableEq N] {byName : Bool} {s s' : St N} {ls : List (Label N)}

theorem current_some {name : N} {i : Nat} (h : current s name = some i) : ∃ q, s.insts[i]? = some q ∧ q.present = true ∧ q.name = name := by
  obtain ⟨h1, h2, -⟩ := List.findIdx?_eq_some_iff_getElem.1 h
  refine ⟨_, List.getElem?_eq_getElem h1, ?_⟩
  simpa using h2

theorem current_none {name : N} (h : current s name = none) {q : Inst N} (hq : q ∈ s.insts) (hp : q.present = true) : q.name ≠ name := by
  have := List.findIdx?_eq_none_iff.1 h q hq
  simpa [hp] using this

/-- What a single step can do. -/
inductive Eff (byName : Bool) (s : St N) : St N → Prop
  | issue (id : N) : Eff byName s { s with leases := s.leases ++ [⟨id, .issued⟩] }
  | phase (l : Nat) (x : Lease N) (p : Phase) (hx : s.leases[l]? = some x) (hr : x.phase ≠ .released)
      (hp : ∀ i, p = .declared i ∨ p = .opened i → ∃ q, s.insts[i]? = some q ∧ q.name = x.id ∧ (byName = true → q.present = true)) :
      Eff byName s { s with leases := s.leases.set l { x with phase := p } }
  | new (name : N) (h : current s name = none) : Eff byName s { s with insts := s.insts ++ [⟨name, true, []⟩] }
  | sender (name : N) (i : Nat) (q : Inst N) (hq : s.insts[i]? = some q) (hn : q.name = name) : Eff byName s { s with senders := s.senders ++ [⟨name, i⟩] }
  | remove (l i : Nat) (x : Lease N) (q : Inst N) (hx : s.leases[l]? = some x) (hd : x.phase = .dropped) (hq : s.insts[i]? = some q) (hn : q.name = x.id) (hp : q.present = true)
      (rest gone : List Nat) (hk : q.queue = gone ++ rest) :
      Eff byName s { s with insts := s.insts.set i { q with present := false, queue := rest }, lost := s.lost ++ gone, leases := s.leases.set l { x with phase := .released } }
  | publish (i : Nat) (q : Inst N) (hq : s.insts[i]? = some q) : Eff byName s { s with insts := s.insts.set i { q with queue := q.queue ++ [s.msgs.length] }, msgs := s.msgs ++ [q.name] }
  | lose (name : N) : Eff byName s { s with lost := s.lost ++ [s.msgs.length], msgs := s.msgs ++ [name] }
  | recv (l i m : Nat) (x : Lease N) (q : Inst N) (rest : List Nat) (hx : s.leases[l]? = some x) (ho : x.phase = .opened i) (hq : s.insts[i]? = some q) (hm : q.queue = m :: rest) :
      Eff byName s { s with insts := s.insts.set i { q with queue := rest }, received := s.received ++ [(m, l)] }
  | expire (i : Nat) (q : Inst N) (hq : s.insts[i]? = some q) (hb : byName = true) (hu : unused s i = true) :
      Eff byName s { s with insts := s.insts.set i { q with present := false, queue := [] }, lost := s.lost ++ q.queue }

structure Inv (byName : Bool) (s : St N) : Prop where
  uniq : ∀ (i j : Nat) (p q : Inst N), s.insts[i]? = some p → s.insts[j]? = some q → p.present = true → q.present = true → p.name = q.name → i = j
  lease : ∀ (l i : Nat) (x : Lease N), s.leases[l]? = some x → x.phase = .declared i ∨ x.phase = .opened i → ∃ q, s.insts[i]? = some q ∧ q.name = x.id
  send : ∀ (k : Nat) (t : Sender N), s.senders[k]? = some t → ∃ q, s.insts[t.inst]? = some q ∧ q.name = t.name
  keys : ∀ (i m : Nat) (q : Inst N), s.insts[i]? = some q → m ∈ q.queue → s.msgs[m]? = some q.name
  recv : ∀ m l : Nat, (m, l) ∈ s.received → ∃ x, s.leases[l]? = some x ∧ s.msgs[m]? = some x.id
  count : ∀ m, (s.insts.flatMap Inst.queue).count m + (s.received.map Prod.fst).count m + s.lost.count m = if m < s.msgs.length then 1 else 0
  gone : byName = false → ∀ (i : Nat) (q : Inst N), s.insts[i]? = some q → q.present = false → ∃ (l : Nat) (x : Lease N), s.leases[l]? = some x ∧ x.id = q.name ∧ x.phase = .released
  opened : byName = true → Distinct s → ∀ (l i : Nat) (x : Lease N), s.leases[l]? = some x → x.phase = .opened i → ∃ q, s.insts[i]? = some q ∧ q.present = true

theorem inv_init : Inv byName (init : St N) := by
  constructor <;> simp [init]

omit [DecidableEq N] in
theorem distinct_eq (h : Distinct s) {l k : Nat} {x y : Lease N} (hx : s.leases[l]? = some x) (hy : s.leases[k]? = some y) (he : x.id = y.id) : l = k := by
  obtain ⟨h1, h2⟩ := List.getElem?_eq_some_iff.1 hx
  obtain ⟨h3, h4⟩ := List.getElem?_eq_some_iff.1 hy
  refine (List.getElem_inj (h₀ := by simpa using h1) (h₁ := by simpa using h3) h).1 ?_
  simp [h2, h4, he]

omit [DecidableEq N] in
theorem ids_set {leases : List (Lease N)} {l : Nat} {x : Lease N} (hx : leases[l]? = some x) (p : Phase) : (leases.set l { x with phase := p }).map Lease.id = leases.map Lease.id := by
  apply List.ext_getElem?
  intro j
  simp only [List.getElem?_map, List.getElem?_set]
  split
  · rename_i h; subst h
    obtain ⟨h1, h2⟩ := List.getElem?_eq_some_iff.1 hx
    simp [h1, h2]
  · rfl

theorem inv_eff (hi : Inv byName s) (he : Eff byName s s') : Inv byName s' := by
  cases he with
  | issue id =>
    refine ⟨hi.uniq, ?_, hi.send, hi.keys, ?_, hi.count, ?_, ?_⟩
    · intro l i x hx hp
      rcases getElem?_snoc hx with hx | ⟨-, rfl⟩
      · exact hi.lease l i x hx hp
      · simp at hp
    · intro m l hm
      obtain ⟨x, hx, h2⟩ := hi.recv m l hm
      exact ⟨x, by rw [List.getElem?_append_left (List.getElem?_eq_some_iff.1 hx).1]; exact hx, h2⟩
    · intro hb i q hq hp
      obtain ⟨l, x, hx, h2⟩ := hi.gone hb i q hq hp
      exact ⟨l, x, by rw [List.getElem?_append_left (List.getElem?_eq_some_iff.1 hx).1]; exact hx, h2⟩
    · intro hb hd l i x hx hp
      have hd' : Distinct s := by
        simp only [Distinct, List.map_append] at hd ⊢
        exact (List.nodup_append.1 hd).1
      rcases getElem?_snoc hx with hx | ⟨-, rfl⟩
      · exact hi.opened hb hd' l i x hx hp
      · simp at hp
  | phase l x p hx hr hp =>
    refine ⟨hi.uniq, ?_, hi.send, hi.keys, ?_, hi.count, ?_, ?_⟩
    · intro k i y hy hq
      rcases getElem?_set' hy with ⟨rfl, rfl⟩ | ⟨_, hy⟩
      · obtain ⟨q, h1, h2, -⟩ := hp i hq; exact ⟨q, h1, h2⟩
      · exact hi.lease k i y hy hq
    · intro m k hm
      obtain ⟨y, hy, h2⟩ := hi.recv m k hm
      by_cases hlk : l = k
      · subst hlk
        rw [hx] at hy; cases hy
        exact ⟨_, List.getElem?_set_self (List.getElem?_eq_some_iff.1 hx).1, h2⟩
      · exact ⟨y, by rw [List.getElem?_set_ne hlk]; exact hy, h2⟩
    · intro hb i q hq hg
      obtain ⟨k, y, hy, h2, h3⟩ := hi.gone hb i q hq hg
      have hlk : l ≠ k := by rintro rfl; rw [hx] at hy; cases hy; exact hr h3
      exact ⟨k, y, by rw [List.getElem?_set_ne hlk]; exact hy, h2, h3⟩
    · intro hb hd k i y hy hq
      have hd' : Distinct s := by simpa only [Distinct, ids_set hx] using hd
      rcases getElem?_set' hy with ⟨rfl, rfl⟩ | ⟨_, hy⟩
      · obtain ⟨q, h1, -, h2⟩ := hp i (.inr hq); exact ⟨q, h1, h2 hb⟩
      · exact hi.opened hb hd' k i y hy hq
  | new name hc =>
    have up : ∀ {i : Nat} {q : Inst N}, s.insts[i]? = some q → (s.insts ++ [⟨name, true, []⟩])[i]? = some q := fun h => by
      rw [List.getElem?_append_left (List.getElem?_eq_some_iff.1 h).1]; exact h
    refine ⟨?_, ?_, ?_, ?_, hi.recv, ?_, ?_, ?_⟩
    · intro i j p q hp hq h1 h2 h3
      rcases getElem?_snoc hp with hp | ⟨rfl, rfl⟩ <;> rcases getElem?_snoc hq with hq | ⟨rfl, rfl⟩
      · exact hi.uniq i j p q hp hq h1 h2 h3
      · exact absurd h3 (current_none hc (List.mem_of_getElem? hp) h1)
      · exact absurd h3.symm (current_none hc (List.mem_of_getElem? hq) h2)
      · rfl
    · intro l i x hx hp
      obtain ⟨q, h1, h2⟩ := hi.lease l i x hx hp; exact ⟨q, up h1, h2⟩
    · intro k t ht
      obtain ⟨q, h1, h2⟩ := hi.send k t ht; exact ⟨q, up h1, h2⟩
    · intro i m q hq hm
      rcases getElem?_snoc hq with hq | ⟨rfl, rfl⟩
      · exact hi.keys i m q hq hm
      · simp at hm
    · intro m; simpa using hi.count m
    · intro hb i q hq hg
      rcases getElem?_snoc hq with hq | ⟨rfl, rfl⟩
      · exact hi.gone hb i q hq hg
      · simp at hg
    · intro hb hd l i x hx hp
      obtain ⟨q, h1, h2⟩ := hi.opened hb hd l i x hx hp; exact ⟨q, up h1, h2⟩
  | sender name i q hq hn =>
    refine ⟨hi.uniq, hi.lease, ?_, hi.keys, hi.recv, hi.count, hi.gone, hi.opened⟩
    intro k t ht
    rcases getElem?_snoc ht with ht | ⟨rfl, rfl⟩
    · exact hi.send k t ht
    · exact ⟨q, hq, hn⟩
  | remove l i x q hx hd hq hn hp rest gone hk =>
    have up : ∀ {j : Nat} {p : Inst N}, s.insts[j]? = some p → ∃ p', (s.insts.set i { q with present := false, queue := rest })[j]? = some p' ∧ p'.name = p.name := fun {j p} h => by
      by_cases hij : i = j
      · subst hij; rw [hq] at h; cases h
        exact ⟨_, List.getElem?_set_self (List.getElem?_eq_some_iff.1 hq).1, rfl⟩
      · exact ⟨p, by rw [List.getElem?_set_ne hij]; exact h, rfl⟩
    refine ⟨?_, ?_, ?_, ?_, ?_, ?_, ?_, ?_⟩
    · intro a b p r ha hb h1 h2 h3
      rcases getElem?_set' ha with ⟨rfl, rfl⟩ | ⟨_, ha⟩
      · simp at h1
      · rcases getElem?_set' hb with ⟨rfl, rfl⟩ | ⟨_, hb⟩
        · simp at h2
        · exact hi.uniq a b p r ha hb h1 h2 h3
    · intro k j y hy hph
      rcases getElem?_set' hy with ⟨rfl, rfl⟩ | ⟨_, hy⟩
      · simp at hph
      · obtain ⟨p, h1, h2⟩ := hi.lease k j y hy hph
        obtain ⟨p', h3, h4⟩ := up h1
        exact ⟨p', h3, h4.trans h2⟩
    · intro k t ht
      obtain ⟨p, h1, h2⟩ := hi.send k t ht
      obtain ⟨p', h3, h4⟩ := up h1
      exact ⟨p', h3, h4.trans h2⟩
    · intro j m p hp hm
      rcases getElem?_set' hp with ⟨rfl, rfl⟩ | ⟨_, hp⟩
      · exact hi.keys i m q hq (by rw [hk]; simp only at hm; simp [hm])
      · exact hi.keys j m p hp hm
    · intro m k hm
      obtain ⟨y, hy, h2⟩ := hi.recv m k hm
      by_cases hlk : l = k
      · subst hlk
        rw [hx] at hy; cases hy
        exact ⟨_, List.getElem?_set_self (List.getElem?_eq_some_iff.1 hx).1, h2⟩
      · exact ⟨y, by rw [List.getElem?_set_ne hlk]; exact hy, h2⟩
    · intro m
      have h1 := hi.count m
      have h2 := count_set (f := Inst.queue) { q with present := false, queue := rest } hq m
      simp only [hk, List.count_append] at h2 ⊢
      omega
    · intro hb j p hp hg
      rcases getElem?_set' hp with ⟨rfl, rfl⟩ | ⟨_, hp⟩
      · exact ⟨l, _, List.getElem?_set_self (List.getElem?_eq_some_iff.1 hx).1, hn.symm, rfl⟩
      · obtain ⟨k, y, hy, h2, h3⟩ := hi.gone hb j p hp hg
        have hlk : l ≠ k := by rintro rfl; rw [hx] at hy; cases hy; rw [hd] at h3; cases h3
        exact ⟨k, y, by rw [List.getElem?_set_ne hlk]; exact hy, h2, h3⟩
    · intro hb hdi k j y hy hph
      have hd' : Distinct s := by simpa only [Distinct, ids_set hx] using hdi
      rcases getElem?_set' hy with ⟨rfl, rfl⟩ | ⟨hne, hy⟩
      · simp at hph
      · obtain ⟨p, h1, h2⟩ := hi.opened hb hd' k j y hy hph
        by_cases hij : i = j
        · subst hij
          obtain ⟨p', h3, h4⟩ := hi.lease k i y hy (.inr hph)
          rw [hq] at h3; cases h3
          exact absurd (distinct_eq hd' hx hy (hn.symm.trans h4)) hne
        · exact ⟨p, by rw [List.getElem?_set_ne hij]; exact h1, h2⟩
  | publish i q hq =>
    have up : ∀ {j : Nat} {p : Inst N}, s.insts[j]? = some p → ∃ p', (s.insts.set i { q with queue := q.queue ++ [s.msgs.length] })[j]? = some p' ∧ p'.name = p.name ∧ p'.present = p.present := fun {j p} h => by
      by_cases hij : i = j
      · subst hij; rw [hq] at h; cases h
        exact ⟨_, List.getElem?_set_self (List.getElem?_eq_some_iff.1 hq).1, rfl, rfl⟩
      · exact ⟨p, by rw [List.getElem?_set_ne hij]; exact h, rfl, rfl⟩
    have down : ∀ {j : Nat} {p : Inst N}, (s.insts.set i { q with queue := q.queue ++ [s.msgs.length] })[j]? = some p → ∃ p', s.insts[j]? = some p' ∧ p'.name = p.name ∧ p'.present = p.present := fun {j p} h => by
      rcases getElem?_set' h with ⟨rfl, rfl⟩ | ⟨_, h⟩
      · exact ⟨q, hq, rfl, rfl⟩
      · exact ⟨p, h, rfl, rfl⟩
    have old : ∀ {m : Nat} {n : N}, s.msgs[m]? = some n → (s.msgs ++ [q.name])[m]? = some n := fun h => by
      rw [List.getElem?_append_left (List.getElem?_eq_some_iff.1 h).1]; exact h
    refine ⟨?_, ?_, ?_, ?_, ?_, ?_, ?_, ?_⟩
    · intro a b p r ha hb h1 h2 h3
      obtain ⟨p', e1, e2, e3⟩ := down ha
      obtain ⟨r', f1, f2, f3⟩ := down hb
      exact hi.uniq a b p' r' e1 f1 (e3.trans h1) (f3.trans h2) (e2.trans (h3.trans f2.symm))
    · intro k j y hy hph
      obtain ⟨p, h1, h2⟩ := hi.lease k j y hy hph
      obtain ⟨p', h3, h4, -⟩ := up h1
      exact ⟨p', h3, h4.trans h2⟩
    · intro k t ht
      obtain ⟨p, h1, h2⟩ := hi.send k t ht
      obtain ⟨p', h3, h4, -⟩ := up h1
      exact ⟨p', h3, h4.trans h2⟩
    · intro j m p hp hm
      rcases getElem?_set' hp with ⟨rfl, rfl⟩ | ⟨_, hp⟩
      · simp only [List.mem_append, List.mem_singleton] at hm
        rcases hm with hm | rfl
        · exact old (hi.keys i m q hq hm)
        · simp
      · exact old (hi.keys j m p hp hm)
    · intro m k hm
      obtain ⟨y, hy, h2⟩ := hi.recv m k hm
      exact ⟨y, hy, old h2⟩
    · intro m
      have h1 := hi.count m
      have h2 := count_set (f := Inst.queue) { q with queue := q.queue ++ [s.msgs.length] } hq m
      simp only [List.count_append, List.count_singleton, List.length_append, List.length_cons, List.length_nil, beq_iff_eq] at h2 ⊢
      split at h1 <;> split at h2 <;> split <;> omega
    · intro hb j p hp hg
      obtain ⟨p', e1, e2, e3⟩ := down hp
      obtain ⟨k, y, hy, h2, h3⟩ := hi.gone hb j p' e1 (e3.trans hg)
      exact ⟨k, y, hy, h2.trans e2, h3⟩
    · intro hb hd k j y hy hph
      obtain ⟨p, h1, h2⟩ := hi.opened hb hd k j y hy hph
      obtain ⟨p', h3, -, h4⟩ := up h1
      exact ⟨p', h3, h4.trans h2⟩
  | lose name =>
    have old : ∀ {m : Nat} {n : N}, s.msgs[m]? = some n → (s.msgs ++ [name])[m]? = some n := fun h => by
      rw [List.getElem?_append_left (List.getElem?_eq_some_iff.1 h).1]; exact h
    refine ⟨hi.uniq, hi.lease, hi.send, fun i m q hq hm => old (hi.keys i m q hq hm), ?_, ?_, hi.gone, hi.opened⟩
    · intro m k hm
      obtain ⟨y, hy, h2⟩ := hi.recv m k hm
      exact ⟨y, hy, old h2⟩
    · intro m
      have h1 := hi.count m
      simp only [List.count_append, List.count_singleton, List.length_append, List.length_cons, List.length_nil, beq_iff_eq]
      split at h1 <;> split <;> split <;> omega
  | recv l i m x q rest hx ho hq hm =>
    have up : ∀ {j : Nat} {p : Inst N}, s.insts[j]? = some p → ∃ p', (s.insts.set i { q with queue := rest })[j]? = some p' ∧ p'.name = p.name ∧ p'.present = p.present := fun {j p} h => by
      by_cases hij : i = j
      · subst hij; rw [hq] at h; cases h
        exact ⟨_, List.getElem?_set_self (List.getElem?_eq_some_iff.1 hq).1, rfl, rfl⟩
      · exact ⟨p, by rw [List.getElem?_set_ne hij]; exact h, rfl, rfl⟩
    have down : ∀ {j : Nat} {p : Inst N}, (s.insts.set i { q with queue := rest })[j]? = some p → ∃ p', s.insts[j]? = some p' ∧ p'.name = p.name ∧ p'.present = p.present := fun {j p} h => by
      rcases getElem?_set' h with ⟨rfl, rfl⟩ | ⟨_, h⟩
      · exact ⟨q, hq, rfl, rfl⟩
      · exact ⟨p, h, rfl, rfl⟩
    refine ⟨?_, ?_, ?_, ?_, ?_, ?_, ?_, ?_⟩
    · intro a b p r ha hb h1 h2 h3
      obtain ⟨p', e1, e2, e3⟩ := down ha
      obtain ⟨r', f1, f2, f3⟩ := down hb
      exact hi.uniq a b p' r' e1 f1 (e3.trans h1) (f3.trans h2) (e2.trans (h3.trans f2.symm))
    · intro k j y hy hph
      obtain ⟨p, h1, h2⟩ := hi.lease k j y hy hph
      obtain ⟨p', h3, h4, -⟩ := up h1
      exact ⟨p', h3, h4.trans h2⟩
    · intro k t ht
      obtain ⟨p, h1, h2⟩ := hi.send k t ht
      obtain ⟨p', h3, h4, -⟩ := up h1
      exact ⟨p', h3, h4.trans h2⟩
    · intro j m' p hp hm'
      rcases getElem?_set' hp with ⟨rfl, rfl⟩ | ⟨_, hp⟩
      · exact hi.keys i m' q hq (by rw [hm]; exact List.mem_cons_of_mem _ hm')
      · exact hi.keys j m' p hp hm'
    · intro m' k hm'
      simp only [List.mem_append, List.mem_singleton, Prod.mk.injEq] at hm'
      rcases hm' with hm' | ⟨rfl, rfl⟩
      · exact hi.recv m' k hm'
      · obtain ⟨p, h1, h2⟩ := hi.lease k i x hx (.inr ho)
        rw [hq] at h1; cases h1
        exact ⟨x, hx, h2 ▸ hi.keys i m' q hq (by rw [hm]; exact List.mem_cons_self)⟩
    · intro m'
      have h1 := hi.count m'
      have h2 := count_set (f := Inst.queue) { q with queue := rest } hq m'
      simp only [hm, List.count_append, List.count_cons, List.map_append, List.map_cons, List.map_nil, List.count_nil] at h2 ⊢
      omega
    · intro hb j p hp hg
      obtain ⟨p', e1, e2, e3⟩ := down hp
      obtain ⟨k, y, hy, h2, h3⟩ := hi.gone hb j p' e1 (e3.trans hg)
      exact ⟨k, y, hy, h2.trans e2, h3⟩
    · intro hb hd k j y hy hph
      obtain ⟨p, h1, h2⟩ := hi.opened hb hd k j y hy hph
      obtain ⟨p', h3, -, h4⟩ := up h1
      exact ⟨p', h3, h4.trans h2⟩
  | expire i q hq hb hu =>
    have up : ∀ {j : Nat} {p : Inst N}, s.insts[j]? = some p → ∃ p', (s.insts.set i { q with present := false, queue := [] })[j]? = some p' ∧ p'.name = p.name := fun {j p} h => by
      by_cases hij : i = j
      · subst hij; rw [hq] at h; cases h
        exact ⟨_, List.getElem?_set_self (List.getElem?_eq_some_iff.1 hq).1, rfl⟩
      · exact ⟨p, by rw [List.getElem?_set_ne hij]; exact h, rfl⟩
    refine ⟨?_, ?_, ?_, ?_, hi.recv, ?_, ?_, ?_⟩
    · intro a b p r ha hb h1 h2 h3
      rcases getElem?_set' ha with ⟨rfl, rfl⟩ | ⟨_, ha⟩
      · simp at h1
      · rcases getElem?_set' hb with ⟨rfl, rfl⟩ | ⟨_, hb⟩
        · simp at h2
        · exact hi.uniq a b p r ha hb h1 h2 h3
    · intro k j y hy hph
      obtain ⟨p, h1, h2⟩ := hi.lease k j y hy hph
      obtain ⟨p', h3, h4⟩ := up h1
      exact ⟨p', h3, h4.trans h2⟩
    · intro k t ht
      obtain ⟨p, h1, h2⟩ := hi.send k t ht
      obtain ⟨p', h3, h4⟩ := up h1
      exact ⟨p', h3, h4.trans h2⟩
    · intro j m p hp hm
      rcases getElem?_set' hp with ⟨rfl, rfl⟩ | ⟨_, hp⟩
      · simp at hm
      · exact hi.keys j m p hp hm
    · intro m
      have h1 := hi.count m
      have h2 := count_set (f := Inst.queue) { q with present := false, queue := [] } hq m
      simp only [List.count_append, List.count_nil] at h2 ⊢
      omega
    · intro hb'; rw [hb] at hb'; cases hb'
    · intro hb hd k j y hy hph
      obtain ⟨p, h1, h2⟩ := hi.opened hb hd k j y hy hph
      have hij : i ≠ j := by
        rintro rfl
        have := List.all_eq_true.1 hu y (List.mem_of_getElem? hy)
        simp [hph] at this
      exact ⟨p, by rw [List.getElem?_set_ne hij]; exact h1, h2⟩

theorem setPhase_eq {l : Nat} {x : Lease N} {p : Phase} (hx : s.leases[l]? = some x) : setPhase s l p = { s with leases := s.leases.set l { x with phase := p } } := by
  simp [setPhase, hx]

/-- Declaring leaves everything but the queues alone, and gives a queue with the name. -/
theorem declare_cases (name : N) : (∃ i q, declareQueue s name = (s, i) ∧ s.insts[i]? = some q ∧ q.present = true ∧ q.name = name) ∨
    (current s name = none ∧ declareQueue s name = ({ s with insts := s.insts ++ [⟨name, true, []⟩] }, s.insts.length)) := by
  unfold declareQueue
  split
  · rename_i i h
    obtain ⟨q, h1, h2, h3⟩ := current_some h
    exact .inl ⟨i, q, rfl, h1, h2, h3⟩
  · rename_i h; exact .inr ⟨h, rfl⟩

theorem eff_of_step (hi : Inv byName s) {l : Label N} (h : step byName s l = some s') : Eff byName s s' ∨ ∃ s1, Eff byName s s1 ∧ Eff byName s1 s' := by
  cases l with
  | issue id => simp only [step, Option.some.injEq] at h; subst h; exact .inl (.issue id)
  | declare l =>
    simp only [step] at h
    split at h <;> try simp only [reduceCtorEq] at h
    rename_i id hx
    simp only [Option.some.injEq] at h; subst h
    rcases declare_cases (s := s) id with ⟨i, q, he, h1, h2, h3⟩ | ⟨hc, he⟩
    · rw [he]; simp only
      rw [setPhase_eq hx]
      refine .inl (.phase l _ _ hx (by simp) ?_)
      intro j hj
      simp only [Phase.declared.injEq, reduceCtorEq, or_false] at hj
      subst hj; exact ⟨q, h1, h3, fun _ => h2⟩
    · rw [he]; simp only
      refine .inr ⟨_, .new id hc, ?_⟩
      rw [setPhase_eq (s := { s with insts := s.insts ++ [⟨id, true, []⟩] }) hx]
      refine .phase (s := { s with insts := s.insts ++ [⟨id, true, []⟩] }) l _ _ hx (by simp) ?_
      intro j hj
      simp only [Phase.declared.injEq, reduceCtorEq, or_false] at hj
      subst hj; exact ⟨⟨id, true, []⟩, by simp, rfl, fun _ => rfl⟩
  | consume l =>
    simp only [step] at h
    split at h <;> try simp only [reduceCtorEq] at h
    rename_i id i hx
    split at h
    · split at h
      · rename_i j hc
        simp only [Option.some.injEq] at h; subst h
        obtain ⟨q, h1, h2, h3⟩ := current_some hc
        rw [setPhase_eq hx]
        refine .inl (.phase l _ _ hx (by simp) ?_)
        intro j' hj
        simp only [Phase.opened.injEq, reduceCtorEq, false_or] at hj
        subst hj; exact ⟨q, h1, h3, fun _ => h2⟩
      · simp only [Option.some.injEq] at h; subst h
        rw [setPhase_eq hx]
        exact .inl (.phase l _ _ hx (by simp) (by simp))
    · rename_i hb
      simp only [Option.some.injEq] at h; subst h
      rw [setPhase_eq hx]
      refine .inl (.phase l _ _ hx (by simp) ?_)
      intro j' hj
      simp only [Phase.opened.injEq, reduceCtorEq, false_or] at hj
      subst hj
      obtain ⟨q, h1, h2⟩ := hi.lease l i _ hx (.inl rfl)
      exact ⟨q, h1, h2, fun h => absurd h hb⟩
  | fail l =>
    simp only [step] at h
    split at h <;> (try simp only [reduceCtorEq] at h) <;>
    · rename_i hx
      simp only [Option.some.injEq] at h; subst h
      rw [setPhase_eq hx]
      exact .inl (.phase l _ _ hx (by simp) (by simp))
  | drop l =>
    simp only [step] at h
    split at h <;> try simp only [reduceCtorEq] at h
    rename_i hx
    simp only [Option.some.injEq] at h; subst h
    rw [setPhase_eq hx]
    exact .inl (.phase l _ _ hx (by simp) (by simp))
  | release l =>
    simp only [step] at h
    split at h <;> try simp only [reduceCtorEq] at h
    rename_i id hx
    simp only [Option.some.injEq] at h; subst h
    unfold deleteQueue
    split
    · rename_i i hc
      obtain ⟨q, h1, h2, h3⟩ := current_some hc
      simp only [h1]
      split
      · rename_i hb
        have := Eff.remove (byName := byName) (s := s) l i _ q hx rfl h1 h3 h2 [] q.queue (by simp)
        left
        rw [setPhase_eq (s := { s with insts := s.insts.set i { q with present := false, queue := [] }, lost := s.lost ++ q.queue }) hx]
        exact this
      · have := Eff.remove (byName := byName) (s := s) l i _ q hx rfl h1 h3 h2 q.queue [] (by simp)
        left
        rw [setPhase_eq (s := { s with insts := s.insts.set i { q with present := false } }) hx]
        simpa using this
    · rw [setPhase_eq hx]
      exact .inl (.phase l _ _ hx (by simp) (by simp))
  | giveUp l =>
    simp only [step] at h
    split at h <;> try simp only [reduceCtorEq] at h
    rename_i hx
    simp only [Option.some.injEq] at h; subst h
    rw [setPhase_eq hx]
    exact .inl (.phase l _ _ hx (by simp) (by simp))
  | sender name =>
    simp only [step, Option.some.injEq] at h; subst h
    rcases declare_cases (s := s) name with ⟨i, q, he, h1, h2, h3⟩ | ⟨hc, he⟩
    · rw [he]; exact .inl (.sender name i q h1 h3)
    · rw [he]; refine .inr ⟨_, .new name hc, ?_⟩
      exact .sender (s := { s with insts := s.insts ++ [⟨name, true, []⟩] }) name s.insts.length ⟨name, true, []⟩ (by simp) rfl
  | publish k =>
    simp only [step] at h
    split at h <;> try simp only [reduceCtorEq] at h
    rename_i name i ht
    split at h
    · rename_i j hj
      split at h <;> try simp only [reduceCtorEq] at h
      rename_i q hq
      simp only [Option.some.injEq] at h; subst h
      have hn : q.name = name := by
        split at hj
        · obtain ⟨p, h1, -, h3⟩ := current_some hj
          rw [hq] at h1; cases h1; exact h3
        · cases hj
          obtain ⟨p, h1, h2⟩ := hi.send k _ ht
          rw [hq] at h1; cases h1; exact h2
      rw [← hn]
      exact .inl (.publish j q hq)
    · simp only [Option.some.injEq] at h; subst h; exact .inl (.lose name)
  | recv l =>
    simp only [step] at h
    split at h <;> try simp only [reduceCtorEq] at h
    rename_i id i hx
    split at h <;> try simp only [reduceCtorEq] at h
    rename_i name present m rest hq
    split at h <;> try simp only [reduceCtorEq] at h
    simp only [Option.some.injEq] at h; subst h
    exact .inl (.recv l i m _ _ rest hx rfl hq rfl)
  | expire i =>
    simp only [step] at h
    split at h <;> try simp only [reduceCtorEq] at h
    rename_i name queue hq
    split at h <;> try simp only [reduceCtorEq] at h
    rename_i hb
    simp only [Bool.and_eq_true] at hb
    simp only [Option.some.injEq] at h; subst h
    exact .inl (.expire i _ hq hb.1 hb.2)

theorem inv_step (hi : Inv byName s) {l : Label N} (h : step byName s l = some s') : Inv byName s' := by
  rcases eff_of_step hi h with he | ⟨s1, h1, h2⟩
  · exact inv_eff hi he
  · exact inv_eff (inv_eff hi h1) h2

theorem inv_run (h : run byName init ls = some s) : Inv byName s := Lts.run_inv inv_init (fun _ _ _ hi h => inv_step hi h) h

end Chan
end Paladin
