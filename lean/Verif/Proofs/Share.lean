import Verif.Spec.Share
import Verif.Proofs.SystemAmqpLive
import Verif.Props.Amqp
/-! # Who gets a task: proofs -/
namespace Paladin
namespace SystemAmqp
open Retry Paladin.System

section
variable {κ : Type} {σ ℓ : κ → Type} {T O ε χ ω : Type} [DecidableEq κ] {cl : (j : κ) → Client (σ j) (ℓ j) T (Except ε O)} {listens : (j : κ) → σ j → Bool} {nt : Net κ} {cfg : Worker.Cfg κ}
  {exec : ω → T → Except (OpError χ) O} {text : OpError χ → ε} {s s' : St κ σ T O ε χ}

/-! ## What a worker holds -/

/-- The worker's own task, and nothing else, is what it holds. -/
structure Grasp (s : St κ σ T O ε χ) : Prop where
  has : ∀ w, holdsTask (s.worker w).pc = true → ∃ m, s.cur w = some m ∧ Holds s w m
  only : ∀ w m, Holds s w m → s.cur w = some m ∧ (holdsTask (s.worker w).pc = true ∨ leaving (s.worker w).pc = true)

theorem grasp_init : Grasp (init cl : St κ σ T O ε χ) := by
  constructor
  · intro w h; simp [init, Worker.init, holdsTask] at h
  · rintro w m ⟨k, c, h, -⟩; simp [init] at h

theorem effect_settles {w : Nat} {l : Worker.Label κ O χ} {n : Broker κ T O ε} (h : effect nt text s w l = some n) :
    (settles l = true ∧ ∃ k m, s.ties.lookup (.worker w) = some k ∧ s.cur w = some m ∧ Settles k m s.net n) ∨ (settles l = false ∧ n.consumers = s.net.consumers) := by
  unfold effect at h
  split at h
  · split at h
    · rename_i k m hk hm; exact .inl ⟨rfl, k, m, hk, hm, settles_ack h⟩
    · cases h
  all_goals first
    | (split at h
       · rename_i k m hk hm
         exact .inl ⟨rfl, k, m, hk, hm, settles_nack h⟩
       · cases h)
    | skip
  · exact .inr ⟨rfl, (publish_posts h).2.consumers⟩
  · exact .inr ⟨rfl, (publish_posts h).2.consumers⟩
  · rename_i h1 h2 h3 h4 h5 h6
    simp only [Option.some.injEq] at h
    subst h
    refine .inr ⟨?_, rfl⟩
    unfold settles
    split <;> first | rfl | exact absurd rfl h1 | exact absurd rfl h2 | exact absurd rfl h3 | exact absurd rfl h4

/-- What steps other than receiving do to a worker that holds a task, or does not. -/
theorem hold_step {v v' : Worker.St κ O χ} {l : Worker.Label κ O χ} (h : Worker.step cfg v l = some v') (hl : ∀ k, l ≠ .deliver k) :
    (holdsTask v'.pc = true → holdsTask v.pc = true ∧ settles l = false) ∧
      (settles l = false → holdsTask v.pc = true ∨ leaving v.pc = true → holdsTask v'.pc = true ∨ leaving v'.pc = true) ∧ (leaving v.pc = true → leaving v'.pc = true) := by
  cases l with
  | deliver k => exact absurd rfl (hl k)
  | _ =>
    simp only [Worker.step] at h
    (repeat' split at h) <;> simp only [Option.some.injEq, reduceCtorEq] at h <;> subst h <;> simp_all [holdsTask, leaving, settles]

theorem holds_settles (hw : Wired nt s) {w k m : Nat} {n : Broker κ T O ε} (hk : s.ties.lookup (.worker w) = some k) (hst : Settles k m s.net n) (w' x : Nat) :
    Holds { s with net := n } w' x ↔ Holds s w' x ∧ ¬ (w' = w ∧ x = m) := by
  obtain ⟨c, h1, h2, h3, h4⟩ := hst.ex
  constructor
  · rintro ⟨k', c', hk', hc', hm'⟩
    simp only [h4] at hc'
    rcases Amqp.getElem?_set' hc' with ⟨rfl, rfl⟩ | ⟨hne, hc2⟩
    · have := (held_erase hw.sound h1 h3 h2).1 hm'
      exact ⟨⟨k, c, hk', h1, this.1⟩, fun h => this.2 h.2⟩
    · refine ⟨⟨k', c', hk', hc2, hm'⟩, ?_⟩
      rintro ⟨rfl, rfl⟩
      simp only [hk, Option.some.injEq] at hk'
      exact hne hk'
  · rintro ⟨⟨k', c', hk', hc', hm'⟩, hne⟩
    by_cases hkk : k' = k
    · subst hkk
      have hww : w' = w := by have := hw.inj _ _ _ hk hk'; simpa using this.symm
      rw [h1] at hc'; cases hc'
      refine ⟨k', { c with held := c.held.erase m, unacked := c.unacked.erase m }, hk', ?_, (held_erase hw.sound h1 h3 h2).2 ⟨hm', fun h => hne ⟨hww, h⟩⟩⟩
      simp only [h4]
      rw [List.getElem?_set_self (by rw [List.getElem?_eq_some_iff] at h1; exact h1.1)]
    · refine ⟨k', c', hk', ?_, hm'⟩
      simp only [h4]
      rw [List.getElem?_set_ne (Ne.symm hkk)]
      exact hc'

/-- Workers hold what they held. -/
theorem Grasp.same (hg : Grasp s) (hh : ∀ w m, Holds s' w m ↔ Holds s w m) (hcu : s'.cur = s.cur) (hwk : s'.worker = s.worker) : Grasp s' := by
  constructor
  · intro w h; rw [hwk] at h
    obtain ⟨m, h1, h2⟩ := hg.has w h
    exact ⟨m, by rw [hcu]; exact h1, (hh w m).2 h2⟩
  · intro w m h
    rw [hcu, hwk]
    exact hg.only w m ((hh w m).1 h)

theorem holds_same (ht : s'.ties = s.ties) (hc : s'.net.consumers = s.net.consumers) (w m : Nat) : Holds s' w m ↔ Holds s w m := by
  unfold Holds; rw [ht, hc]

/-- A worker takes a step that leaves what is held as it is. -/
theorem Grasp.work (hg : Grasp s) {w : Nat} {v : Worker.St κ O χ} {l : Worker.Label κ O χ} (hv : Worker.step cfg (s.worker w) l = some v) (hl : ∀ k, l ≠ .deliver k) (hs : settles l = false)
    {n : Broker κ T O ε} (hc : n.consumers = s.net.consumers) : Grasp { s with worker := Function.update s.worker w v, net := n } := by
  obtain ⟨f1, f2, -⟩ := hold_step hv hl
  have hh : ∀ w' m, Holds { s with worker := Function.update s.worker w v, net := n } w' m ↔ Holds s w' m := fun w' m => holds_same (s := s) (s' := { s with worker := Function.update s.worker w v, net := n }) rfl hc w' m
  constructor
  · intro w' h
    have : holdsTask (s.worker w').pc = true := by
      by_cases he : w' = w
      · subst he; simp only [Function.update_self] at h; exact (f1 h).1
      · simpa only [Function.update_of_ne he] using h
    obtain ⟨m, h1, h2⟩ := hg.has w' this
    exact ⟨m, h1, (hh w' m).2 h2⟩
  · intro w' m h
    obtain ⟨h1, h2⟩ := hg.only w' m ((hh w' m).1 h)
    refine ⟨h1, ?_⟩
    by_cases he : w' = w
    · subst he; simp only [Function.update_self]; exact f2 hs h2
    · simpa only [Function.update_of_ne he] using h2

theorem grasp_step {l : Label κ ℓ T O ε χ ω} (hw : Wired nt s) (hg : Grasp s) (h : step cl listens nt cfg exec text s l = some s') : Grasp s' := by
  cases l with
  | lead j l =>
    simp only [step] at h
    split at h
    · split at h <;> simp only [Option.some.injEq, reduceCtorEq] at h
      rename_i n hn
      subst h
      exact hg.same (holds_same rfl (publishAll_posts hn).consumers) rfl rfl
    · cases h
  | recv j l =>
    simp only [step] at h
    split at h
    · rename_i m r n hnx
      split at h
      · split at h <;> simp only [Option.some.injEq, reduceCtorEq] at h
        rename_i n' hn
        subst h
        obtain ⟨k, c, g, rest, h1, h2, h3, h4, h5, h6, h7, h8⟩ := next_spec hnx
        have hp := holds_poll (n := n') hw (m := m) (c' := { c with buffer := rest, held := c.held ++ [m], parked := true, woken := false }) h1 h2 rfl
          ((publishAll_posts hn).consumers.trans (by rw [h8]))
        refine hg.same (fun w x => ?_) rfl rfl
        have := hp w x
        simp only [reduceCtorEq, false_and, or_false] at this
        exact this
      · cases h
    · cases h
  | sleep o =>
    simp only [step] at h
    split at h
    · rename_i k c hco
      obtain ⟨h1, h2⟩ := consumer_spec.1 hco
      split at h
      · rename_i hcond
        simp only [Option.map_eq_some_iff] at h
        obtain ⟨n, hn, rfl⟩ := h
        simp only [Bool.and_eq_true, List.isEmpty_iff] at hcond
        simp only [Amqp.step, h2, hcond.2, Option.some.injEq] at hn
        subst hn
        refine hg.same (fun w x => ?_) rfl rfl
        unfold Holds
        dsimp only
        constructor
        · rintro ⟨k', d, e1, e2, e3⟩
          rcases Amqp.getElem?_set' e2 with ⟨rfl, rfl⟩ | ⟨hne, e4⟩
          · exact ⟨k, c, e1, h2, e3⟩
          · exact ⟨k', d, e1, e4, e3⟩
        · rintro ⟨k', d, e1, e2, e3⟩
          by_cases hk : k = k'
          · subst hk
            rw [h2] at e2; cases e2
            exact ⟨k, _, e1, List.getElem?_set_self (List.getElem?_eq_some_iff.1 h2).1, e3⟩
          · exact ⟨k', d, e1, by rw [List.getElem?_set_ne hk]; exact e2, e3⟩
      · cases h
    · cases h
  | ackRes j =>
    simp only [step] at h
    split at h
    · rename_i k c hco
      obtain ⟨h1, h2⟩ := consumer_spec.1 hco
      split at h
      · cases h
      · simp only [Option.map_eq_some_iff] at h
        obtain ⟨n, hn, rfl⟩ := h
        obtain ⟨d, e1, e2, e3, e4⟩ := (settles_ack hn).ex
        refine hg.same (fun w x => ?_) rfl rfl
        have hne : ∀ k', s.ties.lookup (.worker w) = some k' → k ≠ k' := by
          rintro k' hk' rfl
          have := hw.inj _ _ _ h1 hk'
          cases this
        unfold Holds
        dsimp only
        constructor
        · rintro ⟨k', d', f1, f2, f3⟩
          rw [e4, List.getElem?_set_ne (hne k' f1)] at f2
          exact ⟨k', d', f1, f2, f3⟩
        · rintro ⟨k', d', f1, f2, f3⟩
          exact ⟨k', d', f1, by rw [e4, List.getElem?_set_ne (hne k' f1)]; exact f2, f3⟩
    · cases h
  | deliver w =>
    simp only [step] at h
    split at h
    · rename_i m t n hnx
      split at h <;> simp only [Option.some.injEq, reduceCtorEq] at h
      rename_i v hv
      subst h
      obtain ⟨k, c, g, rest, h1, h2, h3, h4, h5, h6, h7, h8⟩ := next_spec hnx
      have hp := holds_poll (n := n) hw (m := m) (c' := { c with buffer := rest, held := c.held ++ [m], parked := true, woken := false }) h1 h2 rfl (by rw [h8])
      have hpc : (s.worker w).pc = .waiting ∧ v.pc = .got (s.worker w).next t.key := by
        simp only [Worker.step] at hv
        split at hv <;> simp only [Option.some.injEq, reduceCtorEq] at hv
        rename_i hpc
        subst hv
        exact ⟨hpc, rfl⟩
      have hnone : ∀ x, ¬ Holds s w x := by
        intro x hx
        have := (hg.only w x hx).2
        simp [hpc.1, holdsTask, leaving] at this
      constructor
      · intro w' hb
        by_cases he : w' = w
        · subst he
          exact ⟨m, by simp, (hp w' m).2 (.inr ⟨rfl, rfl⟩)⟩
        · simp only [Function.update_of_ne he] at hb ⊢
          obtain ⟨x, e1, e2⟩ := hg.has w' hb
          exact ⟨x, e1, (hp w' x).2 (.inl e2)⟩
      · intro w' x hx
        rcases (hp w' x).1 hx with hx1 | ⟨he, rfl⟩
        · have hx2 : Holds s w' x := hx1
          have he : w' ≠ w := by rintro rfl; exact hnone x hx2
          simp only [Function.update_of_ne he]
          exact hg.only w' x hx2
        · cases he
          simp [hpc.2, holdsTask]
    · cases h
  | finish w x =>
    simp only [step] at h
    split at h
    · split at h <;> simp only [Option.some.injEq, reduceCtorEq] at h
      rename_i v hv
      subst h
      exact hg.work (n := s.net) hv (by simp) rfl rfl
    · cases h
  | work w l =>
    simp only [step] at h
    split at h
    · cases h
    · cases h
    · rename_i hd _
      split at h <;> simp only [Option.some.injEq, reduceCtorEq] at h
      rename_i v n hv he
      subst h
      rcases effect_settles he with ⟨hs, k, m, h1, h2, h3⟩ | ⟨hs, hc⟩
      · have hh := holds_settles hw h1 h3
        obtain ⟨f1, -, -⟩ := hold_step hv hd
        constructor
        · intro w' hb
          by_cases heq : w' = w
          · subst heq
            simp only [Function.update_self] at hb
            have := (f1 hb).2
            rw [hs] at this; cases this
          · simp only [Function.update_of_ne heq] at hb
            obtain ⟨x, e1, e2⟩ := hg.has w' hb
            exact ⟨x, e1, (hh w' x).2 ⟨e2, fun h => heq h.1⟩⟩
        · intro w' x hx
          obtain ⟨e1, e2⟩ := (hh w' x).1 hx
          obtain ⟨e3, e4⟩ := hg.only w' x e1
          have heq : w' ≠ w := by
            rintro rfl
            rw [h2] at e3; cases e3
            exact e2 ⟨rfl, rfl⟩
          simp only [Function.update_of_ne heq]
          exact ⟨e3, e4⟩
      · exact hg.work hv hd hs hc
  | attach o k =>
    simp only [step] at h
    split at h
    · rename_i c hc
      split at h <;> simp only [Option.some.injEq, reduceCtorEq] at h
      rename_i hcond
      subst h
      refine hg.same (fun w x => ?_) rfl rfl
      unfold Holds
      constructor
      · rintro ⟨k', d, e1, e2, e3⟩
        dsimp only at e1 e2
        rw [List.lookup_append] at e1
        cases hl : s.ties.lookup (Owner.worker w) with
        | some k0 =>
          rw [hl] at e1
          simp only [Option.some_or, Option.some.injEq] at e1
          subst e1
          exact ⟨k0, d, rfl, e2, e3⟩
        | none =>
          rw [hl, Option.none_or] at e1
          have hk : k' = k := by
            simp only [List.lookup_cons, List.lookup_nil] at e1
            split at e1 <;> simp_all
          subst hk
          obtain ⟨o', ho'⟩ := hw.held k' d e2 (List.ne_nil_of_mem e3)
          exact absurd (List.mem_map.2 ⟨(o', k'), by
            have := List.lookup_eq_some_iff.1 ho'
            obtain ⟨l1, l2, e, -⟩ := this
            rw [e]; simp, rfl⟩) hcond.2.1
      · rintro ⟨k', d, e1, e2, e3⟩
        exact ⟨k', d, by simp only [List.lookup_append, e1, Option.some_or], e2, e3⟩
    · cases h
  | net l =>
    simp only [step] at h
    split at h
    · rename_i ho
      simp only [Option.map_eq_some_iff] at h
      obtain ⟨n, hn, rfl⟩ := h
      exact hg.same (fun w x => holds_quiet (s' := { s with net := n }) rfl (others_quiet hw ho hn).1 hw) rfl rfl
    · cases h

theorem grasp_run {ls : List (Label κ ℓ T O ε χ ω)} (h : run cl listens nt cfg exec text (init cl) ls = some s) : Wired nt s ∧ Grasp s :=
  Lts.run_inv (P := fun s => Wired nt s ∧ Grasp s) ⟨wired_init, grasp_init⟩ (fun _ _ _ hi hs => ⟨wired_step hi.1 hs, grasp_step hi.1 hi.2 hs⟩) h

/-! ## What happens at the broker in one step -/

theorem publish_run {pf : Nat} {n n' : Broker κ T O ε} {conn : Nat} {name : Name κ} {b : Payload κ T O ε} (h : publish pf n conn name b = some n') :
    ∃ als, Amqp.run (V := Payload κ T O ε) some pf n als = some n' ∧ ∀ k, Amqp.Label.poll k ∉ als := by
  unfold publish at h
  split at h
  · cases h
  · exact ⟨_, h, by simp⟩

theorem publishAll_run {pf conn : Nat} {name : Name κ} : ∀ {bs : List (Payload κ T O ε)} {n n' : Broker κ T O ε}, publishAll pf conn name n bs = some n' →
    ∃ als, Amqp.run (V := Payload κ T O ε) some pf n als = some n' ∧ ∀ k, Amqp.Label.poll k ∉ als
  | [], n, n', h => ⟨[], by simpa [publishAll] using h, by simp⟩
  | b :: bs, n, n', h => by
    simp only [publishAll, Option.bind_eq_some_iff] at h
    obtain ⟨n1, h1, h2⟩ := h
    obtain ⟨a1, e1, f1⟩ := publish_run h1
    obtain ⟨a2, e2, f2⟩ := publishAll_run h2
    exact ⟨a1 ++ a2, Lts.run_append.2 ⟨n1, e1, e2⟩, fun k hk => by
      rcases List.mem_append.1 hk with hk | hk
      · exact f1 k hk
      · exact f2 k hk⟩

/-- A step polls a consumer only if its owner does. -/
def polls {κ : Type} {ℓ : κ → Type} (o : Owner κ) : Label κ ℓ T O ε χ ω → Prop
  | .sleep o' => o' = o
  | .recv j _ => o = .job j
  | .deliver w => o = .worker w
  | _ => False

theorem net_run {l : Label κ ℓ T O ε χ ω} (h : step cl listens nt cfg exec text s l = some s') :
    ∃ als, Amqp.run (V := Payload κ T O ε) some nt.prefetch s.net als = some s'.net ∧ ∀ k, Amqp.Label.poll k ∈ als → ∃ o, s.ties.lookup o = some k ∧ polls o l := by
  cases l with
  | lead j l =>
    simp only [step] at h
    split at h
    · split at h <;> simp only [Option.some.injEq, reduceCtorEq] at h
      rename_i n hn
      subst h
      obtain ⟨als, e1, e2⟩ := publishAll_run hn
      exact ⟨als, e1, fun k hk => absurd hk (e2 k)⟩
    · cases h
  | recv j l =>
    simp only [step] at h
    split at h
    · rename_i m r n hnx
      split at h
      · split at h <;> simp only [Option.some.injEq, reduceCtorEq] at h
        rename_i n' hn
        subst h
        obtain ⟨k, c, g, rest, h1, h2, h3, h4, h5, h6, h7, h8⟩ := next_spec hnx
        obtain ⟨als, e1, e2⟩ := publishAll_run hn
        refine ⟨.poll k :: als, Lts.run_cons.2 ⟨n, h7, e1⟩, fun k' hk => ?_⟩
        rcases List.mem_cons.1 hk with hk | hk
        · cases hk; exact ⟨_, h1, rfl⟩
        · exact absurd hk (e2 k')
      · cases h
    · cases h
  | sleep o =>
    simp only [step] at h
    split at h
    · rename_i k c hco
      obtain ⟨h1, h2⟩ := consumer_spec.1 hco
      split at h
      · simp only [Option.map_eq_some_iff] at h
        obtain ⟨n, hn, rfl⟩ := h
        refine ⟨[.poll k], Lts.run_one.2 hn, fun k' hk => ?_⟩
        simp only [List.mem_singleton, Amqp.Label.poll.injEq] at hk
        subst hk
        exact ⟨o, h1, rfl⟩
      · cases h
    · cases h
  | ackRes j =>
    simp only [step] at h
    split at h
    · split at h
      · cases h
      · simp only [Option.map_eq_some_iff] at h
        obtain ⟨n, hn, rfl⟩ := h
        exact ⟨_, Lts.run_one.2 hn, by simp⟩
    · cases h
  | deliver w =>
    simp only [step] at h
    split at h
    · rename_i m t n hnx
      split at h <;> simp only [Option.some.injEq, reduceCtorEq] at h
      subst h
      obtain ⟨k, c, g, rest, h1, h2, h3, h4, h5, h6, h7, h8⟩ := next_spec hnx
      refine ⟨[.poll k], Lts.run_one.2 h7, fun k' hk => ?_⟩
      simp only [List.mem_singleton, Amqp.Label.poll.injEq] at hk
      subst hk
      exact ⟨_, h1, rfl⟩
    · cases h
  | finish w x =>
    simp only [step] at h
    split at h
    · split at h <;> simp only [Option.some.injEq, reduceCtorEq] at h
      subst h
      exact ⟨[], rfl, by simp⟩
    · cases h
  | work w l =>
    simp only [step] at h
    split at h
    · cases h
    · cases h
    · split at h <;> simp only [Option.some.injEq, reduceCtorEq] at h
      rename_i v n hv he
      subst h
      unfold effect at he
      split at he
      case h_7 => simp only [Option.some.injEq] at he; subst he; exact ⟨[], rfl, by simp⟩
      case h_5 => obtain ⟨als, e1, e2⟩ := publish_run he; exact ⟨als, e1, fun k hk => absurd hk (e2 k)⟩
      case h_6 => obtain ⟨als, e1, e2⟩ := publish_run he; exact ⟨als, e1, fun k hk => absurd hk (e2 k)⟩
      all_goals
        split at he
        · exact ⟨_, Lts.run_one.2 he, by simp⟩
        · cases he
  | attach o k =>
    simp only [step] at h
    split at h
    · split at h <;> simp only [Option.some.injEq, reduceCtorEq] at h
      subst h
      exact ⟨[], rfl, by simp⟩
    · cases h
  | net l =>
    simp only [step] at h
    split at h
    · rename_i ho
      simp only [Option.map_eq_some_iff] at h
      obtain ⟨n, hn, rfl⟩ := h
      refine ⟨[l], Lts.run_one.2 hn, fun k hk => ?_⟩
      simp only [List.mem_singleton] at hk
      subst hk
      simp [others] at ho
    · cases h

end

/-! ## A message in the buffer of a consumer that is not polled -/

section
open Amqp
variable {N B V : Type} [DecidableEq N] {dec : B → Option V} {pf : Nat} {n n' : Amqp.St N B}

/-- Message `m` is in the buffer of consumer `k` and was sent to no other. -/
structure Sits (dec : B → Option V) (pf k m : Nat) (n : Amqp.St N B) : Prop where
  sound : Amqp.Sound dec pf n
  here : ∃ c, n.consumers[k]? = some c ∧ m ∈ c.buffer
  only : ∀ k', (m, k') ∈ n.dlv → k' = k

theorem method_dlv (s : Amqp.St N B) (conn : Nat) (m : Method N B) : (method s conn m).1.dlv = s.dlv ∧
    ((method s conn m).1.consumers = s.consumers ∨ ∃ c, (method s conn m).1.consumers = s.consumers ++ [c]) := by
  unfold method
  (repeat' split) <;> simp [remove]

theorem sits_step {k m : Nat} {l : Amqp.Label N B} (hi : Sits dec pf k m n) (ho : ∀ c, n.consumers[k]? = some c → c.conn ∉ n.closed) (hl : l ≠ .poll k) (h : Amqp.step dec pf n l = some n') : Sits dec pf k m n' := by
  obtain ⟨c, hc, hm⟩ := hi.here
  have snoc : ∀ x : Consumer, (n.consumers ++ [x])[k]? = some c := fun x => by rw [List.getElem?_append_left (List.getElem?_eq_some_iff.1 hc).1]; exact hc
  have put : ∀ (j : Nat) (d d' : Consumer), n.consumers[j]? = some d → (∀ x ∈ d.buffer, x ∈ d'.buffer) ∨ j ≠ k → ∃ c, (n.consumers.set j d')[k]? = some c ∧ m ∈ c.buffer := by
    intro j d d' hd hb
    by_cases hj : j = k
    · subst hj
      rw [hc] at hd; cases hd
      refine ⟨d', List.getElem?_set_self (List.getElem?_eq_some_iff.1 hc).1, ?_⟩
      rcases hb with hb | hb
      · exact hb m hm
      · exact absurd rfl hb
    · exact ⟨c, by rw [List.getElem?_set_ne hj]; exact hc, hm⟩
  refine ⟨Amqp.sound_step hi.sound h, ?_, ?_⟩
  · cases l with
    | exec j =>
      simp only [Amqp.step] at h
      (repeat' split at h) <;> simp only [Option.some.injEq, reduceCtorEq] at h <;> subst h <;> first
        | exact ⟨c, hc, hm⟩
        | (rename_i r _ _ _ _ mm rest _ _
           rcases (method_dlv n r.conn mm).2 with e | ⟨x, e⟩
           · exact ⟨c, by dsimp only; rw [e]; exact hc, hm⟩
           · exact ⟨c, by dsimp only; rw [e]; exact snoc x, hm⟩)
    | poll j =>
      have hj : j ≠ k := fun h => hl (by rw [h])
      simp only [Amqp.step] at h
      (repeat' split at h) <;> simp only [Option.some.injEq, reduceCtorEq] at h <;> subst h <;> exact put j _ _ (by assumption) (.inr hj)
    | expire i =>
      simp only [Amqp.step, remove] at h
      (repeat' split at h) <;> simp only [Option.some.injEq, reduceCtorEq] at h <;> subst h
      exact ⟨c, hc, hm⟩
    | «begin» conn x => simp only [Amqp.step, Option.some.injEq] at h; subst h; exact ⟨c, hc, hm⟩
    | lose conn => simp only [Amqp.step, Option.some.injEq] at h; subst h; exact ⟨c, hc, hm⟩
    | deliver j =>
      simp only [Amqp.step] at h
      (repeat' split at h) <;> simp only [Option.some.injEq, reduceCtorEq] at h <;> subst h
      exact put j _ _ (by assumption) (.inl fun x hx => by simp [hx])
    | ack j x | nack j x | cancel j | requeue j =>
      simp only [Amqp.step] at h
      (repeat' split at h) <;> simp only [Option.some.injEq, reduceCtorEq] at h <;> subst h <;> (have e := ‹n.consumers[j]? = some _›; exact put j _ _ e (.inl fun x hx => hx))
  · intro k' hk'
    cases l with
    | deliver j =>
      simp only [Amqp.step] at h
      (repeat' split at h) <;> simp only [Option.some.injEq, reduceCtorEq] at h
      rename_i d hd _ _ q hq _ x rest hr
      subst h
      simp only [List.mem_append, List.mem_singleton, Prod.mk.injEq] at hk'
      rcases hk' with hk' | ⟨rfl, rfl⟩
      · exact hi.only k' hk'
      · exfalso
        have hu : m ∈ c.unacked := (hi.sound.inv.client.agree k c hc (ho c hc)).mem_iff.2 (by simp [hm])
        exact (hi.sound.inv.data.ready_only hq (by rw [hr]; exact List.mem_cons_self)).2.2 _ (List.mem_of_getElem? hc) hu
    | exec j =>
      refine hi.only k' ?_
      simp only [Amqp.step] at h
      (repeat' split at h) <;> simp only [Option.some.injEq, reduceCtorEq] at h <;> subst h <;> first
        | exact hk'
        | (dsimp only at hk'; rw [(method_dlv n _ _).1] at hk'; exact hk')
    | _ =>
      refine hi.only k' ?_
      simp only [Amqp.step, remove] at h
      (repeat' split at h) <;> simp only [Option.some.injEq, reduceCtorEq] at h <;> subst h <;> exact hk'

theorem closed_run : ∀ {als : List (Amqp.Label N B)} {n n' : Amqp.St N B}, Amqp.run dec pf n als = some n' → ∀ x ∈ n.closed, x ∈ n'.closed
  | [], n, n', h, x, hx => by simp only [Lts.run_nil, Option.some.injEq] at h; subst h; exact hx
  | l :: als, n, n', h, x, hx => by
    obtain ⟨n1, h1, h2⟩ := Lts.run_cons.1 h
    exact closed_run h2 x (Amqp.closed_mono h1 x hx)

theorem sits_run {k m : Nat} : ∀ {als : List (Amqp.Label N B)} {n n' : Amqp.St N B}, Sits dec pf k m n → (∀ c, n.consumers[k]? = some c → c.conn ∉ n'.closed) → Amqp.Label.poll k ∉ als →
    Amqp.run dec pf n als = some n' → Sits dec pf k m n'
  | [], n, n', hi, _, _, h => by simp only [Lts.run_nil, Option.some.injEq] at h; subst h; exact hi
  | l :: als, n, n', hi, ho, hl, h => by
    obtain ⟨n1, h1, h2⟩ := Lts.run_cons.1 h
    obtain ⟨c, hc, -⟩ := hi.here
    simp only [List.mem_cons, not_or] at hl
    refine sits_run (sits_step hi (fun c hc hx => ho c hc (closed_run h _ hx)) (Ne.symm hl.1) h1) (fun d hd => ?_) hl.2 h2
    obtain ⟨d', e1, -, e3⟩ := (Amqp.grows_step hi.sound.inv.names h1).consumers k c hc
    rw [hd] at e1; cases e1
    rw [e3]
    exact ho c hc

/-- What sits there has been received by nobody. -/
theorem Sits.unread {k m : Nat} (hi : Sits dec pf k m n) (k' : Nat) : (m, k') ∉ n.yielded := by
  intro h
  obtain ⟨c, hc, hm⟩ := hi.here
  have hlt : k' < n.consumers.length := by
    refine Nat.lt_of_not_le fun hle => (hi.sound.inv.client.fresh k' hle m).2 h
  have h1 := hi.sound.inv.client.log k' n.consumers[k'] (List.getElem?_eq_getElem hlt) m
  have h2 := List.count_pos_iff.2 h
  have : k' = k := hi.only k' (List.count_pos_iff.1 (by omega))
  subst this
  exact hi.sound.buffer_new hc hm h
end

section
open Paladin.System Retry
variable {κ : Type} {σ ℓ : κ → Type} {T O ε χ ω : Type} [DecidableEq κ] {cl : (j : κ) → Client (σ j) (ℓ j) T (Except ε O)} {listens : (j : κ) → σ j → Bool} {nt : Net κ} {cfg : Worker.Cfg κ}
  {exec : ω → T → Except (OpError χ) O} {text : OpError χ → ε} {s s' : St κ σ T O ε χ}

/-- A worker that receives no more tasks goes on so. -/
theorem leaving_step {l : Label κ ℓ T O ε χ ω} {w : Nat} (h : step cl listens nt cfg exec text s l = some s') (hl : leaving (s.worker w).pc = true) :
    leaving (s'.worker w).pc = true ∧ ¬ polls (.worker w) l := by
  have upd : ∀ (w' : Nat) (v : Worker.St κ O χ) (x : Worker.Label κ O χ), Worker.step cfg (s.worker w') x = some v → leaving (Function.update s.worker w' v w).pc = true := by
    intro w' v x hv
    by_cases he : w = w'
    · subst he
      simp only [Function.update_self]
      by_cases hd : ∃ k, x = .deliver k
      · obtain ⟨k, rfl⟩ := hd
        simp only [Worker.step] at hv
        split at hv
        · rename_i hpc; simp [hpc, leaving] at hl
        · cases hv
      · exact (hold_step hv fun k hk => hd ⟨k, hk⟩).2.2 hl
    · simpa only [Function.update_of_ne he] using hl
  cases l with
  | lead j l =>
    simp only [step] at h
    split at h
    · split at h <;> simp only [Option.some.injEq, reduceCtorEq] at h
      subst h
      exact ⟨hl, by simp [polls]⟩
    · cases h
  | recv j l =>
    simp only [step] at h
    split at h
    · split at h
      · split at h <;> simp only [Option.some.injEq, reduceCtorEq] at h
        subst h
        exact ⟨hl, by simp [polls]⟩
      · cases h
    · cases h
  | sleep o =>
    simp only [step] at h
    split at h
    · split at h
      · rename_i hcond
        simp only [Option.map_eq_some_iff] at h
        obtain ⟨n, hn, rfl⟩ := h
        refine ⟨hl, ?_⟩
        rintro rfl
        simp only [Bool.and_eq_true] at hcond
        have h1 : idle (s.worker w).pc = true := hcond.1.1
        revert hl h1
        generalize (s.worker w).pc = p
        cases p <;> simp [leaving, idle]
      · cases h
    · cases h
  | ackRes j =>
    simp only [step] at h
    split at h
    · split at h
      · cases h
      · simp only [Option.map_eq_some_iff] at h
        obtain ⟨n, hn, rfl⟩ := h
        exact ⟨hl, by simp [polls]⟩
    · cases h
  | deliver w' =>
    simp only [step] at h
    split at h
    · split at h <;> simp only [Option.some.injEq, reduceCtorEq] at h
      rename_i v hv
      subst h
      refine ⟨upd w' v _ hv, ?_⟩
      intro hp
      simp only [polls, Owner.worker.injEq] at hp
      subst hp
      simp only [Worker.step] at hv
      split at hv
      · rename_i hpc; simp [hpc, leaving] at hl
      · cases hv
    · cases h
  | finish w' x =>
    simp only [step] at h
    split at h
    · split at h <;> simp only [Option.some.injEq, reduceCtorEq] at h
      rename_i v hv
      subst h
      exact ⟨upd w' v _ hv, by simp [polls]⟩
    · cases h
  | work w' l =>
    simp only [step] at h
    split at h
    · cases h
    · cases h
    · split at h <;> simp only [Option.some.injEq, reduceCtorEq] at h
      rename_i v n hv he
      subst h
      exact ⟨upd w' v _ hv, by simp [polls]⟩
  | attach o k =>
    simp only [step] at h
    split at h
    · split at h <;> simp only [Option.some.injEq, reduceCtorEq] at h
      subst h
      exact ⟨hl, by simp [polls]⟩
    · cases h
  | net l =>
    simp only [step] at h
    split at h
    · simp only [Option.map_eq_some_iff] at h
      obtain ⟨n, hn, rfl⟩ := h
      exact ⟨hl, by simp [polls]⟩
    · cases h

theorem ties_step {l : Label κ ℓ T O ε χ ω} {o : Owner κ} {k : Nat} (h : step cl listens nt cfg exec text s l = some s') (hk : s.ties.lookup o = some k) : s'.ties.lookup o = some k := by
  cases l <;> simp only [step] at h <;> (repeat' split at h) <;> simp only [Option.some.injEq, reduceCtorEq, Option.map_eq_some_iff] at h <;>
    first
    | (subst h; first | exact hk | (simp only [List.lookup_append, hk, Option.some_or]))
    | (obtain ⟨n, hn, rfl⟩ := h; exact hk)

theorem stranded_run {w k m : Nat} : ∀ {ls : List (Label κ ℓ T O ε χ ω)} {s s' : St κ σ T O ε χ}, Wired nt s → s.ties.lookup (.worker w) = some k → leaving (s.worker w).pc = true →
    Sits (V := Payload κ T O ε) some nt.prefetch k m s.net → run cl listens nt cfg exec text s ls = some s' → nt.wconn w ∉ s'.net.closed →
    s'.ties.lookup (.worker w) = some k ∧ Sits (V := Payload κ T O ε) some nt.prefetch k m s'.net
  | [], s, s', _, hk, _, hi, h, _ => by simp only [Lts.run_nil, Option.some.injEq] at h; subst h; exact ⟨hk, hi⟩
  | l :: ls, s, s', hw, hk, hl, hi, h, ho => by
    obtain ⟨s1, h1, h2⟩ := Lts.run_cons.1 h
    have hw1 := wired_step hw h1
    obtain ⟨e1, e2⟩ := leaving_step h1 hl
    have ho1 : nt.wconn w ∉ s1.net.closed := fun hx => ho (Lts.run_inv (P := fun x => Wired nt x ∧ nt.wconn w ∈ x.net.closed) ⟨hw1, hx⟩ (fun _ _ _ hp hs => ⟨wired_step hp.1 hs, closed_step hp.1 hs _ hp.2⟩) h2).2
    obtain ⟨als, f1, f2⟩ := net_run h1
    refine stranded_run hw1 (ties_step h1 hk) e1 (sits_run hi (fun c hc => ?_) (fun hp => ?_) f1) h2 ho
    · obtain ⟨c', q, g1, g2, -⟩ := hw.tie _ _ hk
      rw [hc] at g1; cases g1
      rw [g2]; exact ho1
    · obtain ⟨o, g1, g2⟩ := f2 k hp
      cases hw.inj _ _ _ hk g1
      exact e2 g2

/-- The broker's account of a worker's consumer: nothing unread beside a task in hand, and nothing at all if there is none. -/
theorem hands (hw : Wired nt s) (hg : Grasp s) {w k : Nat} {c : Amqp.Consumer} (hk : s.ties.lookup (.worker w) = some k) (hc : s.net.consumers[k]? = some c) (ho : nt.wconn w ∉ s.net.closed) :
    (nt.prefetch = 1 → holdsTask (s.worker w).pc = true → c.buffer = []) ∧ ((s.worker w).pc = .waiting → c.unacked.Perm c.buffer) := by
  have hco : c.conn ∉ s.net.closed := by
    obtain ⟨c', q, g1, g2, -⟩ := hw.tie _ _ hk
    rw [hc] at g1; cases g1
    rw [g2]; exact ho
  have hag := hw.sound.inv.client.agree k c hc hco
  have hst : c.stuck = [] := by
    rw [List.eq_nil_iff_forall_not_mem]
    intro m hm
    have h1 := hw.sound.inv.client.known m k (hw.sound.inv.client.stuck_dlv hc (.inl hm))
    have := hw.sound.inv.client.bad c (List.mem_of_getElem? hc) m hm _ (List.getElem?_eq_getElem h1)
    cases this
  constructor
  · intro hp hh
    obtain ⟨m, -, k', c', e1, e2, e3⟩ := hg.has w hh
    rw [hk] at e1; cases e1
    rw [hc] at e2; cases e2
    have h1 := hw.sound.inv.client.limit (by omega) c (List.mem_of_getElem? hc)
    have h2 := hag.length_eq
    have h3 := List.length_pos_of_mem e3
    simp only [List.length_append] at h2
    exact List.length_eq_zero_iff.1 (by omega)
  · intro hpc
    have hh : c.held = [] := by
      rw [List.eq_nil_iff_forall_not_mem]
      intro m hm
      have := (hg.only w m ⟨k, c, hk, hc, hm⟩).2
      simp [hpc, holdsTask, leaving] at this
    rw [hst, hh] at hag
    simpa using hag

end
end SystemAmqp
end Paladin
