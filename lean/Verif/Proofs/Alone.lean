import Verif.Spec.Alone
import Verif.Proofs.Share
/-! # Who executes a task: proofs -/
namespace Paladin
namespace SystemAmqp
open Retry Paladin.System

section
open Amqp
variable {N B V : Type} [DecidableEq N] {dec : B → Option V} {pf : Nat} {n n' : Amqp.St N B}

/-- Of the consumers a message was sent to, at most one has its connection. -/
def Single (n : Amqp.St N B) : Prop :=
  ∀ (m k k' : Nat) (c c' : Consumer), (m, k) ∈ n.dlv → (m, k') ∈ n.dlv → n.consumers[k]? = some c → n.consumers[k']? = some c' → c.conn ∉ n.closed → c'.conn ∉ n.closed → k = k'

theorem dlv_step {l : Amqp.Label N B} (h : Amqp.step dec pf n l = some n') : n'.dlv = n.dlv ∨ ∃ k c q m rest, n.consumers[k]? = some c ∧ n.queues[c.inst]? = some q ∧ q.ready = m :: rest ∧ n'.dlv = n.dlv ++ [(m, k)] := by
  cases l with
  | deliver j =>
    simp only [Amqp.step] at h
    (repeat' split at h) <;> simp only [Option.some.injEq, reduceCtorEq] at h
    rename_i d hd _ _ q hq _ x rest hr
    subst h
    exact .inr ⟨j, d, q, x, rest, hd, hq, hr, rfl⟩
  | exec j =>
    simp only [Amqp.step] at h
    (repeat' split at h) <;> simp only [Option.some.injEq, reduceCtorEq] at h <;> subst h <;> first
      | exact .inl rfl
      | exact .inl (method_dlv n _ _).1
  | _ =>
    simp only [Amqp.step, remove] at h
    (repeat' split at h) <;> simp only [Option.some.injEq, reduceCtorEq] at h <;> subst h <;> exact .inl rfl

theorem single_step {l : Amqp.Label N B} (hs : Amqp.Sound dec pf n) (hi : Single n) (h : Amqp.step dec pf n l = some n') : Single n' := by
  have hg := Amqp.grows_step hs.inv.names h
  have hcl := Amqp.closed_mono h
  -- a consumer that a message was sent to was there before, on the same connection
  have back : ∀ (m k : Nat) (c' : Consumer), (m, k) ∈ n.dlv → n'.consumers[k]? = some c' → c'.conn ∉ n'.closed → ∃ c, n.consumers[k]? = some c ∧ c.conn ∉ n.closed := by
    intro m k c' hm hc' ho
    have hlt : k < n.consumers.length := Nat.lt_of_not_le fun hle => (hs.inv.client.fresh k hle m).1 hm
    obtain ⟨d, e1, -, e3⟩ := hg.consumers k _ (List.getElem?_eq_getElem hlt)
    rw [hc'] at e1; cases e1
    exact ⟨_, List.getElem?_eq_getElem hlt, fun hx => ho (hcl _ (by rw [e3]; exact hx))⟩
  rcases dlv_step h with e | ⟨j, d, q, x, rest, hd, hq, hr, e⟩
  · intro m k k' c c' h1 h2 h3 h4 h5 h6
    rw [e] at h1 h2
    obtain ⟨b, b1, b2⟩ := back m k c h1 h3 h5
    obtain ⟨b', b3, b4⟩ := back m k' c' h2 h4 h6
    exact hi m k k' b b' h1 h2 b1 b3 b2 b4
  · have new : ∀ k c, (x, k) ∈ n.dlv → n'.consumers[k]? = some c → c.conn ∉ n'.closed → False := by
      intro k c hk hc ho
      obtain ⟨b, b1, b2⟩ := back x k c hk hc ho
      obtain ⟨r1, r2, r3⟩ := hs.inv.data.ready_only hq (by rw [hr]; exact List.mem_cons_self)
      rcases hs.once.settled x k b hk b1 b2 with h | h | h
      · exact r3 b (List.mem_of_getElem? b1) h
      · exact r1 h
      · exact r2 h
    intro m k k' c c' h1 h2 h3 h4 h5 h6
    rw [e] at h1 h2
    simp only [List.mem_append, List.mem_singleton, Prod.mk.injEq] at h1 h2
    rcases h1 with h1 | ⟨rfl, rfl⟩ <;> rcases h2 with h2 | ⟨h2, rfl⟩
    · obtain ⟨b, b1, b2⟩ := back m k c h1 h3 h5
      obtain ⟨b', b3, b4⟩ := back m k' c' h2 h4 h6
      exact hi m k k' b b' h1 h2 b1 b3 b2 b4
    · subst h2; exact (new k c h1 h3 h5).elim
    · exact (new k' c' h2 h4 h6).elim
    · rfl

theorem single_run {als : List (Amqp.Label N B)} (hs : Amqp.Sound dec pf n) (hi : Single n) (h : Amqp.run dec pf n als = some n') : Amqp.Sound dec pf n' ∧ Single n' :=
  Lts.run_inv (P := fun n => Amqp.Sound dec pf n ∧ Single n) ⟨hs, hi⟩ (fun _ _ _ hi hs => ⟨Amqp.sound_step hi.1 hs, single_step hi.1 hi.2 hs⟩) h

omit [DecidableEq N] in
theorem yielded_sent (hs : Amqp.Sound dec pf n) {m k : Nat} (h : (m, k) ∈ n.yielded) : (m, k) ∈ n.dlv := by
  have hlt : k < n.consumers.length := Nat.lt_of_not_le fun hle => (hs.inv.client.fresh k hle m).2 h
  have h1 := hs.inv.client.log k _ (List.getElem?_eq_getElem hlt) m
  have h2 := List.count_pos_iff.2 h
  exact List.count_pos_iff.1 (by omega)

omit [DecidableEq N] in
theorem yielded_nodup (hs : Amqp.Sound dec pf n) : n.yielded.Nodup := by
  rw [List.nodup_iff_count]
  intro ⟨m, k⟩
  by_cases hlt : k < n.consumers.length
  · have h1 := hs.inv.client.log k _ (List.getElem?_eq_getElem hlt) m
    have h2 := List.nodup_iff_count.1 hs.once.nodup (m, k)
    omega
  · have := (hs.inv.client.fresh k (Nat.le_of_not_lt hlt) m).2
    rw [List.count_eq_zero.2 this]; omega

theorem method_acked (s : Amqp.St N B) (conn : Nat) (m : Method N B) : (method s conn m).1.acked = s.acked := by
  unfold method
  (repeat' split) <;> simp [remove]

theorem acked_step {l : Amqp.Label N B} (h : Amqp.step dec pf n l = some n') : ∀ x ∈ n.acked, x ∈ n'.acked := by
  intro x hx
  cases l with
  | exec j =>
    simp only [Amqp.step] at h
    (repeat' split at h) <;> simp only [Option.some.injEq, reduceCtorEq] at h <;> subst h <;> first
      | exact hx
      | (dsimp only; rw [method_acked]; exact hx)
  | _ =>
    simp only [Amqp.step, remove] at h
    (repeat' split at h) <;> simp only [Option.some.injEq, reduceCtorEq] at h <;> subst h <;> first | exact hx | simp [hx]

/-- What has been acknowledged is sent to nobody any more. -/
theorem acked_run {m : Nat} : ∀ {als : List (Amqp.Label N B)} {n n' : Amqp.St N B}, Amqp.Sound dec pf n → m ∈ n.acked → Amqp.run dec pf n als = some n' → m ∈ n'.acked ∧ ∀ k, (m, k) ∈ n'.dlv → (m, k) ∈ n.dlv
  | [], n, n', _, hm, h => by simp only [Lts.run_nil, Option.some.injEq] at h; subst h; exact ⟨hm, fun _ h => h⟩
  | l :: als, n, n', hs, hm, h => by
    obtain ⟨n1, h1, h2⟩ := Lts.run_cons.1 h
    obtain ⟨e1, e2⟩ := acked_run (Amqp.sound_step hs h1) (acked_step h1 m hm) h2
    refine ⟨e1, fun k hk => ?_⟩
    have hk := e2 k hk
    rcases dlv_step h1 with e | ⟨j, d, q, x, rest, hd, hq, hr, e⟩
    · rwa [e] at hk
    · rw [e] at hk
      simp only [List.mem_append, List.mem_singleton, Prod.mk.injEq] at hk
      rcases hk with hk | ⟨rfl, rfl⟩
      · exact hk
      · exact absurd hm (hs.inv.data.ready_only hq (by rw [hr]; exact List.mem_cons_self)).1

/-- A connected consumer that was sent a message that has been acknowledged has received it. -/
theorem acked_yielded (hs : Amqp.Sound dec pf n) {m k : Nat} {c : Consumer} (hm : m ∈ n.acked) (hk : (m, k) ∈ n.dlv) (hc : n.consumers[k]? = some c) (ho : c.conn ∉ n.closed) : (m, k) ∈ n.yielded := by
  have hu : m ∉ c.unacked := fun hu => (hs.inv.data.unacked_only hc hu).1 hm
  have hag := hs.inv.client.agree k c hc ho
  have hb : m ∉ c.buffer := fun hb => hu (hag.mem_iff.2 (by simp [hb]))
  have ht : m ∉ c.stuck := fun hb => hu (hag.mem_iff.2 (by simp [hb]))
  have h1 := hs.inv.client.log k c hc m
  have h2 := List.count_pos_iff.2 hk
  rw [List.count_eq_zero.2 hb, List.count_eq_zero.2 ht] at h1
  exact List.count_pos_iff.1 (by omega)

omit [DecidableEq N] in
theorem yielded_le (hs : Amqp.Sound dec pf n) (m : Nat) : (n.yielded.map Prod.fst).count m ≤ (n.dlv.map Prod.fst).count m := by
  have hsub : n.yielded.Subperm n.dlv := (yielded_nodup hs).subperm fun p hp => yielded_sent hs hp
  obtain ⟨l, hp, hl⟩ := hsub
  rw [← (hp.map Prod.fst).count_eq m]
  exact (hl.map Prod.fst).count_le m
end

section
variable {κ : Type} {σ ℓ : κ → Type} {T O ε χ ω : Type} [DecidableEq κ] {cl : (j : κ) → Client (σ j) (ℓ j) T (Except ε O)} {listens : (j : κ) → σ j → Bool} {nt : Net κ} {cfg : Worker.Cfg κ}
  {exec : ω → T → Except (OpError χ) O} {text : OpError χ → ε} {s s' : St κ σ T O ε χ}

theorem single_sys {ls : List (Label κ ℓ T O ε χ ω)} (h : run cl listens nt cfg exec text (init cl) ls = some s) : Wired nt s ∧ Single s.net :=
  Lts.run_inv (P := fun s => Wired nt s ∧ Single s.net) ⟨wired_init, by intro m k k' c c' h; simp [init, Amqp.init] at h⟩ (fun _ _ _ hi hs => by
    obtain ⟨als, h1, -⟩ := net_run hs
    exact ⟨wired_step hi.1 hs, (single_run hi.1.sound hi.2 h1).2⟩) h

theorem acked_sys {m : Nat} : ∀ {ls : List (Label κ ℓ T O ε χ ω)} {s s' : St κ σ T O ε χ}, Wired nt s → m ∈ s.net.acked → run cl listens nt cfg exec text s ls = some s' →
    Wired nt s' ∧ (∀ k, (m, k) ∈ s'.net.dlv → (m, k) ∈ s.net.dlv) ∧ (∀ o k, s.ties.lookup o = some k → s'.ties.lookup o = some k) ∧ Amqp.Grows s.net s'.net ∧ ∀ x ∈ s.net.closed, x ∈ s'.net.closed
  | [], s, s', hw, _, h => by simp only [Lts.run_nil, Option.some.injEq] at h; subst h; exact ⟨hw, fun _ h => h, fun _ _ h => h, Amqp.Grows.refl _, fun _ h => h⟩
  | l :: ls, s, s', hw, hm, h => by
    obtain ⟨s1, h1, h2⟩ := Lts.run_cons.1 h
    obtain ⟨als, f1, -⟩ := net_run h1
    obtain ⟨g1, g2⟩ := acked_run hw.sound hm f1
    obtain ⟨e1, e2, e3, e4, e5⟩ := acked_sys (wired_step hw h1) g1 h2
    exact ⟨e1, fun k hk => g2 k (e2 k hk), fun o k hk => e3 o k (ties_step h1 hk), (Amqp.grows_run hw.sound.inv f1).1.trans e4, fun x hx => e5 x (closed_run f1 x hx)⟩

end
end SystemAmqp
end Paladin
