import Verif.Proofs.SystemAmqp
import Verif.Proofs.SystemLive
/-! # The whole system on an AMQP broker: completion -/
namespace Paladin
namespace SystemAmqp
open Retry System

section
variable {κ : Type} {σ ℓ : κ → Type} {T O ε χ ω : Type} [DecidableEq κ] {cl : (j : κ) → Client (σ j) (ℓ j) T (Except ε O)} {listens : (j : κ) → σ j → Bool} {nt : Net κ} {cfg : Worker.Cfg κ}
  {exec : ω → T → Except (OpError χ) O} {text : OpError χ → ε} {any : (j : κ) → ℓ j → ℓ j}

/-! ## The worker's own delivery -/

theorem busy_back {v v' : Worker.St κ O χ} {l : Worker.Label κ O χ} (h : Worker.step cfg v l = some v') (hl : ∀ k, l ≠ .deliver k) (hb : busy v'.pc = true) : busy v.pc = true := by
  cases l with
  | deliver k => exact absurd rfl (hl k)
  | _ =>
    simp only [Worker.step] at h
    (repeat' split at h) <;> simp only [Option.some.injEq, reduceCtorEq] at h <;> subst h <;> simp_all [busy]

theorem unsettled_back {v v' : Worker.St κ O χ} {l : Worker.Label κ O χ} (h : Worker.step cfg v l = some v') (hl : ∀ k, l ≠ .deliver k) (hb : unsettled v'.pc = true) :
    unsettled v.pc = true ∧ settles l = false := by
  cases l with
  | deliver k => exact absurd rfl (hl k)
  | _ =>
    simp only [Worker.step] at h
    (repeat' split at h) <;> simp only [Option.some.injEq, reduceCtorEq] at h <;> subst h <;> simp_all [unsettled, settles]

/-- A worker that has not settled its task still has it. -/
def Grip (a : System.St κ σ T O ε χ) : Prop := ∀ w d, unsettled (a.worker w).pc = true → a.dels[a.cur w]? = some d → d.fate = .held

theorem unsettled_busy {pc : Worker.Pc κ O χ} (h : unsettled pc = true) : busy pc = true := by cases pc <;> simp_all [unsettled, busy]

theorem settles_busy {v v' : Worker.St κ O χ} {l : Worker.Label κ O χ} (h : Worker.step cfg v l = some v') (hl : settles l = true) : busy v.pc = true := by
  cases l <;> simp only [settles, Bool.false_eq_true] at hl <;> simp only [Worker.step] at h <;> (repeat' split at h) <;> simp_all [busy]

theorem grip_step {a a' : System.St κ σ T O ε χ} {l : System.Label κ ℓ O χ ω} (hi : System.Inv exec a) (hg : Grip a) (h : System.step cl cfg exec text a l = some a') (hl : l.requeues = false) : Grip a' := by
  cases System.eff_of_step hi h with
  | lead j l x ts rs h => exact hg
  | deliver w k m p q i v hq hpc hv =>
    intro w' d hu hd
    by_cases hw : w' = w
    · subst hw
      simp at hd
      subst hd; rfl
    · simp only [Function.update_of_ne hw] at hu hd
      obtain ⟨d0, h0, -⟩ := hi w' (unsettled_busy hu)
      rw [List.getElem?_append_left (List.getElem?_eq_some_iff.1 h0).1] at hd
      exact hg w' d hu hd
  | finish w x d i k n v hd hpc hv =>
    intro w' d' hu hd'
    by_cases hw : w' = w
    · subst hw; exact hg w' d' (by rw [hpc]; rfl) hd'
    · simp only [Function.update_of_ne hw] at hu; exact hg w' d' hu hd'
  | quiet w l v b hp hst hb =>
    intro w' d' hu hd'
    by_cases hw : w' = w
    · subst hw
      simp only [Function.update_self] at hu
      obtain ⟨h1, h2⟩ := unsettled_back hst (by rintro k rfl; simp [plain] at hp) hu
      rw [h2] at hb; subst hb
      exact hg w' d' h1 hd'
    · simp only [Function.update_of_ne hw] at hu
      cases b with
      | false => exact hg w' d' hu hd'
      | true =>
        simp only [if_true, settle_get, Option.map_eq_some_iff] at hd'
        obtain ⟨d0, h0, rfl⟩ := hd'
        have hne : a.cur w ≠ a.cur w' := by
          intro he
          obtain ⟨d1, e1, e2, -⟩ := hi w' (unsettled_busy hu)
          have hbw : busy (a.worker w).pc = true := settles_busy hst hb.symm
          obtain ⟨d2, e3, e4, -⟩ := hi w hbw
          rw [he, e1] at e3
          cases e3
          exact hw (e2.symm.trans e4)
        rw [if_neg hne]
        exact hg w' d0 hu h0
  | answer w l v d r hp hst hd hdw ha hm hm' =>
    intro w' d' hu hd'
    simp only [answer_get, Option.map_eq_some_iff] at hd'
    obtain ⟨d0, h0, rfl⟩ := hd'
    have hf : (if a.cur w = a.cur w' then { d0 with answered := true } else d0).fate = d0.fate := by split <;> rfl
    rw [hf]
    by_cases hw : w' = w
    · subst hw
      simp only [Function.update_self] at hu
      exact hg w' d0 (unsettled_back hst (by rintro k rfl; simp at hp) hu).1 h0
    · simp only [Function.update_of_ne hw] at hu
      exact hg w' d0 hu h0
  | requeue n d hd hf => simp [System.Label.requeues] at hl

theorem grip_run {a : System.St κ σ T O ε χ} {as : List (System.Label κ ℓ O χ ω)} (h : System.run cl cfg exec text (System.init cl) as = some a) : (∀ l ∈ as, l.requeues = false) → Grip a := by
  refine Lts.run_induction (P := fun as a => (∀ l ∈ as, l.requeues = false) → Grip a) ?_ ?_ as a h
  · intro _ w d hu; simp [System.init, Worker.init, unsettled] at hu
  · intro ls l s s' hr ih hst hl
    exact grip_step (System.inv_run hr) (ih fun l hl' => hl l (by simp [hl'])) hst (hl l (by simp))

/-! ## Who sleeps and what a worker works on -/

/-- What steps at the broker do to a consumer that is parked. -/
def Stirs (n n' : Broker κ T O ε) : Prop := ∀ (k : Nat) (c : Amqp.Consumer), n.consumers[k]? = some c →
  ∃ c', n'.consumers[k]? = some c' ∧ (c.parked = true → c'.parked = true ∧ (c'.woken = true ∨ c'.woken = c.woken ∧ c'.buffer = c.buffer))

theorem Stirs.refl (n : Broker κ T O ε) : Stirs n n := fun _ c h => ⟨c, h, fun hp => ⟨hp, .inr ⟨rfl, rfl⟩⟩⟩

theorem stirs_same {n n' : Broker κ T O ε} (h : n'.consumers = n.consumers) : Stirs n n' := fun _ c hc => ⟨c, by rw [h]; exact hc, fun hp => ⟨hp, .inr ⟨rfl, rfl⟩⟩⟩

theorem stirs_set {n n' : Broker κ T O ε} {k : Nat} {c c' : Amqp.Consumer} (hc : n.consumers[k]? = some c) (h : n'.consumers = n.consumers.set k c')
    (hp : c.parked = true → c'.parked = true ∧ (c'.woken = true ∨ c'.woken = c.woken ∧ c'.buffer = c.buffer)) : Stirs n n' := by
  intro j d hd
  rw [h]
  exact Amqp.set_grow (P := fun a b : Amqp.Consumer => a.parked = true → b.parked = true ∧ (b.woken = true ∨ b.woken = a.woken ∧ b.buffer = a.buffer)) (fun _ hp => ⟨hp, .inr ⟨rfl, rfl⟩⟩) hc hp hd

theorem stirs_method {n : Broker κ T O ε} {conn : Nat} {m : Amqp.Method (Name κ) (Payload κ T O ε)} {n' : Broker κ T O ε} (h : n'.consumers = (Amqp.method n conn m).1.consumers) : Stirs n n' := by
  have key : (Amqp.method n conn m).1.consumers = n.consumers ∨ ∃ c, (Amqp.method n conn m).1.consumers = n.consumers ++ [c] := by
    unfold Amqp.method
    (repeat' split) <;> first | exact .inl rfl | exact .inr ⟨_, rfl⟩
  rcases key with e | ⟨x, e⟩
  · exact stirs_same (h.trans e)
  · intro k c hc
    refine ⟨c, ?_, fun hp => ⟨hp, .inr ⟨rfl, rfl⟩⟩⟩
    rw [h, e, List.getElem?_append_left (List.getElem?_eq_some_iff.1 hc).1]
    exact hc

theorem stirs_others {pf : Nat} {n n' : Broker κ T O ε} {l : Amqp.Label (Name κ) (Payload κ T O ε)} (hl : ∀ k, l ≠ .poll k) (h : Amqp.step (V := Payload κ T O ε) some pf n l = some n') : Stirs n n' := by
  cases l with
  | «begin» conn c => simp only [Amqp.step, Option.some.injEq] at h; subst h; exact stirs_same rfl
  | poll k => exact absurd rfl (hl k)
  | exec k =>
    simp only [Amqp.step] at h
    (repeat' split at h) <;> simp only [Option.some.injEq, reduceCtorEq] at h <;> subst h <;> first | exact stirs_same rfl | exact stirs_method rfl
  | deliver k =>
    simp only [Amqp.step] at h
    (repeat' split at h) <;> simp only [Option.some.injEq, reduceCtorEq] at h
    rename_i c hc _ _ q hq _ m rest hr
    subst h
    exact stirs_set hc rfl fun hp => ⟨hp, .inl (by simp [hp])⟩
  | ack k m =>
    simp only [Amqp.step] at h
    (repeat' split at h) <;> simp only [Option.some.injEq, reduceCtorEq] at h
    rename_i c hc _
    subst h
    exact stirs_set hc rfl fun hp => ⟨hp, .inr ⟨rfl, rfl⟩⟩
  | nack k m =>
    simp only [Amqp.step] at h
    (repeat' split at h) <;> simp only [Option.some.injEq, reduceCtorEq] at h
    rename_i c hc _
    subst h
    exact stirs_set hc rfl fun hp => ⟨hp, .inr ⟨rfl, rfl⟩⟩
  | cancel k =>
    simp only [Amqp.step] at h
    (repeat' split at h) <;> simp only [Option.some.injEq, reduceCtorEq] at h
    rename_i c hc
    subst h
    exact stirs_set hc rfl fun hp => ⟨hp, .inr ⟨rfl, rfl⟩⟩
  | lose conn => simp only [Amqp.step, Option.some.injEq] at h; subst h; exact stirs_same rfl
  | requeue k =>
    simp only [Amqp.step] at h
    (repeat' split at h) <;> simp only [Option.some.injEq, reduceCtorEq] at h
    all_goals
      rename_i c hc _ m hm hg _ q hq hp
      subst h
      exact stirs_set hc rfl fun hp => ⟨hp, .inr ⟨rfl, rfl⟩⟩
  | expire i =>
    simp only [Amqp.step, Amqp.remove] at h
    (repeat' split at h) <;> simp only [Option.some.injEq, reduceCtorEq] at h
    subst h
    exact stirs_same rfl

/-- Who sleeps waits at a consumer that has nothing for it; a worker that is busy has a task. -/
structure Alert (s : St κ σ T O ε χ) : Prop where
  asleep : ∀ o, s.asleep o = true → ∃ k c, s.ties.lookup o = some k ∧ s.net.consumers[k]? = some c ∧ c.parked = true ∧ (c.woken = true ∨ c.buffer = [])
  cur : ∀ w, busy (s.worker w).pc = true → ∃ m t, s.cur w = some m ∧ taskOf s.net m = some t

theorem taskOf_grows {n n' : Broker κ T O ε} (hg : Amqp.Grows n n') {m : Nat} {t : Msg κ T} (h : taskOf n m = some t) : taskOf n' m = some t := by
  unfold taskOf at h ⊢
  split at h
  · rename_i t' hm
    rw [hg.msgs _ _ hm]; exact h
  · cases h

theorem alert_init : Alert (init cl : St κ σ T O ε χ) := by
  constructor
  · intro o h; simp [init] at h
  · intro w h; simp [init, Worker.init, busy] at h

variable {s s' : St κ σ T O ε χ}

/-- Nothing is polled. -/
theorem Alert.stir (ha : Alert s) (ht : s'.ties = s.ties) (hs : ∀ o, s'.asleep o = true → s.asleep o = true) (hst : Stirs s.net s'.net) (hg : Amqp.Grows s.net s'.net) (hcu : s'.cur = s.cur)
    (hw : ∀ w, busy (s'.worker w).pc = true → busy (s.worker w).pc = true) : Alert s' := by
  constructor
  · intro o ho
    obtain ⟨k, c, h1, h2, h3, h4⟩ := ha.asleep o (hs o ho)
    obtain ⟨c', h5, h6⟩ := hst k c h2
    obtain ⟨h7, h8⟩ := h6 h3
    refine ⟨k, c', by rw [ht]; exact h1, h5, h7, ?_⟩
    rcases h8 with h8 | ⟨h8, h9⟩
    · exact .inl h8
    · rw [h8, h9]; exact h4
  · intro w hb
    obtain ⟨m, t, h1, h2⟩ := ha.cur w (hw w hb)
    exact ⟨m, t, by rw [hcu]; exact h1, taskOf_grows hg h2⟩

/-- A poll of one's own consumer. -/
theorem Alert.poll (hwr : Wired nt s) (ha : Alert s) {o : Owner κ} {k : Nat} {c c' : Amqp.Consumer} (ho : s.ties.lookup o = some k) (hc : s.net.consumers[k]? = some c) {b : Bool}
    (ht : s'.ties = s.ties) (hs : s'.asleep = Function.update s.asleep o b) (hn : s'.net.consumers = s.net.consumers.set k c') (hb : b = true → c'.parked = true ∧ c'.buffer = [])
    (hg : Amqp.Grows s.net s'.net) (hcu : ∀ w, busy (s'.worker w).pc = true → (s'.cur w = s.cur w ∧ busy (s.worker w).pc = true) ∨ ∃ m t, s'.cur w = some m ∧ taskOf s.net m = some t) : Alert s' := by
  constructor
  · intro o' ho'
    rw [hs] at ho'
    by_cases he : o' = o
    · subst he
      simp only [Function.update_self] at ho'
      obtain ⟨h1, h2⟩ := hb ho'
      refine ⟨k, c', by rw [ht]; exact ho, ?_, h1, .inr h2⟩
      rw [hn, List.getElem?_set_self (List.getElem?_eq_some_iff.1 hc).1]
    · rw [Function.update_of_ne he] at ho'
      obtain ⟨k', d, h1, h2, h3⟩ := ha.asleep o' ho'
      have hne : k ≠ k' := by
        rintro rfl
        exact he (hwr.inj _ _ _ h1 ho)
      exact ⟨k', d, by rw [ht]; exact h1, by rw [hn, List.getElem?_set_ne hne]; exact h2, h3⟩
  · intro w hw
    rcases hcu w hw with ⟨e1, e2⟩ | ⟨m, t, e1, e2⟩
    · obtain ⟨m, t, h1, h2⟩ := ha.cur w e2
      exact ⟨m, t, by rw [e1]; exact h1, taskOf_grows hg h2⟩
    · exact ⟨m, t, e1, taskOf_grows hg e2⟩

theorem alert_step {l : Label κ ℓ T O ε χ ω} (hw : Wired nt s) (ha : Alert s) (h : step cl listens nt cfg exec text s l = some s') : Alert s' := by
  cases l with
  | lead j l =>
    simp only [step] at h
    split at h
    · split at h <;> simp only [Option.some.injEq, reduceCtorEq] at h
      rename_i n hn
      subst h
      exact ha.stir rfl (fun _ h => h) (stirs_same (publishAll_posts hn).consumers) (publishAll_sound hw.sound hn).2 rfl (fun _ h => h)
    · cases h
  | recv j l =>
    simp only [step] at h
    split at h
    · rename_i m r n hnx
      split at h
      · split at h <;> simp only [Option.some.injEq, reduceCtorEq] at h
        rename_i n' hn
        subst h
        obtain ⟨k, c, g, rest, h1, h2, h3, h4, h5, h6, h7, h8⟩ := next_spec hnx
        have hs := Amqp.sound_step hw.sound h7
        have hg := Amqp.grows_step hw.sound.inv.names h7
        exact ha.poll hw (b := false) h1 h2 rfl rfl ((publishAll_posts hn).consumers.trans (by rw [h8])) (by simp) (hg.trans (publishAll_sound hs hn).2) (fun w hb => .inl ⟨rfl, hb⟩)
      · cases h
    · cases h
  | sleep o =>
    simp only [step] at h
    split at h
    · rename_i k c hco
      obtain ⟨h1, h2⟩ := consumer_spec.1 hco
      split at h
      · rename_i hcond
        simp only [Option.map_eq_some_iff] at h
        obtain ⟨n, hn, rfl⟩ := h
        simp only [Bool.and_eq_true, List.isEmpty_iff] at hcond
        have hg := Amqp.grows_step hw.sound.inv.names hn
        simp only [Amqp.step, h2, hcond.2, Option.some.injEq] at hn
        subst hn
        exact ha.poll hw (b := true) h1 h2 rfl rfl rfl (fun _ => ⟨rfl, rfl⟩) hg (fun w hb => .inl ⟨rfl, hb⟩)
      · cases h
    · cases h
  | ackRes j =>
    simp only [step] at h
    split at h
    · split at h
      · cases h
      · simp only [Option.map_eq_some_iff] at h
        obtain ⟨n, hn, rfl⟩ := h
        exact ha.stir rfl (fun _ h => h) (stirs_others (by simp) hn) (Amqp.grows_step hw.sound.inv.names hn) rfl (fun _ h => h)
    · cases h
  | deliver w =>
    simp only [step] at h
    split at h
    · rename_i m t n hnx
      split at h <;> simp only [Option.some.injEq, reduceCtorEq] at h
      subst h
      obtain ⟨k, c, g, rest, h1, h2, h3, h4, h5, h6, h7, h8⟩ := next_spec hnx
      refine ha.poll hw (b := false) h1 h2 rfl rfl (by rw [h8]) (by simp) (Amqp.grows_step hw.sound.inv.names h7) (fun w' hb => ?_)
      by_cases he : w' = w
      · subst he
        refine .inr ⟨m, t, by simp, ?_⟩
        obtain ⟨c0, q, e1, -, e3, e4⟩ := hw.tie _ _ h1
        rw [h2] at e1; cases e1
        obtain ⟨g', e5, e6⟩ := hw.sound.name_of h2 e3 (.inl (by rw [h3]; exact List.mem_cons_self) : m ∈ c.buffer ∨ _)
        rw [h4] at e5; cases e5
        obtain ⟨nm, pl⟩ := g
        simp only at h5 e6
        subst h5
        rw [e4] at e6
        simp only [Owner.queue] at e6
        subst e6
        simp only [taskOf, h4]
      · simp only [Function.update_of_ne he] at hb ⊢
        exact .inl ⟨trivial, hb⟩
    · cases h
  | finish w x =>
    simp only [step] at h
    split at h
    · split at h <;> simp only [Option.some.injEq, reduceCtorEq] at h
      rename_i v hv
      subst h
      refine ha.stir rfl (fun _ h => h) (Stirs.refl _) (Amqp.Grows.refl _) rfl (fun w' hb => ?_)
      by_cases he : w' = w
      · subst he; simp only [Function.update_self] at hb; exact busy_back hv (by simp) hb
      · simpa only [Function.update_of_ne he] using hb
    · cases h
  | work w l =>
    have key : ∀ v n, Worker.step cfg (s.worker w) l = some v → (∀ k, l ≠ .deliver k) → effect nt text s w l = some n → Alert { s with worker := Function.update s.worker w v, net := n } := by
      intro v n hv hl he
      have hb : ∀ w', busy (Function.update s.worker w v w').pc = true → busy (s.worker w').pc = true := by
        intro w' hb
        by_cases he : w' = w
        · subst he; simp only [Function.update_self] at hb; exact busy_back hv hl hb
        · simpa only [Function.update_of_ne he] using hb
      rcases effect_cases he with ⟨k, m, h1, h2, h3, ⟨l', h4⟩, h5⟩ | ⟨j, r, h1, h2⟩ | ⟨rfl, h2⟩
      · obtain ⟨c, e1, e2, e3, e4⟩ := h3.ex
        exact ha.stir rfl (fun _ h => h) (stirs_set e1 e4 fun hp => ⟨hp, .inr ⟨rfl, rfl⟩⟩) (Amqp.grows_step hw.sound.inv.names h4) rfl hb
      · exact ha.stir rfl (fun _ h => h) (stirs_same (publish_posts h1).2.consumers) (publish_sound hw.sound h1).2 rfl hb
      · exact ha.stir rfl (fun _ h => h) (Stirs.refl _) (Amqp.Grows.refl _) rfl hb
    simp only [step] at h
    split at h
    · cases h
    · cases h
    · rename_i hd _
      split at h <;> simp only [Option.some.injEq, reduceCtorEq] at h
      rename_i v n hv he
      subst h
      exact key v n hv hd he
  | attach o k =>
    simp only [step] at h
    split at h
    · rename_i c hc
      split at h <;> simp only [Option.some.injEq, reduceCtorEq] at h
      subst h
      refine ⟨fun o' ho' => ?_, ha.cur⟩
      obtain ⟨k', d, h1, h2⟩ := ha.asleep o' ho'
      exact ⟨k', d, by simp only [List.lookup_append, h1, Option.some_or], h2⟩
    · cases h
  | net l =>
    simp only [step] at h
    split at h
    · rename_i ho
      simp only [Option.map_eq_some_iff] at h
      obtain ⟨n, hn, rfl⟩ := h
      exact ha.stir rfl (fun _ h => h) (stirs_others (by rintro k rfl; simp [others] at ho) hn) (Amqp.grows_step hw.sound.inv.names hn) rfl (fun _ h => h)
    · cases h

theorem alert_run {ls : List (Label κ ℓ T O ε χ ω)} (h : run cl listens nt cfg exec text (init cl) ls = some s) : Wired nt s ∧ Alert s :=
  Lts.run_inv (P := fun s => Wired nt s ∧ Alert s) ⟨wired_init, alert_init⟩ (fun _ _ _ hi hs => ⟨wired_step hi.1 hs, alert_step hi.1 hi.2 hs⟩) h

/-! ## At rest -/

theorem publish_open {pf : Nat} {n : Broker κ T O ε} {conn : Nat} {name : Name κ} {b : Payload κ T O ε} (hc : n.closed = []) : ∃ n', publish pf n conn name b = some n' :=
  ⟨_, publish_eq (by simp [hc])⟩

theorem publishAll_open {pf : Nat} {conn : Nat} {name : Name κ} : ∀ {bs : List (Payload κ T O ε)} {n : Broker κ T O ε}, n.closed = [] → ∃ n', publishAll pf conn name n bs = some n'
  | [], n, _ => ⟨n, rfl⟩
  | b :: bs, n, hc => by
    obtain ⟨n1, h1⟩ := publish_open (pf := pf) (conn := conn) (name := name) (b := b) hc
    obtain ⟨n2, h2⟩ := publishAll_open (pf := pf) (conn := conn) (name := name) (bs := bs) ((publish_posts h1).2.closed.trans hc)
    exact ⟨n2, by simp only [publishAll, h1, Option.bind_some, h2]⟩

/-- The next message of a consumer that has some. -/
theorem next_some {pf : Nat} (hw : Wired nt s) (ha : Alert s) {o : Owner κ} {k : Nat} {c : Amqp.Consumer} (ho : s.ties.lookup o = some k) (hc : s.net.consumers[k]? = some c) (hb : c.buffer ≠ []) :
    ∃ m b n, s.next pf o = some (m, b, n) ∧ n.closed = s.net.closed ∧ s.net.msgs[m]? = some ⟨o.queue, b⟩ := by
  cases hbuf : c.buffer with
  | nil => exact absurd hbuf hb
  | cons m rest =>
    obtain ⟨c0, q, e1, -, e3, e4⟩ := hw.tie _ _ ho
    rw [hc] at e1; cases e1
    obtain ⟨⟨nm, pl⟩, e5, e6⟩ := hw.sound.name_of hc e3 (.inl (by rw [hbuf]; exact List.mem_cons_self) : m ∈ c.buffer ∨ _)
    have haw : s.awake o c = true := by
      unfold St.awake
      cases hs : s.asleep o with
      | false => rfl
      | true =>
        obtain ⟨k', c', h1, h2, -, h3⟩ := ha.asleep o hs
        rw [ho] at h1; cases h1
        rw [hc] at h2; cases h2
        rcases h3 with h3 | h3
        · simp [h3]
        · exact absurd h3 hb
    have hco := consumer_spec.2 ⟨ho, hc⟩
    have hst : Amqp.step (V := Payload κ T O ε) some pf s.net (.poll k) = some
        { s.net with consumers := s.net.consumers.set k { c with buffer := rest, held := c.held ++ [m], parked := true, woken := false }, yielded := s.net.yielded ++ [(m, k)] } := by
      simp only [Amqp.step, hc, hbuf, e5, Option.bind_some]
    refine ⟨m, pl, { s.net with
      consumers := s.net.consumers.set k { c with buffer := rest, held := c.held ++ [m], parked := true, woken := false }, yielded := s.net.yielded ++ [(m, k)] }, ?_, ?_, ?_⟩
    · simp only [St.next, hco, haw, if_true, hbuf, e5, hst]
    · rfl
    · rw [e5]; simp only at e6; rw [e6, e4]

theorem stuck_nil {pf : Nat} {n : Broker κ T O ε} (hs : Amqp.Sound (V := Payload κ T O ε) some pf n) {k : Nat} {c : Amqp.Consumer} (hc : n.consumers[k]? = some c) : c.stuck = [] := by
  refine List.eq_nil_iff_forall_not_mem.2 fun m hm => ?_
  have h1 := hs.inv.client.bad c (List.mem_of_getElem? hc) m hm
  obtain ⟨d, hd, g, q, h2, -⟩ := hs.routed.dlv m k (hs.inv.client.stuck_dlv hc (.inl hm))
  have := h1 g h2
  simp at this

/-- Where a message is. -/
theorem where_is {pf : Nat} {n : Broker κ T O ε} (hs : Amqp.Sound (V := Payload κ T O ε) some pf n) {m : Nat} (hm : m < n.msgs.length) (hd : ¬ Done n m) (hl : m ∉ n.lost) (hu : m ∉ n.unroutable) :
    (∃ (i : Nat) (q : Amqp.Queue (Name κ)), n.queues[i]? = some q ∧ m ∈ q.ready) ∨ ∃ (k : Nat) (c : Amqp.Consumer), n.consumers[k]? = some c ∧ m ∈ c.unacked := by
  have h := hs.inv.data.count m
  rw [if_pos hm, List.count_eq_zero_of_not_mem hl, List.count_eq_zero_of_not_mem hu, List.count_eq_zero_of_not_mem (fun h => hd (.inl h)), List.count_eq_zero_of_not_mem (fun h => hd (.inr h))] at h
  by_cases h0 : m ∈ n.queues.flatMap Amqp.Queue.ready
  · obtain ⟨q, h1, h2⟩ := List.mem_flatMap.1 h0
    obtain ⟨i, h3⟩ := List.getElem?_of_mem h1
    exact .inl ⟨i, q, h3, h2⟩
  · rw [List.count_eq_zero_of_not_mem h0] at h
    have h1 : m ∈ n.consumers.flatMap Amqp.Consumer.unacked := List.count_pos_iff.1 (by omega)
    obtain ⟨c, h1, h2⟩ := List.mem_flatMap.1 h1
    obtain ⟨k, h3⟩ := List.getElem?_of_mem h1
    exact .inr ⟨k, c, h3, h2⟩

/-- If an owner that is served has polled and settled all it got, and the broker can deliver nothing, then no message waits for it or for anybody else who consumes its queue, if nobody else does. -/
theorem drained {pf : Nat} (hw : Wired nt s) (hpf : nt.prefetch = pf) (hup : s.net.closed = []) {o : Owner κ} (hsv : Served s o)
    (hidle : ∀ (k : Nat) (c : Amqp.Consumer) (q : Amqp.Queue (Name κ)), s.net.consumers[k]? = some c → s.net.queues[c.inst]? = some q → q.name = o.queue → c.buffer = [] ∧ c.held = [])
    (hdel : ∀ k, Amqp.step (V := Payload κ T O ε) some pf s.net (.deliver k) = none) {m : Nat} {b : Payload κ T O ε} (hm : s.net.msgs[m]? = some ⟨o.queue, b⟩)
    (hd : ¬ Done s.net m) (hl : m ∉ s.net.lost) (hu : m ∉ s.net.unroutable) : False := by
  have hs := hw.sound
  have hun : ∀ (k : Nat) (c : Amqp.Consumer) (q : Amqp.Queue (Name κ)), s.net.consumers[k]? = some c → s.net.queues[c.inst]? = some q → q.name = o.queue → c.unacked = [] := by
    intro k c q h1 h2 h3
    obtain ⟨e1, e2⟩ := hidle k c q h1 h2 h3
    have := hs.inv.client.agree k c h1 (by simp [hup])
    rw [e1, e2, stuck_nil hs h1] at this
    exact this.eq_nil
  rcases where_is hs (List.getElem?_eq_some_iff.1 hm).1 hd hl hu with ⟨i, q, h1, h2⟩ | ⟨k, c, h1, h2⟩
  · obtain ⟨k, c, p, e1, e2, e3, e4, e5⟩ := hsv
    obtain ⟨c0, p0, f1, -, f3, f4⟩ := hw.tie _ _ e1
    rw [e2] at f1; cases f1
    rw [e4] at f3; cases f3
    obtain ⟨g, q', g1, g2, g3⟩ := hs.routed.ready i q h1 m h2
    rw [hm] at g1; cases g1
    rw [h1] at g2; cases g2
    have hpr := hs.tidy.here i q h1 (List.ne_nil_of_mem h2)
    have hi := hs.inv.names.uniq i c.inst q p h1 e4 hpr e5 (g3.trans f4.symm)
    subst hi
    rw [h1] at e4; cases e4
    have hd := hdel k
    have hcan : s.net.canDeliver c = true := by simp [Amqp.St.canDeliver, e3, hup, h1, e5]
    have hlim : (decide (pf = 0) || decide (c.unacked.length < pf)) = true := by
      rw [hun k c q e2 h1 f4]
      simp only [List.length_nil, Bool.or_eq_true, decide_eq_true_eq]; omega
    cases hr : q.ready with
    | nil => rw [hr] at h2; cases h2
    | cons x rest => simp [Amqp.step, e2, hcan, h1, hr] at hd; simp at hlim; omega
  · obtain ⟨g, q', g1, g2, g3⟩ := hs.routed.unacked c (List.mem_of_getElem? h1) m h2
    rw [hm] at g1; cases g1
    rw [hun k c q' h1 g2 g3] at h2
    cases h2

variable {a : System.St κ σ T O ε χ} {ids Q : List Nat} {R : κ → List Nat}

theorem taskOf_msg {n : Broker κ T O ε} {m : Nat} {t : Msg κ T} (h : taskOf n m = some t) : n.msgs[m]? = some ⟨.bus, .task t⟩ := by
  unfold taskOf at h
  split at h
  · rename_i hm; cases h; exact hm
  · cases h

theorem resOf_msg {n : Broker κ T O ε} {j : κ} {m : Nat} {r : Except ε O} (h : resOf n j m = some r) : n.msgs[m]? = some ⟨.job j, .result r⟩ := by
  unfold resOf at h
  split at h
  · split at h
    · rename_i hm he; cases h; subst he; exact hm
    · cases h
  · cases h

/-- Worker steps that are possible in `System` are possible here, if no connection was closed. -/
theorem effect_open (hr : Rel nt s a ids Q R) (hal : Alert s) (hw : Wired nt s) (hi : System.Inv exec a) (hg : Grip a) (hup : s.net.closed = []) {w : Nat} {l : Worker.Label κ O χ} {v : Worker.St κ O χ}
    (hv : Worker.step cfg (s.worker w) l = some v) (hset : settles l = true → unsettled (s.worker w).pc = true) : ∃ n, effect nt text s w l = some n := by
  have hopen : ∀ x, x ∉ s.net.closed := by simp [hup]
  have hold : settles l = true → ∃ k m, s.ties.lookup (.worker w) = some k ∧ s.cur w = some m ∧ (∃ n, Amqp.step (V := Payload κ T O ε) some nt.prefetch s.net (.ack k m) = some n) ∧
      ∃ n, Amqp.step (V := Payload κ T O ε) some nt.prefetch s.net (.nack k m) = some n := by
    intro hl
    have hu := hset hl
    obtain ⟨m, t, h1, h2⟩ := hal.cur w (unsettled_busy hu)
    have hu' : unsettled (a.worker w).pc = true := by rw [hr.worker w (hopen _)]; exact hu
    obtain ⟨d, h3, h4, -⟩ := hi w (unsettled_busy hu')
    obtain ⟨k, c, h5, h6, h7⟩ := hr.fate w m (a.cur w) (hopen _) ⟨hr.cur w m (hopen _) h1, d, h3, hg w d hu' h3, h4⟩
    refine ⟨k, m, h5, h1, ?_, ?_⟩ <;> simp [Amqp.step, h6, h7, hup]
  cases l with
  | ack => obtain ⟨k, m, h1, h2, ⟨n, h3⟩, -⟩ := hold rfl; exact ⟨n, by simp only [effect, h1, h2, h3]⟩
  | nack => obtain ⟨k, m, h1, h2, -, ⟨n, h3⟩⟩ := hold rfl; exact ⟨n, by simp only [effect, h1, h2, h3]⟩
  | skipNack => obtain ⟨k, m, h1, h2, -, ⟨n, h3⟩⟩ := hold rfl; exact ⟨n, by simp only [effect, h1, h2, h3]⟩
  | intNack => obtain ⟨k, m, h1, h2, -, ⟨n, h3⟩⟩ := hold rfl; exact ⟨n, by simp only [effect, h1, h2, h3]⟩
  | pubOk =>
    cases hpc : (s.worker w).pc <;> simp only [effect, hpc] <;> first | exact ⟨_, rfl⟩ | exact publish_open hup
  | pubErr =>
    cases hpc : (s.worker w).pc <;> simp only [effect, hpc] <;> first | exact ⟨_, rfl⟩ | exact publish_open hup
  | _ => exact ⟨s.net, rfl⟩

theorem settles_unsettled {v v' : Worker.St κ O χ} {l : Worker.Label κ O χ} (h : Worker.step cfg v l = some v') (hl : settles l = true) : unsettled v.pc = true := by
  cases l <;> simp only [settles, Bool.false_eq_true] at hl <;> simp only [Worker.step] at h <;> (repeat' split at h) <;> simp_all [unsettled]

/-- When the workers `W` and the broker can do nothing more, there is no task left and the workers have nothing to do. -/
theorem work_quiet [Inhabited ω] {W : Nat → Bool} {K : κ → Bool} {int : (j : κ) → ℓ j → Bool} {j : κ} {as : List (System.Label κ ℓ O χ ω)} (hw : Wired nt s) (hal : Alert s) (hr : Rel nt s a ids Q R)
    (hrun : System.run cl cfg exec text (System.init cl) as = some a) (hst : ∀ l ∈ as, l.steady W = true) (hat : Attended listens W j s)
    (hstuck : ∀ l : Label κ ℓ T O ε χ ω, l.moves W K int = true → step cl listens nt cfg exec text s l = none) :
    ∀ l : System.Label κ ℓ O χ ω, l.serves W = true → System.step cl cfg exec text a l = none := by
  have hup := hat.up
  have hopen : ∀ x, x ∉ s.net.closed := by simp [hup]
  have hi := System.inv_run hrun
  have hsd := System.steady_run hrun hst
  have hg := grip_run hrun fun l hl => by
    have := hst l hl
    cases l <;> simp_all [System.Label.requeues, System.Label.steady, System.Label.serves]
  have hwk : ∀ w, a.worker w = s.worker w := fun w => hr.worker w (hopen _)
  have hwork : ∀ l : System.Label κ ℓ O χ ω, l.serves W = true → (∀ w k, l ≠ .deliver w k) → System.step cl cfg exec text a l = none := by
    intro l hl hd
    cases l with
    | lead j l => simp [System.Label.serves] at hl
    | requeue n => simp [System.Label.serves] at hl
    | deliver w k => exact absurd rfl (hd w k)
    | finish w x =>
      have := hstuck (.finish w x) (by simpa [System.Label.serves, Label.moves] using hl)
      simp only [System.step]
      split
      · rename_i d hd
        split
        · rename_i v hv
          exfalso
          have hb : busy (s.worker w).pc = true := by
            rw [hwk] at hv
            cases hpc : (s.worker w).pc <;> simp_all [Worker.step, busy]
          obtain ⟨m, t, h1, h2⟩ := hal.cur w hb
          obtain ⟨d', h3, h4⟩ : ∃ d', a.dels[a.cur w]? = some d' ∧ taskOf s.net m = some d'.msg := by
            have hid := hr.cur w m (hopen _) h1
            have := congrArg (fun x => x[a.cur w]?) hr.dels
            simp only [List.getElem?_map, hid, hd, Option.map_some, Option.some.injEq] at this
            exact ⟨d, hd, this⟩
          rw [hd] at h3; cases h3
          simp [step, h1, taskOf_msg h4, ← hwk, hv] at this
        · rfl
      · rfl
    | work w l =>
      obtain ⟨h1, h2⟩ : W w = true ∧ routine l = true := by simpa [System.Label.serves] using hl
      have := hstuck (.work w l) (by simp [Label.moves, h1, h2])
      have hv : Worker.step cfg (a.worker w) l = none := by
        cases hx : Worker.step cfg (a.worker w) l with
        | none => rfl
        | some v =>
          exfalso
          rw [hwk] at hx
          obtain ⟨n, hn⟩ := effect_open (text := text) hr hal hw hi hg hup hx fun hl => settles_unsettled hx hl
          cases l <;> simp [routine] at h2 <;> simp only [step, hx, hn, reduceCtorEq] at this
      cases l <;> simp [routine] at h2 <;> simp [System.step, hv]
  have hpc : ∀ w, W w = true → (s.worker w).pc = .waiting := fun w hW => by
    rw [← hwk]; exact System.healthy_progress hi (hsd.healthy w) hW hwork
  have hno : ∀ w m, W w = true → ¬ Holds s w m := by
    intro w m hW hh
    obtain ⟨n, ⟨-, d, h1, h2, h3⟩, -⟩ := hr.link w m (hopen _) hh
    have := (hsd.held n d h1 h2).2
    rw [h3, hwk, hpc w hW] at this
    simp [unsettled] at this
  have hq : a.queue = [] := by
    have hQ : Q = [] := by
      refine List.eq_nil_iff_forall_not_mem.2 fun m hm => ?_
      obtain ⟨h1, h2⟩ := (hr.live m).1 (.inl hm)
      obtain ⟨t, ht⟩ := Option.isSome_iff_exists.1 h1
      have hmsg := taskOf_msg ht
      obtain ⟨h3, h4⟩ := hat.kept m _ hmsg (.inl rfl)
      obtain ⟨w0, hW0, hsv⟩ := hat.worker
      refine drained hw rfl hup (o := .worker w0) hsv ?_ (fun k => ?_) hmsg h2 h3 h4
      · intro k c q e1 e2 e3
        obtain ⟨w, hW, hk⟩ := hat.bus k ⟨c, q, e1, e2, e3⟩
        constructor
        · refine Decidable.byContradiction fun hne => ?_
          obtain ⟨m', b, n, f1, f2, f3⟩ := next_some (pf := nt.prefetch) hw hal hk e1 hne
          have hst := hstuck (.deliver w) hW
          have hfit := hw.fits _ (List.mem_of_getElem? f3)
          cases b with
          | result r => exact hfit
          | task t =>
            simp only [step, f1] at hst
            simp [Worker.step, hpc w hW] at hst
        · exact List.eq_nil_iff_forall_not_mem.2 fun x hx => hno w x hW ⟨k, c, hk, e1, hx⟩
      · have := hstuck (.net (.deliver k)) rfl
        simpa [step, others] using this
    have := hr.queue
    rw [hQ] at this
    simpa using this.symm
  intro l hl
  cases l with
  | deliver w k => simp [System.step, hq, Fold.takeAt]
  | _ => exact hwork _ hl nofun

/-- When the leader of a job and the broker can do nothing more, the leader has nothing to do. -/
theorem lead_quiet (j : κ) {int : ℓ j → Bool} (hrs : SystemMem.Responsive (cl j) (listens j) int) {W : Nat → Bool} (hw : Wired nt s) (hal : Alert s) (hr : Rel nt s a ids Q R) (hat : Attended listens W j s)
    (h1 : ∀ l, int l = true → step (ω := ω) cl listens nt cfg exec text s (.lead j l) = none) (h2 : ∀ l, int l = true → step (ω := ω) cl listens nt cfg exec text s (.recv j l) = none)
    (h3 : step (ω := ω) cl listens nt cfg exec text s (.ackRes j) = none) (h4 : ∀ k, step (ω := ω) cl listens nt cfg exec text s (.net (.deliver k)) = none) (l : ℓ j) (hl : int l = true) :
    System.step (ω := ω) cl cfg exec text a (.lead j l) = none := by
  have hup := hat.up
  cases hs : (cl j).step (s.lead j) l (a.results j) with
  | none => simp [System.step, hr.lead, hs]
  | some y =>
    exfalso
    rcases hrs _ _ _ _ hl hs with ⟨⟨x, ts, rs⟩, hy⟩ | ⟨hne, hon, hany⟩
    · have := h1 l hl
      obtain ⟨n, hn⟩ := publishAll_open (pf := nt.prefetch) (conn := nt.lconn j) (name := .bus) (bs := ts.map fun t => (Payload.task ⟨j, t⟩ : Payload κ T O ε)) hup
      simp [step, hy, hn] at this
    · have hR : R j ≠ [] := by
        intro h0
        have := hr.results j
        rw [h0] at this
        exact hne (by simpa using this.symm)
      obtain ⟨m, hm⟩ := List.exists_mem_of_ne_nil _ hR
      obtain ⟨e1, e2⟩ := (hr.rmem j m).1 hm
      obtain ⟨r, hres⟩ := Option.isSome_iff_exists.1 e1
      have hmsg := resOf_msg hres
      obtain ⟨h5, h6⟩ := hat.kept m _ hmsg (.inr rfl)
      refine drained hw rfl hup (o := .job j) (hat.leader hon) ?_ (fun k => ?_) hmsg ?_ h5 h6
      · intro k c q f1 f2 f3
        have hk := hat.res k ⟨c, q, f1, f2, f3⟩
        constructor
        · refine Decidable.byContradiction fun hne => ?_
          obtain ⟨m', b, n, g1, g2, g3⟩ := next_some (pf := nt.prefetch) hw hal hk f1 hne
          have hfit := hw.fits _ (List.mem_of_getElem? g3)
          cases b with
          | task t => exact hfit
          | result r' =>
            obtain ⟨l', x, ts, i1, i2⟩ := hany r'
            have := h2 l' i1
            obtain ⟨n', hn⟩ := publishAll_open (pf := nt.prefetch) (conn := nt.lconn j) (name := .bus) (bs := ts.map fun t => (Payload.task ⟨j, t⟩ : Payload κ T O ε)) (g2.trans hup)
            simp [step, g1, i2, hn] at this
        · cases hh : c.held with
          | nil => rfl
          | cons x rest =>
            have := h3
            simp [step, consumer_spec.2 ⟨hk, f1⟩, hh, Amqp.step, f1, hup] at this
      · have := h4 k
        simpa [step, others] using this
      · intro hd
        obtain ⟨k, hy⟩ := hw.sound.tidy.done m hd
        have hdl : (m, k) ∈ s.net.dlv := by
          obtain ⟨o, ho⟩ := hw.yielded m k hy
          obtain ⟨c, q, f1, -⟩ := hw.tie o k ho
          have := hw.sound.inv.client.log k c f1 m
          have h0 := List.count_pos_iff.2 hy
          exact List.count_pos_iff.1 (by omega)
        obtain ⟨c, f1, g, q, f2, f3, f4⟩ := hw.sound.routed.dlv m k hdl
        rw [hmsg] at f2; cases f2
        exact e2 k (hat.res k ⟨c, q, f1, f3, f4⟩) hy

end
end SystemAmqp
end Paladin
