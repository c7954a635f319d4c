import Verif.Spec.AftermathAmqp
import Verif.Proofs.Aftermath
import Verif.Proofs.SystemAmqp
/-! # Workers on a broker after an abort-all command -/
namespace Paladin
namespace SystemAmqp
open Retry System

section
variable {κ : Type} {σ ℓ : κ → Type} [DecidableEq κ] {T O ε χ ω : Type} {cl : (j : κ) → Client (σ j) (ℓ j) T (Except ε O)} {listens : (j : κ) → σ j → Bool} {nt : Net κ} {cfg : Worker.Cfg κ}
  {exec : ω → T → Except (OpError χ) O} {text : OpError χ → ε}

/-- The step of a worker in a step of the system. -/
theorem worker_label {s s' : St κ σ T O ε χ} {l : Label κ ℓ T O ε χ ω} (h : step cl listens nt cfg exec text s l = some s') (w : Nat) :
    s'.worker w = s.worker w ∨ ∃ wl, Worker.step cfg (s.worker w) wl = some (s'.worker w) ∧
      (l = .work w wl ∧ (∀ k, wl ≠ .deliver k) ∧ (∀ r, wl ≠ .finish r) ∨ (∃ k, l = .deliver w ∧ wl = .deliver k) ∨ ∃ x r, l = .finish w x ∧ wl = .finish r) := by
  cases l with
  | lead j l =>
    simp only [step] at h
    split at h <;> try simp only [reduceCtorEq] at h
    split at h <;> simp only [Option.some.injEq, reduceCtorEq] at h
    subst h; exact .inl rfl
  | recv j l =>
    simp only [step] at h
    split at h <;> try simp only [reduceCtorEq] at h
    split at h <;> try simp only [reduceCtorEq] at h
    split at h <;> simp only [Option.some.injEq, reduceCtorEq] at h
    subst h; exact .inl rfl
  | sleep o =>
    simp only [step] at h
    split at h <;> try simp only [reduceCtorEq] at h
    split at h <;> simp only [Option.map_eq_some_iff, reduceCtorEq] at h
    obtain ⟨n, -, rfl⟩ := h; exact .inl rfl
  | ackRes j =>
    simp only [step] at h
    split at h <;> try simp only [reduceCtorEq] at h
    split at h <;> simp only [Option.map_eq_some_iff, reduceCtorEq] at h
    obtain ⟨n, -, rfl⟩ := h; exact .inl rfl
  | deliver w' =>
    simp only [step] at h
    split at h <;> try simp only [reduceCtorEq] at h
    split at h <;> simp only [Option.some.injEq, reduceCtorEq] at h
    rename_i v hv
    subst h
    by_cases hw : w = w'
    · subst hw; exact .inr ⟨_, by simpa using hv, .inr (.inl ⟨_, rfl, rfl⟩)⟩
    · left; simp [Function.update_of_ne hw]
  | finish w' x =>
    simp only [step] at h
    split at h <;> try simp only [reduceCtorEq] at h
    split at h <;> simp only [Option.some.injEq, reduceCtorEq] at h
    rename_i v hv
    subst h
    by_cases hw : w = w'
    · subst hw; exact .inr ⟨_, by simpa using hv, .inr (.inr ⟨_, _, rfl, rfl⟩)⟩
    · left; simp [Function.update_of_ne hw]
  | work w' l =>
    simp only [step] at h
    split at h <;> try simp only [reduceCtorEq] at h
    rename_i h1 h2
    split at h <;> simp only [Option.some.injEq, reduceCtorEq] at h
    rename_i v n hv _
    subst h
    by_cases hw : w = w'
    · subst hw; exact .inr ⟨_, by simpa using hv, .inl ⟨rfl, fun k e => h1 _ e, fun r e => h2 _ e⟩⟩
    · left; simp [Function.update_of_ne hw]
  | attach o k =>
    simp only [step] at h
    split at h <;> try simp only [reduceCtorEq] at h
    split at h <;> simp only [Option.some.injEq, reduceCtorEq] at h
    subst h; exact .inl rfl
  | net l =>
    simp only [step] at h
    split at h <;> simp only [Option.map_eq_some_iff, reduceCtorEq] at h
    obtain ⟨n, -, rfl⟩ := h; exact .inl rfl

omit [DecidableEq κ] in
theorem OnlyAbortAll.init {ls : List (Label κ ℓ T O ε χ ω)} {l} (h : OnlyAbortAll cfg (ls ++ [l])) : OnlyAbortAll cfg ls := fun w k hm => h w k (by simp [hm])

theorem clean_run (ls : List (Label κ ℓ T O ε χ ω)) (s : St κ σ T O ε χ) (h : run cl listens nt cfg exec text (init cl) ls = some s) (ha : OnlyAbortAll cfg ls) (w : Nat) : Worker.Clean cfg (s.worker w) := by
  revert ha
  refine Lts.run_induction (P := fun ls (s : St κ σ T O ε χ) => OnlyAbortAll cfg ls → Worker.Clean cfg (s.worker w)) ?_ ?_ ls s h
  · exact fun _ => Worker.clean_init
  · intro ls l s s' hr ih hst ha
    rcases worker_label hst w with e | ⟨wl, e, hwl⟩
    · rw [e]; exact ih ha.init
    · refine Worker.clean_step (ih ha.init) ?_ e
      rintro k rfl
      rcases hwl with ⟨rfl, _⟩ | ⟨_, _, h⟩ | ⟨_, _, _, h⟩
      · exact ha w k (by simp)
      · cases h
      · cases h

theorem heard_run (ls : List (Label κ ℓ T O ε χ ω)) (s : St κ σ T O ε χ) (h : run cl listens nt cfg exec text (init cl) ls = some s) (w : Nat) (hh : Heard w ls) : (s.worker w).watch ≠ [] := by
  revert hh
  refine Lts.run_induction (P := fun ls (s : St κ σ T O ε χ) => Heard w ls → (s.worker w).watch ≠ []) ?_ ?_ ls s h
  · intro h; simp [Heard] at h
  · intro ls l s s' hr ih hst hh
    have hmem : Heard w ls ∨ l = .work w .hSend := by simpa [Heard, eq_comm] using hh
    rcases hmem with hm | rfl
    · rcases worker_label hst w with e | ⟨wl, e, _⟩
      · rw [e]; exact ih hm
      · exact (Worker.watch_step e).1 (ih hm)
    · simp only [step] at hst
      split at hst <;> simp only [Option.some.injEq, reduceCtorEq] at hst
      rename_i v n hv _
      subst hst
      simpa using (Worker.watch_step hv).2 rfl

theorem AfterAbort.init {j : κ} {ls : List (Label κ ℓ T O ε χ ω)} {l} (h : AfterAbort cl listens nt cfg exec text j (ls ++ [l])) : AfterAbort cl listens nt cfg exec text j ls := by
  rintro pre w post s i rfl
  exact h pre w (post ++ [l]) s i (by simp)

theorem Prompt.init {j : κ} {ls : List (Label κ ℓ T O ε χ ω)} {l} (h : Prompt cl listens nt cfg exec text j (ls ++ [l])) : Prompt cl listens nt cfg exec text j ls := by
  rintro pre w x post s i n r rfl
  exact h pre w x (post ++ [l]) s i n r (by simp)

theorem mute_run {j : κ} (ls : List (Label κ ℓ T O ε χ ω)) (s : St κ σ T O ε χ) (h : run cl listens nt cfg exec text (init cl) ls = some s) (ha : OnlyAbortAll cfg ls)
    (hd : AfterAbort cl listens nt cfg exec text j ls) (hp : Prompt cl listens nt cfg exec text j ls) (w : Nat) : Worker.Mute j (s.worker w) := by
  revert ha hd hp
  refine Lts.run_induction (P := fun ls (s : St κ σ T O ε χ) => OnlyAbortAll cfg ls → AfterAbort cl listens nt cfg exec text j ls → Prompt cl listens nt cfg exec text j ls → Worker.Mute j (s.worker w)) ?_ ?_ ls s h
  · intro _ _ _; simp [init, Worker.init, Worker.Mute]
  · intro ls l s s' hr ih hst ha hd hp
    have ih := ih ha.init hd.init hp.init
    rcases worker_label hst w with e | ⟨wl, e, hwl⟩
    · rw [e]; exact ih
    · refine Worker.mute_step (clean_run ls s hr ha.init w) ih ?_ ?_ e
      · rintro rfl
        rcases hwl with ⟨rfl, h, _⟩ | ⟨k, rfl, h⟩ | ⟨_, _, _, h⟩
        · exact absurd rfl (h _)
        · have hpc : ∃ i, (s'.worker w).pc = .got i j := by
            simp only [Worker.step] at e
            split at e <;> simp only [Option.some.injEq, reduceCtorEq] at e
            exact ⟨_, by rw [← e]⟩
          obtain ⟨i, hpc⟩ := hpc
          exact heard_run ls s hr w (hd ls w [] s' i rfl (Lts.run_append.2 ⟨s, hr, Lts.run_one.2 hst⟩) hpc)
        · cases h
      · rintro r rfl i seen b hpc
        rcases hwl with ⟨rfl, _, h⟩ | ⟨k, _, h⟩ | ⟨x, r', rfl, h⟩
        · exact absurd rfl (h _)
        · cases h
        · exact hp ls w x [] s i seen b rfl hr hpc

/-- No result for job `j` has been published. -/
def Unanswered (j : κ) (n : Broker κ T O ε) : Prop := ∀ r, (⟨.job j, .result r⟩ : Amqp.Msg (Name κ) (Payload κ T O ε)) ∉ n.msgs

theorem Unanswered.posts_tasks {j : κ} {n n' : Broker κ T O ε} (h : Unanswered j n) {j' : κ} {ts : List T} (hp : Amqp.Posts .bus (ts.map fun t => .task ⟨j', t⟩) n n') : Unanswered j n' := by
  intro r hr
  rw [hp.msgs] at hr
  rcases List.mem_append.1 hr with hr | hr
  · exact h r hr
  · simp at hr

/-- Nothing is received if nothing has been published. -/
theorem no_recv {s s' : St κ σ T O ε χ} {j : κ} {l : ℓ j} (hw : Wired nt s) (hu : Unanswered j s.net) : step cl listens nt cfg exec text s (.recv j l : Label κ ℓ T O ε χ ω) ≠ some s' := by
  intro h
  simp only [step] at h
  split at h <;> try simp only [reduceCtorEq] at h
  rename_i m r n hnx
  obtain ⟨k, c, g, rest, h1, h2, h3, h4, h5, h6, h7, h8⟩ := next_spec hnx
  obtain ⟨c0, q, hc0, hconn, hq, hname⟩ := hw.tie _ _ h1
  rw [h2] at hc0; cases hc0
  obtain ⟨g', hg', hgn⟩ := hw.sound.name_of h2 hq (.inl (by rw [h3]; simp) : m ∈ c.buffer ∨ _)
  rw [h4] at hg'; cases hg'
  obtain ⟨gn, gb⟩ := g
  simp only at h5 hgn
  rw [hname] at hgn
  subst h5 hgn
  exact hu r (List.mem_of_getElem? h4)

theorem unanswered_step {s s' : St κ σ T O ε χ} {j : κ} {l : Label κ ℓ T O ε χ ω} (hw : Wired nt s) (hu : Unanswered j s.net) (hm : ∀ w, Worker.Mute j (s.worker w))
    (h : step cl listens nt cfg exec text s l = some s') : Unanswered j s'.net := by
  have same : s'.net.msgs = s.net.msgs → Unanswered j s'.net := fun e r hr => hu r (e ▸ hr)
  cases l with
  | lead j' l =>
    simp only [step] at h
    split at h <;> try simp only [reduceCtorEq] at h
    split at h <;> simp only [Option.some.injEq, reduceCtorEq] at h
    rename_i n hn
    subst h
    exact hu.posts_tasks (publishAll_posts hn)
  | recv j' l =>
    simp only [step] at h
    split at h <;> try simp only [reduceCtorEq] at h
    rename_i m r n hnx
    split at h <;> try simp only [reduceCtorEq] at h
    split at h <;> simp only [Option.some.injEq, reduceCtorEq] at h
    rename_i n' hn
    subst h
    obtain ⟨k, c, g, rest, h1, h2, h3, h4, h5, h6, h7, h8⟩ := next_spec hnx
    refine Unanswered.posts_tasks (n := n) ?_ (publishAll_posts hn)
    intro r hr
    exact hu r (by rw [h8] at hr; exact hr)
  | sleep o =>
    simp only [step] at h
    split at h <;> try simp only [reduceCtorEq] at h
    rename_i k c hco
    obtain ⟨h1, h2⟩ := consumer_spec.1 hco
    split at h <;> simp only [Option.map_eq_some_iff, reduceCtorEq] at h
    rename_i hcond
    obtain ⟨n, hn, rfl⟩ := h
    simp only [Bool.and_eq_true, List.isEmpty_iff] at hcond
    exact same (Amqp.quiet_step hw.nopub (by simp) (by
      intro k' c' he hc'
      injection he with he
      subst he
      rw [h2] at hc'; cases hc'
      exact hcond.2) (by simp) (by simp) hn).1.msgs
  | ackRes j =>
    simp only [step] at h
    split at h <;> try simp only [reduceCtorEq] at h
    split at h <;> simp only [Option.map_eq_some_iff, reduceCtorEq] at h
    obtain ⟨n, hn, rfl⟩ := h
    exact same (settles_ack hn).msgs
  | deliver w =>
    simp only [step] at h
    split at h <;> try simp only [reduceCtorEq] at h
    rename_i m t n hnx
    split at h <;> simp only [Option.some.injEq, reduceCtorEq] at h
    subst h
    obtain ⟨k, c, g, rest, h1, h2, h3, h4, h5, h6, h7, h8⟩ := next_spec hnx
    exact same (by rw [h8])
  | finish w x =>
    simp only [step] at h
    split at h <;> try simp only [reduceCtorEq] at h
    split at h <;> simp only [Option.some.injEq, reduceCtorEq] at h
    subst h
    exact hu
  | work w l =>
    simp only [step] at h
    split at h <;> try simp only [reduceCtorEq] at h
    split at h <;> simp only [Option.some.injEq, reduceCtorEq] at h
    rename_i v n hv he
    subst h
    have pub : ∀ k r, k ≠ j → publish nt.prefetch s.net (nt.wconn w) (.job k) (.result r) = some n → Unanswered j n := by
      intro k r hk hp r' hr'
      rw [(publish_posts hp).2.msgs] at hr'
      rcases List.mem_append.1 hr' with hr' | hr'
      · exact hu r' hr'
      · simp only [List.map_cons, List.map_nil, List.mem_singleton, Amqp.Msg.mk.injEq, Name.job.injEq] at hr'
        exact hk hr'.1.symm
    by_cases hl : l = .pubOk ∨ l = .pubErr
    · obtain ⟨k, hk, hpc⟩ := Worker.mute_pub (hm w) hl hv
      rcases hl with rfl | rfl <;> rcases hpc with ⟨_, _, _, _, hpc⟩ | ⟨_, _, _, _, _, hpc⟩
      · simp only [effect, hpc] at he
        exact pub _ _ hk he
      · simp [Worker.step, hpc] at hv
      · simp [Worker.step, hpc] at hv
      · simp only [effect, hpc] at he
        exact pub _ _ hk he
    · unfold effect at he
      split at he
      · split at he <;> try simp only [reduceCtorEq] at he
        exact same (settles_ack he).msgs
      · split at he <;> try simp only [reduceCtorEq] at he
        exact same (settles_nack he).msgs
      · split at he <;> try simp only [reduceCtorEq] at he
        exact same (settles_nack he).msgs
      · split at he <;> try simp only [reduceCtorEq] at he
        exact same (settles_nack he).msgs
      · exact absurd (.inl rfl) hl
      · exact absurd (.inr rfl) hl
      · simp only [Option.some.injEq] at he
        subst he
        exact hu
  | attach o k =>
    simp only [step] at h
    split at h <;> try simp only [reduceCtorEq] at h
    split at h <;> simp only [Option.some.injEq, reduceCtorEq] at h
    subst h; exact hu
  | net l =>
    simp only [step] at h
    split at h <;> simp only [Option.map_eq_some_iff, reduceCtorEq] at h
    rename_i ho
    obtain ⟨n, hn, rfl⟩ := h
    exact same (others_quiet hw ho hn).1.msgs

theorem wired_run (ls : List (Label κ ℓ T O ε χ ω)) (s : St κ σ T O ε χ) (h : run cl listens nt cfg exec text (init cl) ls = some s) : Wired nt s :=
  Lts.run_inv wired_init (fun _ _ _ hi hs => wired_step hi hs) h

theorem silent_run {j : κ} (ls : List (Label κ ℓ T O ε χ ω)) (s : St κ σ T O ε χ) (h : run cl listens nt cfg exec text (init cl) ls = some s) (ha : OnlyAbortAll cfg ls)
    (hd : AfterAbort cl listens nt cfg exec text j ls) (hp : Prompt cl listens nt cfg exec text j ls) : Unanswered j s.net ∧ ∀ l, .recv j l ∉ ls := by
  revert ha hd hp
  refine Lts.run_induction (P := fun ls (s : St κ σ T O ε χ) => OnlyAbortAll cfg ls → AfterAbort cl listens nt cfg exec text j ls → Prompt cl listens nt cfg exec text j ls →
    Unanswered j s.net ∧ ∀ l, .recv j l ∉ ls) ?_ ?_ ls s h
  · intro _ _ _; exact ⟨by intro r; simp [init, Amqp.init], by simp⟩
  · intro ls l s s' hr ih hst ha hd hp
    obtain ⟨ih1, ih2⟩ := ih ha.init hd.init hp.init
    have hw := wired_run ls s hr
    refine ⟨unanswered_step hw ih1 (mute_run ls s hr ha.init hd.init hp.init) hst, fun x hx => ?_⟩
    rcases List.mem_append.1 hx with hx | hx
    · exact ih2 x hx
    · rw [← List.mem_singleton.1 hx] at hst
      exact no_recv hw ih1 hst

/-- The steps of a leader, one step later. -/
theorem leads_other {j : κ} {ls : List (Label κ ℓ T O ε χ ω)} {l : Label κ ℓ T O ε χ ω} (h : ∀ x, l ≠ .lead j x) (h' : ∀ x, l ≠ .recv j x) : Label.leads j (ls ++ [l]) = Label.leads j ls := by
  rw [Label.leads_append]
  have : Label.leads j [l] = [] := by
    cases l with
    | lead j' x =>
      have hj : j' ≠ j := by rintro rfl; exact h x rfl
      simp [Label.leads, hj]
    | recv j' x =>
      have hj : j' ≠ j := by rintro rfl; exact h' x rfl
      simp [Label.leads, hj]
    | _ => rfl
  rw [this, List.append_nil]

theorem leads_one (j : κ) (l : ℓ j) : Label.leads j ([.lead j l] : List (Label κ ℓ T O ε χ ω)) = [l] := by simp [Label.leads]

/-- The step of a leader that receives nothing. -/
theorem lead_label {s s' : St κ σ T O ε χ} {l : Label κ ℓ T O ε χ ω} (h : step cl listens nt cfg exec text s l = some s') (j : κ) (hn : ∀ x, l ≠ .recv j x) :
    s'.lead j = s.lead j ∧ (∀ x, l ≠ .lead j x) ∨ ∃ x ts rs, l = .lead j x ∧ (cl j).step (s.lead j) x [] = some (s'.lead j, ts, rs) := by
  cases l with
  | lead j' l =>
    simp only [step] at h
    split at h <;> try simp only [reduceCtorEq] at h
    rename_i hc
    split at h <;> simp only [Option.some.injEq, reduceCtorEq] at h
    subst h
    by_cases hj : j' = j
    · subst hj; exact .inr ⟨l, _, _, rfl, by simpa using hc⟩
    · exact .inl ⟨Function.update_of_ne (Ne.symm hj) .., by rintro x hx; cases hx; exact hj rfl⟩
  | recv j' l =>
    have hj : j' ≠ j := by rintro rfl; exact hn l rfl
    simp only [step] at h
    split at h <;> try simp only [reduceCtorEq] at h
    split at h <;> try simp only [reduceCtorEq] at h
    split at h <;> simp only [Option.some.injEq, reduceCtorEq] at h
    subst h
    exact .inl ⟨Function.update_of_ne (Ne.symm hj) .., by rintro x ⟨⟩⟩
  | sleep o =>
    simp only [step] at h
    split at h <;> try simp only [reduceCtorEq] at h
    split at h <;> simp only [Option.map_eq_some_iff, reduceCtorEq] at h
    obtain ⟨n, -, rfl⟩ := h; exact .inl ⟨rfl, by rintro x ⟨⟩⟩
  | ackRes j =>
    simp only [step] at h
    split at h <;> try simp only [reduceCtorEq] at h
    split at h <;> simp only [Option.map_eq_some_iff, reduceCtorEq] at h
    obtain ⟨n, -, rfl⟩ := h; exact .inl ⟨rfl, by rintro x ⟨⟩⟩
  | net l =>
    simp only [step] at h
    split at h <;> simp only [Option.map_eq_some_iff, reduceCtorEq] at h
    obtain ⟨n, -, rfl⟩ := h; exact .inl ⟨rfl, by rintro x ⟨⟩⟩
  | deliver w' =>
    simp only [step] at h
    split at h <;> try simp only [reduceCtorEq] at h
    split at h <;> simp only [Option.some.injEq, reduceCtorEq] at h
    subst h; exact .inl ⟨rfl, by rintro x ⟨⟩⟩
  | finish w' x =>
    simp only [step] at h
    split at h <;> try simp only [reduceCtorEq] at h
    split at h <;> simp only [Option.some.injEq, reduceCtorEq] at h
    subst h; exact .inl ⟨rfl, by rintro x ⟨⟩⟩
  | work w' l =>
    simp only [step] at h
    split at h <;> try simp only [reduceCtorEq] at h
    split at h <;> simp only [Option.some.injEq, reduceCtorEq] at h
    subst h; exact .inl ⟨rfl, by rintro x ⟨⟩⟩
  | attach o k =>
    simp only [step] at h
    split at h <;> try simp only [reduceCtorEq] at h
    split at h <;> simp only [Option.some.injEq, reduceCtorEq] at h
    subst h; exact .inl ⟨rfl, by rintro x ⟨⟩⟩

/-- A property of the leader that its own steps without a result preserve. -/
theorem waits_run {j : κ} {P : List (ℓ j) → σ j → Prop} (h0 : P [] (cl j).init) (hP : ∀ xs x l x' ts rs, P xs x → (cl j).step x l [] = some (x', ts, rs) → P (xs ++ [l]) x')
    (ls : List (Label κ ℓ T O ε χ ω)) (s : St κ σ T O ε χ) (h : run cl listens nt cfg exec text (init cl) ls = some s) (hn : ∀ l, .recv j l ∉ ls) : P (Label.leads j ls) (s.lead j) := by
  revert hn
  refine Lts.run_induction (P := fun ls (s : St κ σ T O ε χ) => (∀ l, .recv j l ∉ ls) → P (Label.leads j ls) (s.lead j)) ?_ ?_ ls s h
  · exact fun _ => h0
  · intro ls l s s' _ ih hst hn
    have ih := ih fun x hx => hn x (by simp [hx])
    have hl : ∀ x, l ≠ .recv j x := by rintro x rfl; exact hn x (by simp)
    rcases lead_label hst j hl with ⟨e, h1⟩ | ⟨x, ts, rs, rfl, hx⟩
    · rw [e, leads_other h1 hl]; exact ih
    · rw [Label.leads_append, leads_one]
      exact hP _ _ _ _ _ _ ih hx

/-- Checks `AfterAbort` position by position (for the examples). -/
def afterAbortB (cl : (j : κ) → Client (σ j) (ℓ j) T (Except ε O)) (listens : (j : κ) → σ j → Bool) (nt : Net κ) (cfg : Worker.Cfg κ) (exec : ω → T → Except (OpError χ) O) (text : OpError χ → ε) (j : κ)
    (ls : List (Label κ ℓ T O ε χ ω)) : Bool :=
  (List.range ls.length).all fun n => match ls[n]? with
    | some (.deliver w) => match run cl listens nt cfg exec text (init cl) (ls.take n ++ [.deliver w]) with
      | some s => match (s.worker w).pc with
        | .got _ k => decide (k ≠ j) || (ls.take n).any fun l => match l with | .work w' .hSend => decide (w' = w) | _ => false
        | _ => true
      | none => true
    | _ => true

theorem afterAbort_of {j : κ} {ls : List (Label κ ℓ T O ε χ ω)} (h : afterAbortB cl listens nt cfg exec text j ls = true) : AfterAbort cl listens nt cfg exec text j ls := by
  intro pre w post s i hls hs hpc
  have := List.all_eq_true.1 h pre.length (by simp [hls])
  rw [show ls[pre.length]? = some (.deliver w) by simp [hls]] at this
  simp only at this
  rw [show ls.take pre.length = pre by simp [hls], hs] at this
  simp only [hpc, ne_eq, not_true_eq_false, decide_false, Bool.false_or, List.any_eq_true] at this
  obtain ⟨l, hl, e⟩ := this
  split at e
  · rename_i w'
    exact (of_decide_eq_true e : w' = w) ▸ hl
  · cases e

/-- Checks `Prompt` position by position (for the examples). -/
def promptB (cl : (j : κ) → Client (σ j) (ℓ j) T (Except ε O)) (listens : (j : κ) → σ j → Bool) (nt : Net κ) (cfg : Worker.Cfg κ) (exec : ω → T → Except (OpError χ) O) (text : OpError χ → ε) (j : κ)
    (ls : List (Label κ ℓ T O ε χ ω)) : Bool :=
  (List.range ls.length).all fun n => match ls[n]? with
    | some (.finish w _) => match run cl listens nt cfg exec text (init cl) (ls.take n) with
      | some s => match (s.worker w).pc with
        | .running _ j' seen _ => decide (j' ≠ j) || decide (seen = (s.worker w).watch.length)
        | _ => true
      | none => true
    | _ => true

theorem prompt_of {j : κ} {ls : List (Label κ ℓ T O ε χ ω)} (h : promptB cl listens nt cfg exec text j ls = true) : Prompt cl listens nt cfg exec text j ls := by
  intro pre w x post s i seen r hls hs hp
  have := List.all_eq_true.1 h pre.length (by simp [hls])
  rw [show ls[pre.length]? = some (.finish w x) by simp [hls]] at this
  simp only at this
  rw [show ls.take pre.length = pre by simp [hls], hs] at this
  simpa [hp] using this

end
end SystemAmqp
end Paladin
