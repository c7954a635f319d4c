import Verif.Proofs.AmqpServe
/-! # AMQP: what a client of one queue needs to know -/
namespace Paladin
namespace Amqp

variable {N B V : Type} [DecidableEq N] {dec : B → Option V} {prefetch : Nat} {s s' : St N B} {l : Label N B} {ls : List (Label N B)}

/-- A message is delivered to a consumer at most once. -/
structure Once (s : St N B) : Prop where
  nodup : s.dlv.Nodup
  settled : ∀ m k c, (m, k) ∈ s.dlv → s.consumers[k]? = some c → c.conn ∉ s.closed → m ∈ c.unacked ∨ m ∈ s.acked ∨ m ∈ s.nacked

theorem once_init : Once (init : St N B) := by constructor <;> simp [init]

/-- What is ready in a queue is settled by nobody and with nobody. -/
theorem Data.ready_only (hd : Data s) {i : Nat} {q : Queue N} (hq : s.queues[i]? = some q) {m : Nat} (hm : m ∈ q.ready) :
    m ∉ s.acked ∧ m ∉ s.nacked ∧ ∀ c ∈ s.consumers, m ∉ c.unacked := by
  have h0 : m ∈ s.queues.flatMap Queue.ready := List.mem_flatMap.2 ⟨q, List.mem_of_getElem? hq, hm⟩
  have h1 := List.count_pos_iff.2 h0
  have h2 := hd.count m
  have h3 : (if m < s.msgs.length then 1 else 0) ≤ 1 := by split <;> omega
  refine ⟨?_, ?_, ?_⟩
  · intro h; have := List.count_pos_iff.2 h; omega
  · intro h; have := List.count_pos_iff.2 h; omega
  · intro c hc h
    have := List.count_pos_iff.2 (List.mem_flatMap.2 ⟨c, hc, h⟩ : m ∈ s.consumers.flatMap Consumer.unacked)
    omega

/-- What is delivered and not settled is in no other place. -/
theorem Data.unacked_only (hd : Data s) {k : Nat} {c : Consumer} (hc : s.consumers[k]? = some c) {m : Nat} (hm : m ∈ c.unacked) :
    m ∉ s.acked ∧ m ∉ s.nacked ∧ c.unacked.count m = 1 ∧ ∀ k' c', s.consumers[k']? = some c' → m ∈ c'.unacked → k' = k := by
  have h0 : m ∈ s.consumers.flatMap Consumer.unacked := List.mem_flatMap.2 ⟨c, List.mem_of_getElem? hc, hm⟩
  have h1 := List.count_pos_iff.2 h0
  have h2 := hd.count m
  have h3 : (if m < s.msgs.length then 1 else 0) ≤ 1 := by split <;> omega
  have h4 := count_set (f := Consumer.unacked) { c with unacked := [] } hc m
  have h5 := List.count_pos_iff.2 hm
  simp only [List.count_nil] at h4
  refine ⟨?_, ?_, by omega, ?_⟩
  · intro h; have := List.count_pos_iff.2 h; omega
  · intro h; have := List.count_pos_iff.2 h; omega
  · intro k' c' hc' h
    refine Decidable.byContradiction fun hk => ?_
    have h6 : c' ∈ s.consumers.set k { c with unacked := [] } := by
      refine List.mem_of_getElem? (i := k') ?_
      rw [List.getElem?_set_ne (Ne.symm hk)]; exact hc'
    have := List.count_pos_iff.2 (List.mem_flatMap.2 ⟨c', h6, h⟩ : m ∈ (s.consumers.set k { c with unacked := [] }).flatMap Consumer.unacked)
    omega

theorem once_step (hi : Inv dec prefetch s) (ho : Once s) (h : step dec prefetch s l = some s') : Once s' := by
  have he := eff_of_step hi.names h
  have hcl : ∀ x, x ∉ s'.closed → x ∉ s.closed := fun x hx hx' => hx (closed_mono h x hx')
  generalize s'.calls = cs at he
  generalize s'.closed = cl at he hcl
  clear h
  obtain ⟨h1, h2⟩ := ho
  have g : ∀ m k c, (m, k) ∈ s.dlv → s.consumers[k]? = some c → c.conn ∉ cl → m ∈ c.unacked ∨ m ∈ s.acked ∨ m ∈ s.nacked := fun m k c h h' h'' => h2 m k c h h' (hcl _ h'')
  -- a consumer is changed, and nothing delivered
  have upd : ∀ (k : Nat) (c c' : Consumer) (ac na : List Nat), s.consumers[k]? = some c → c'.conn = c.conn → (∀ m ∈ s.acked, m ∈ ac) → (∀ m ∈ s.nacked, m ∈ na) →
      (c.conn ∉ s.closed → ∀ m ∈ c.unacked, m ∈ c'.unacked ∨ m ∈ ac ∨ m ∈ na) →
      ∀ m j d, (m, j) ∈ s.dlv → (s.consumers.set k c')[j]? = some d → d.conn ∉ cl → m ∈ d.unacked ∨ m ∈ ac ∨ m ∈ na := by
    intro k c c' ac na hc hconn ha hn hu m j d hm hd hcl'
    rcases getElem?_set' hd with ⟨rfl, rfl⟩ | ⟨_, hd⟩
    · rw [hconn] at hcl'
      rcases g m k c hm hc hcl' with h | h | h
      · exact hu (hcl _ hcl') m h
      · exact .inr (.inl (ha m h))
      · exact .inr (.inr (hn m h))
    · rcases g m j d hm hd hcl' with h | h | h
      · exact .inl h
      · exact .inr (.inl (ha m h))
      · exact .inr (.inr (hn m h))
  cases he with
  | other es bs hb => exact ⟨h1, g⟩
  | newQueue n a h => exact ⟨h1, g⟩
  | bind i q bs h hp hb => exact ⟨h1, g⟩
  | remove i q h => exact ⟨h1, g⟩
  | pub i q b h hp => exact ⟨h1, g⟩
  | unr n b => exact ⟨h1, g⟩
  | consume conn i q h hp =>
    refine ⟨h1, ?_⟩
    intro m k c hm hc ho
    rcases getElem?_snoc hc with hc | ⟨rfl, rfl⟩
    · exact g m k c hm hc ho
    · exact absurd hm (hi.client.fresh _ (Nat.le_refl _) m).1
  | deliver k c q m rest hc hq hr hcan hpf =>
    have hopen : c.conn ∉ s.closed := by
      simp only [St.canDeliver, Bool.and_eq_true, Bool.not_eq_true', List.contains_eq_mem, decide_eq_false_iff_not] at hcan
      exact hcan.1.2
    have hmr : m ∈ q.ready := by rw [hr]; exact List.mem_cons_self
    obtain ⟨ho1, ho2, ho3⟩ := hi.data.ready_only hq hmr
    have hnew : (m, k) ∉ s.dlv := by
      intro h
      rcases h2 m k c h hc hopen with h | h | h
      · exact ho3 c (List.mem_of_getElem? hc) h
      · exact ho1 h
      · exact ho2 h
    refine ⟨?_, ?_⟩
    · rw [List.nodup_append]; refine ⟨h1, by simp, ?_⟩
      intro x hx y hy
      simp only [List.mem_singleton] at hy
      subst hy
      exact fun h => hnew (h ▸ hx)
    · intro x j d hx hd hcl'
      simp only [List.mem_append, List.mem_singleton, Prod.mk.injEq] at hx
      rcases getElem?_set' hd with ⟨rfl, rfl⟩ | ⟨hjk, hd⟩
      · rcases hx with hx | ⟨rfl, -⟩
        · rcases h2 x k c hx hc hopen with h | h
          · exact .inl (List.mem_append_left _ h)
          · exact .inr h
        · left; simp
      · rcases hx with hx | ⟨-, rfl⟩
        · exact g x j d hx hd hcl'
        · exact absurd rfl hjk
  | touch k c ca pa wo hc => exact ⟨h1, upd k c _ _ _ hc rfl (fun _ h => h) (fun _ h => h) (fun _ _ h => .inl h)⟩
  | yield k c m rest pa wo hc hb hd => exact ⟨h1, upd k c _ _ _ hc rfl (fun _ h => h) (fun _ h => h) (fun _ _ h => .inl h)⟩
  | skip k c m rest pa wo hc hb hd => exact ⟨h1, upd k c _ _ _ hc rfl (fun _ h => h) (fun _ h => h) (fun _ _ h => .inl h)⟩
  | ack k c m hc hm ho =>
    refine ⟨h1, upd k c _ _ _ hc rfl (fun _ h => List.mem_append_left _ h) (fun _ h => h) ?_⟩
    intro _ x hx
    by_cases hxm : x = m
    · subst hxm; right; left; simp
    · exact .inl ((List.mem_erase_of_ne hxm).2 hx)
  | nack k c m hc hm ho =>
    refine ⟨h1, upd k c _ _ _ hc rfl (fun _ h => h) (fun _ h => List.mem_append_left _ h) ?_⟩
    intro _ x hx
    by_cases hxm : x = m
    · subst hxm; right; right; simp
    · exact .inl ((List.mem_erase_of_ne hxm).2 hx)
  | requeue k c m q rest hc hm ho hq hp => exact ⟨h1, upd k c _ _ _ hc rfl (fun _ h => h) (fun _ h => h) (fun h => absurd ho h)⟩
  | drop k c m rest hc hm ho => exact ⟨h1, upd k c _ _ _ hc rfl (fun _ h => h) (fun _ h => h) (fun h => absurd ho h)⟩

/-- Messages wait in queues that exist; what is with a consumer or settled was yielded. -/
structure Tidy (s : St N B) : Prop where
  here : ∀ (i : Nat) (q : Queue N), s.queues[i]? = some q → q.ready ≠ [] → q.present = true
  held : ∀ (k : Nat) (c : Consumer), s.consumers[k]? = some c → ∀ m ∈ c.held, (m, k) ∈ s.yielded
  done : ∀ m, m ∈ s.acked ∨ m ∈ s.nacked → ∃ k, (m, k) ∈ s.yielded

theorem tidy_init : Tidy (init : St N B) := by constructor <;> simp [init]

theorem tidy_step (hn : Names s) (hi : Tidy s) (h : step dec prefetch s l = some s') : Tidy s' := by
  have he := eff_of_step hn h
  generalize s'.calls = cs at he
  generalize s'.closed = cl at he
  clear h
  obtain ⟨h1, h2, h3⟩ := hi
  have upd : ∀ (k : Nat) (c c' : Consumer) (ys : List (Nat × Nat)), s.consumers[k]? = some c → (∀ x ∈ s.yielded, x ∈ ys) → (∀ m ∈ c'.held, m ∈ c.held ∨ (m, k) ∈ ys) →
      ∀ (j : Nat) (d : Consumer), (s.consumers.set k c')[j]? = some d → ∀ m ∈ d.held, (m, j) ∈ ys := by
    intro k c c' ys hc hy hh j d hd m hm
    rcases getElem?_set' hd with ⟨rfl, rfl⟩ | ⟨_, hd⟩
    · rcases hh m hm with h | h
      · exact hy _ (h2 _ c hc m h)
      · exact h
    · exact hy _ (h2 j d hd m hm)
  have qupd : ∀ (i : Nat) (q q' : Queue N), s.queues[i]? = some q → (q'.ready ≠ [] → q'.present = true) →
      ∀ (j : Nat) (p : Queue N), (s.queues.set i q')[j]? = some p → p.ready ≠ [] → p.present = true := by
    intro i q q' hq hh j p hp hne
    rcases getElem?_set' hp with ⟨rfl, rfl⟩ | ⟨_, hp⟩
    · exact hh hne
    · exact h1 j p hp hne
  cases he with
  | other es bs hb => exact ⟨h1, h2, h3⟩
  | bind i q bs h hp hb => exact ⟨h1, h2, h3⟩
  | newQueue n a h =>
    refine ⟨?_, h2, h3⟩
    intro i q hq hne
    rcases getElem?_snoc hq with hq | ⟨rfl, rfl⟩
    · exact h1 i q hq hne
    · rfl
  | remove i q h => exact ⟨qupd i q _ h (by simp), h2, h3⟩
  | pub i q b h hp => exact ⟨qupd i q _ h (fun _ => hp), h2, h3⟩
  | unr n b => exact ⟨h1, h2, h3⟩
  | consume conn i q h hp =>
    refine ⟨h1, ?_, h3⟩
    intro k c hc m hm
    rcases getElem?_snoc hc with hc | ⟨rfl, rfl⟩
    · exact h2 k c hc m hm
    · simp at hm
  | deliver k c q m rest hc hq hr hcan hpf =>
    exact ⟨qupd _ q _ hq (fun _ => h1 _ q hq (by simp [hr])), upd k c _ _ hc (fun _ h => h) (fun _ h => .inl h), h3⟩
  | touch k c ca pa wo hc => exact ⟨h1, upd k c _ _ hc (fun _ h => h) (fun _ h => .inl h), h3⟩
  | yield k c m rest pa wo hc hb hd =>
    refine ⟨h1, upd k c _ _ hc (fun _ h => List.mem_append_left _ h) ?_, ?_⟩
    · intro x hx
      simp only [List.mem_append, List.mem_singleton] at hx ⊢
      rcases hx with h | rfl
      · exact .inl h
      · simp
    · intro x hx
      obtain ⟨k', h⟩ := h3 x hx
      exact ⟨k', List.mem_append_left _ h⟩
  | skip k c m rest pa wo hc hb hd => exact ⟨h1, upd k c _ _ hc (fun _ h => h) (fun _ h => .inl h), h3⟩
  | ack k c m hc hm ho =>
    refine ⟨h1, upd k c _ _ hc (fun _ h => h) (fun _ h => .inl (List.mem_of_mem_erase h)), ?_⟩
    intro x hx
    simp only [List.mem_append, List.mem_singleton] at hx
    rcases hx with (h | rfl) | h
    · exact h3 x (.inl h)
    · exact ⟨k, h2 k c hc x hm⟩
    · exact h3 x (.inr h)
  | nack k c m hc hm ho =>
    refine ⟨h1, upd k c _ _ hc (fun _ h => h) (fun _ h => .inl (List.mem_of_mem_erase h)), ?_⟩
    intro x hx
    simp only [List.mem_append, List.mem_singleton] at hx
    rcases hx with h | h | rfl
    · exact h3 x (.inl h)
    · exact h3 x (.inr h)
    · exact ⟨k, h2 k c hc x hm⟩
  | requeue k c m q rest hc hm ho hq hp => exact ⟨qupd _ q _ hq (fun _ => hp), upd k c _ _ hc (fun _ h => h) (fun _ h => .inl h), h3⟩
  | drop k c m rest hc hm ho => exact ⟨h1, upd k c _ _ hc (fun _ h => h) (fun _ h => .inl h), h3⟩

/-- All that is known of any reachable state. -/
structure Sound (dec : B → Option V) (prefetch : Nat) (s : St N B) : Prop where
  inv : Inv dec prefetch s
  routed : Routed s
  once : Once s
  tidy : Tidy s

theorem sound_init : Sound dec prefetch (init : St N B) := ⟨⟨names_init, data_init, client_init⟩, by constructor <;> simp [init], once_init, tidy_init⟩

theorem sound_step (hi : Sound dec prefetch s) (h : step dec prefetch s l = some s') : Sound dec prefetch s' :=
  ⟨inv_step hi.inv h, routed_step hi.inv hi.routed h, once_step hi.inv hi.once h, tidy_step hi.inv.names hi.tidy h⟩

theorem sound_run (hi : Sound dec prefetch s) (h : run dec prefetch s ls = some s') : Sound dec prefetch s' :=
  Lts.run_inv hi (fun _ _ _ hi hs => sound_step hi hs) h

/-- A message in a consumer's buffer has not been yielded by it. -/
theorem Sound.buffer_new (hi : Sound dec prefetch s) {k : Nat} {c : Consumer} (hc : s.consumers[k]? = some c) {m : Nat} (hm : m ∈ c.buffer) : (m, k) ∉ s.yielded := by
  intro h
  have h1 := hi.inv.client.log k c hc m
  have h2 := List.count_pos_iff.2 h
  have h3 := List.count_pos_iff.2 hm
  have h4 := List.nodup_iff_count.1 hi.once.nodup (m, k)
  omega

/-- A message that a consumer on an open connection has not settled is with nobody else; what it has yielded it has not in its buffer. -/
theorem Sound.held_once (hi : Sound dec prefetch s) {k k' : Nat} {c c' : Consumer} (hc : s.consumers[k]? = some c) (hc' : s.consumers[k']? = some c') (ho : c.conn ∉ s.closed) (ho' : c'.conn ∉ s.closed)
    {m : Nat} (hm : m ∈ c.buffer) (hm' : m ∈ c'.held) : False := by
  have h1 := hi.inv.client.agree k c hc ho
  have h2 := hi.inv.client.agree k' c' hc' ho'
  have m1 : m ∈ c.unacked := h1.mem_iff.2 (by simp [hm])
  have m2 : m ∈ c'.unacked := h2.mem_iff.2 (by simp [hm'])
  have hk := (hi.inv.data.unacked_only hc m1).2.2.2 k' c' hc' m2
  subst hk
  rw [hc] at hc'; cases hc'
  have h3 := (hi.inv.data.unacked_only hc m1).2.2.1
  have h4 := h1.count_eq m
  have h5 := List.count_pos_iff.2 hm
  have h6 := List.count_pos_iff.2 hm'
  simp only [List.count_append] at h4
  omega

/-- What a consumer on an open connection has received is what its queue's name says. -/
theorem Sound.name_of (hi : Sound dec prefetch s) {k : Nat} {c : Consumer} (hc : s.consumers[k]? = some c) {q : Queue N} (hq : s.queues[c.inst]? = some q) {m : Nat}
    (hm : m ∈ c.buffer ∨ (c.conn ∉ s.closed ∧ m ∈ c.held)) : ∃ g, s.msgs[m]? = some g ∧ g.name = q.name := by
  have : addressed s m c.inst := by
    rcases hm with hm | ⟨ho, hm⟩
    · obtain ⟨d, hd, ha⟩ := hi.routed.dlv m k (hi.inv.client.stuck_dlv hc (.inr hm))
      rw [hc] at hd; cases hd; exact ha
    · exact hi.routed.unacked c (List.mem_of_getElem? hc) m ((hi.inv.client.agree k c hc ho).mem_iff.2 (by simp [hm]))
  obtain ⟨g, q', h1, h2, h3⟩ := this
  rw [hq] at h2; cases h2
  exact ⟨g, h1, h3.symm⟩

/-- Nothing is yielded, settled or published. -/
structure Quiet (s s' : St N B) : Prop where
  msgs : s'.msgs = s.msgs
  acked : s'.acked = s.acked
  nacked : s'.nacked = s.nacked
  yielded : s'.yielded = s.yielded
  closed : ∀ x ∈ s.closed, x ∈ s'.closed
  fwd : ∀ (k : Nat) (c : Consumer), s.consumers[k]? = some c → ∃ c', s'.consumers[k]? = some c' ∧ c'.held = c.held
  bwd : ∀ (k : Nat) (c' : Consumer), s'.consumers[k]? = some c' → (∃ c, s.consumers[k]? = some c ∧ c.held = c'.held) ∨ c'.held = []

theorem Quiet.refl (s : St N B) : Quiet s s := ⟨rfl, rfl, rfl, rfl, fun _ h => h, fun _ c h => ⟨c, h, rfl⟩, fun _ c h => .inl ⟨c, h, rfl⟩⟩

/-- No publish is under way. -/
def NoPub (s : St N B) : Prop := ∀ r ∈ s.calls, ∀ d b mode, Method.publish d b mode ∉ r.rest

theorem quiet_set {k : Nat} {c c' : Consumer} (hc : s.consumers[k]? = some c) (hh : c'.held = c.held) :
    (∀ (j : Nat) (d : Consumer), s.consumers[j]? = some d → ∃ d', (s.consumers.set k c')[j]? = some d' ∧ d'.held = d.held) ∧
    (∀ (j : Nat) (d' : Consumer), (s.consumers.set k c')[j]? = some d' → (∃ d, s.consumers[j]? = some d ∧ d.held = d'.held) ∨ d'.held = []) := by
  refine ⟨fun j d hd => set_grow (P := fun a b : Consumer => b.held = a.held) (fun _ => rfl) hc hh hd, ?_⟩
  intro j d hd
  rcases getElem?_set' hd with ⟨rfl, rfl⟩ | ⟨_, hd⟩
  · exact .inl ⟨c, hc, hh.symm⟩
  · exact .inl ⟨d, hd, rfl⟩

theorem method_quiet {conn : Nat} {m : Method N B} (hm : ∀ d b mode, m ≠ .publish d b mode) (cs : List (Running N B)) (cl : List Nat) (hcl : ∀ x ∈ s.closed, x ∈ cl) :
    Quiet s { (method s conn m).1 with calls := cs, closed := cl } := by
  have same : Quiet s { s with calls := cs, closed := cl } := ⟨rfl, rfl, rfl, rfl, hcl, fun _ c h => ⟨c, h, rfl⟩, fun _ c h => .inl ⟨c, h, rfl⟩⟩
  cases m with
  | publish d b mode => exact absurd rfl (hm d b mode)
  | consume q =>
    simp only [method]
    split
    · refine ⟨rfl, rfl, rfl, rfl, hcl, ?_, ?_⟩
      · intro k c hc
        exact ⟨c, by dsimp only; rw [List.getElem?_append_left (by rw [List.getElem?_eq_some_iff] at hc; exact hc.1)]; exact hc, rfl⟩
      · intro k c hc
        rcases getElem?_snoc hc with hc | ⟨rfl, rfl⟩
        · exact .inl ⟨c, hc, rfl⟩
        · exact .inr rfl
    · exact same
  | _ =>
    simp only [method]
    (repeat' split) <;> first | exact same | exact ⟨rfl, rfl, rfl, rfl, hcl, fun _ c h => ⟨c, h, rfl⟩, fun _ c h => .inl ⟨c, h, rfl⟩⟩

/-- What the broker and the environment do by themselves is quiet, and so is a poll that finds nothing. -/
theorem quiet_step (hn : NoPub s) (hl : ∀ conn c, l = .begin conn c → ∀ d b mode, Method.publish d b mode ∉ c.methods)
    (hp : ∀ k c, l = .poll k → s.consumers[k]? = some c → c.buffer = []) (ha : ∀ k m, l ≠ .ack k m) (hna : ∀ k m, l ≠ .nack k m)
    (h : step dec prefetch s l = some s') : Quiet s s' ∧ NoPub s' := by
  refine ⟨?_, ?_⟩
  · have hcl := closed_mono h
    cases l with
    | «begin» conn c => simp only [step, Option.some.injEq] at h; subst h; exact ⟨rfl, rfl, rfl, rfl, hcl, fun _ c h => ⟨c, h, rfl⟩, fun _ c h => .inl ⟨c, h, rfl⟩⟩
    | exec k =>
      have same : ∀ cs cl, (∀ x ∈ s.closed, x ∈ cl) → Quiet s { s with calls := cs, closed := cl } :=
        fun cs cl hcl => ⟨rfl, rfl, rfl, rfl, hcl, fun _ c h => ⟨c, h, rfl⟩, fun _ c h => .inl ⟨c, h, rfl⟩⟩
      simp only [step] at h
      split at h
      · cases h
      · rename_i r hr
        split at h
        · cases h
        · split at h
          · simp only [Option.some.injEq] at h; subst h; exact same _ _ hcl
          · split at h
            · simp only [Option.some.injEq] at h; subst h; exact same _ _ hcl
            · rename_i m rest hrest
              have hm : ∀ d b mode, m ≠ .publish d b mode := by
                rintro d b mode rfl
                exact hn r (List.mem_of_getElem? hr) d b mode (by simp [hrest])
              split at h
              · simp only [Option.some.injEq] at h; subst h
                exact method_quiet hm _ _ hcl
              · simp only [Option.some.injEq] at h; subst h
                exact method_quiet hm _ _ hcl
    | ack k m => exact absurd rfl (ha k m)
    | nack k m => exact absurd rfl (hna k m)
    | poll k =>
      simp only [step] at h
      split at h
      · cases h
      · rename_i c hc
        rw [hp k c rfl hc] at h
        simp only [Option.some.injEq] at h; subst h
        obtain ⟨f, b⟩ := quiet_set (c' := { c with buffer := [], parked := true, woken := false }) hc rfl
        exact ⟨rfl, rfl, rfl, rfl, hcl, by simpa using f, by simpa using b⟩
    | deliver k =>
      simp only [step] at h
      (repeat' split at h) <;> simp only [Option.some.injEq, reduceCtorEq] at h <;> try subst h
      rename_i c hc hg _ q hq _ m rest hr
      obtain ⟨f, b⟩ := quiet_set (c' := { c with unacked := c.unacked ++ [m], buffer := c.buffer ++ [m], woken := c.woken || c.parked }) hc rfl
      exact ⟨rfl, rfl, rfl, rfl, hcl, f, b⟩
    | cancel k =>
      simp only [step] at h
      (repeat' split at h) <;> simp only [Option.some.injEq, reduceCtorEq] at h <;> try subst h
      rename_i c hc
      obtain ⟨f, b⟩ := quiet_set (c' := { c with cancelled := true }) hc rfl
      exact ⟨rfl, rfl, rfl, rfl, hcl, f, b⟩
    | lose conn => simp only [step, Option.some.injEq] at h; subst h; exact ⟨rfl, rfl, rfl, rfl, hcl, fun _ c h => ⟨c, h, rfl⟩, fun _ c h => .inl ⟨c, h, rfl⟩⟩
    | requeue k =>
      simp only [step] at h
      (repeat' split at h) <;> simp only [Option.some.injEq, reduceCtorEq] at h <;> try subst h
      all_goals
        rename_i c hc _ m hm hg _ q hq hp
        obtain ⟨f, b⟩ := quiet_set (c' := { c with unacked := c.unacked.dropLast }) hc rfl
        exact ⟨rfl, rfl, rfl, rfl, hcl, f, b⟩
    | expire i =>
      simp only [step] at h
      (repeat' split at h) <;> simp only [Option.some.injEq, reduceCtorEq] at h <;> try subst h
      exact ⟨rfl, rfl, rfl, rfl, hcl, fun _ c h => ⟨c, h, rfl⟩, fun _ c h => .inl ⟨c, h, rfl⟩⟩
  · intro r hr d b mode hm
    rcases calls_step h r hr with ⟨c, conn, rfl, -⟩ | ⟨r0, h0, -, -, h1⟩
    · cases l with
      | «begin» conn' c' =>
        simp only [step, Option.some.injEq] at h; subst h
        simp only [List.mem_append, List.mem_singleton] at hr
        rcases hr with hr | hr
        · exact hn _ hr d b mode hm
        · have : c = c' := by injection hr
          exact hl conn' c' rfl d b mode (this ▸ hm)
      | exec k =>
        simp only [step] at h
        split at h
        · cases h
        · rename_i r0 hr0
          have hmem := List.mem_of_getElem? hr0
          have hset : ∀ r1 : Running N B, (∀ m ∈ r1.rest, m ∈ r0.rest) → (⟨conn, c, c.methods, none⟩ : Running N B) ∈ s.calls.set k r1 → False := by
            intro r1 h3 hr
            rcases PubAll.mem_set_cases hr with h | hr
            · exact hn r0 hmem d b mode (h3 _ (by rw [← h]; exact hm))
            · exact hn _ hr d b mode hm
          split at h
          · cases h
          · split at h
            · simp only [Option.some.injEq] at h; subst h; exact hset _ (by simp) hr
            · split at h
              · simp only [Option.some.injEq] at h; subst h; exact hset _ (by simp) hr
              · rename_i m rest hrest
                split at h
                · simp only [Option.some.injEq] at h; subst h
                  exact hset _ (by simp [hrest]; exact fun _ h => .inr h) hr
                · simp only [Option.some.injEq] at h; subst h
                  exact hset _ (by simp) hr
      | _ =>
        simp only [step, remove] at h
        (repeat' split at h) <;> simp only [Option.some.injEq, reduceCtorEq] at h <;> subst h <;> exact hn _ hr d b mode hm
    · exact hn r0 h0 d b mode (h1 _ hm)

/-- Messages are published and nothing else happens to consumers. -/
structure Posts (name : N) (bs : List B) (s s' : St N B) : Prop where
  msgs : s'.msgs = s.msgs ++ bs.map fun b => ⟨name, b⟩
  acked : s'.acked = s.acked
  nacked : s'.nacked = s.nacked
  yielded : s'.yielded = s.yielded
  closed : s'.closed = s.closed
  consumers : s'.consumers = s.consumers
  nopub : NoPub s → NoPub s'
  ready : (∃ i, s.find name = some i) → s'.unroutable = s.unroutable ∧ s'.lost = s.lost
  names : s'.queues.map (fun q => (q.name, q.present)) = s.queues.map fun q => (q.name, q.present)

theorem Posts.refl (name : N) (s : St N B) : Posts name [] s s := ⟨by simp, rfl, rfl, rfl, rfl, rfl, id, fun _ => ⟨rfl, rfl⟩, rfl⟩

theorem find_map {s s' : St N B} (h : s'.queues.map (fun q => (q.name, q.present)) = s.queues.map fun q => (q.name, q.present)) (name : N) : s'.find name = s.find name := by
  have key : ∀ t : St N B, t.find name = (t.queues.map fun q => (q.name, q.present)).findIdx? fun p => p.2 && p.1 = name := by
    intro t; rw [List.findIdx?_map]; rfl
  rw [key, key, h]

theorem Posts.trans {name : N} {bs bs' : List B} {s s' s'' : St N B} (h : Posts name bs s s') (h' : Posts name bs' s' s'') : Posts name (bs ++ bs') s s'' :=
  ⟨by rw [h'.msgs, h.msgs]; simp, h'.acked.trans h.acked, h'.nacked.trans h.nacked, h'.yielded.trans h.yielded, h'.closed.trans h.closed, h'.consumers.trans h.consumers,
    fun hn => h'.nopub (h.nopub hn), fun hf => by
      have h1 := h.ready hf
      have h2 := h'.ready (by rw [find_map h.names]; exact hf)
      exact ⟨h2.1.trans h1.1, h2.2.trans h1.2⟩, h'.names.trans h.names⟩

end Amqp
end Paladin
