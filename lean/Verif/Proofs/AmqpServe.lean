import Verif.Proofs.AmqpData
import Verif.Spec.Amqp
/-! # Routing, and serving a consumer -/
namespace Paladin
namespace Amqp

variable {N B V : Type} [DecidableEq N] {dec : B → Option V} {prefetch : Nat} {s s' : St N B} {l : Label N B} {ls : List (Label N B)}

/-- Queues keep their number and name, consumers their queue, messages their number. -/
structure Grows (s s' : St N B) : Prop where
  queues : ∀ (i : Nat) (q : Queue N), s.queues[i]? = some q → ∃ q', s'.queues[i]? = some q' ∧ q'.name = q.name ∧ q'.args = q.args ∧ (q'.present = true → q.present = true)
  consumers : ∀ (k : Nat) (c : Consumer), s.consumers[k]? = some c → ∃ c', s'.consumers[k]? = some c' ∧ c'.inst = c.inst ∧ c'.conn = c.conn
  msgs : ∀ (m : Nat) (g : Msg N B), s.msgs[m]? = some g → s'.msgs[m]? = some g

theorem Grows.refl (s : St N B) : Grows s s := ⟨fun _ q h => ⟨q, h, rfl, rfl, id⟩, fun _ c h => ⟨c, h, rfl, rfl⟩, fun _ _ h => h⟩

theorem Grows.trans {a b c : St N B} (h : Grows a b) (h' : Grows b c) : Grows a c := by
  refine ⟨?_, ?_, fun m g hm => h'.msgs m g (h.msgs m g hm)⟩
  · intro i q hq
    obtain ⟨q1, h1, h2, h3, h4⟩ := h.queues i q hq
    obtain ⟨q2, h5, h6, h7, h8⟩ := h'.queues i q1 h1
    exact ⟨q2, h5, h6.trans h2, h7.trans h3, fun h => h4 (h8 h)⟩
  · intro k c hc
    obtain ⟨c1, h1, h2, h3⟩ := h.consumers k c hc
    obtain ⟨c2, h4, h5, h6⟩ := h'.consumers k c1 h1
    exact ⟨c2, h4, h5.trans h2, h6.trans h3⟩

theorem set_grow {τ : Type} {P : τ → τ → Prop} (hP : ∀ x, P x x) {l : List τ} {k : Nat} {x y : τ} (hk : l[k]? = some x) (hxy : P x y) {i : Nat} {a : τ} (ha : l[i]? = some a) :
    ∃ b, (l.set k y)[i]? = some b ∧ P a b := by
  by_cases hki : k = i
  · subst hki
    rw [hk] at ha; cases ha
    exact ⟨y, by rw [List.getElem?_set_self (by rw [List.getElem?_eq_some_iff] at hk; exact hk.1)], hxy⟩
  · exact ⟨a, by rw [List.getElem?_set_ne hki]; exact ha, hP a⟩

theorem grows_step (hn : Names s) (h : step dec prefetch s l = some s') : Grows s s' := by
  have he := eff_of_step hn h
  generalize s'.calls = cs at he
  generalize s'.closed = cl at he
  clear h
  have r := Grows.refl s
  have q1 : ∀ (k : Nat) (p p' : Queue N), s.queues[k]? = some p → p'.name = p.name → p'.args = p.args → (p'.present = true → p.present = true) →
      ∀ (i : Nat) (q : Queue N), s.queues[i]? = some q → ∃ q', (s.queues.set k p')[i]? = some q' ∧ q'.name = q.name ∧ q'.args = q.args ∧ (q'.present = true → q.present = true) :=
    fun k p p' hk h1 h2 h3 i q hq => set_grow (P := fun a b : Queue N => b.name = a.name ∧ b.args = a.args ∧ (b.present = true → a.present = true)) (fun _ => ⟨rfl, rfl, id⟩) hk ⟨h1, h2, h3⟩ hq
  have c1 : ∀ (k : Nat) (d d' : Consumer), s.consumers[k]? = some d → d'.inst = d.inst → d'.conn = d.conn →
      ∀ (i : Nat) (c : Consumer), s.consumers[i]? = some c → ∃ c', (s.consumers.set k d')[i]? = some c' ∧ c'.inst = c.inst ∧ c'.conn = c.conn :=
    fun k d d' hk h1 h2 i c hc => set_grow (P := fun a b : Consumer => b.inst = a.inst ∧ b.conn = a.conn) (fun _ => ⟨rfl, rfl⟩) hk ⟨h1, h2⟩ hc
  have m1 : ∀ (x : Msg N B) (m : Nat) (g : Msg N B), s.msgs[m]? = some g → (s.msgs ++ [x])[m]? = some g := by
    intro x m g hg
    rw [List.getElem?_append_left (by rw [List.getElem?_eq_some_iff] at hg; exact hg.1)]; exact hg
  cases he with
  | other es bs hb => exact ⟨r.queues, r.consumers, r.msgs⟩
  | newQueue n a h =>
    refine ⟨?_, r.consumers, r.msgs⟩
    intro i q hq
    exact ⟨q, by dsimp only; rw [List.getElem?_append_left (by rw [List.getElem?_eq_some_iff] at hq; exact hq.1)]; exact hq, rfl, rfl, id⟩
  | bind i q bs h hp hb => exact ⟨r.queues, r.consumers, r.msgs⟩
  | remove i q h => exact ⟨q1 i q _ h rfl rfl (by simp), r.consumers, r.msgs⟩
  | pub i q b h hp => exact ⟨q1 i q _ h rfl rfl id, r.consumers, m1 _⟩
  | unr n b => exact ⟨r.queues, r.consumers, m1 _⟩
  | consume conn i q h hp =>
    refine ⟨r.queues, ?_, r.msgs⟩
    intro k c hc
    exact ⟨c, by dsimp only; rw [List.getElem?_append_left (by rw [List.getElem?_eq_some_iff] at hc; exact hc.1)]; exact hc, rfl, rfl⟩
  | deliver k c q m rest hc hq hr hcan hpf => exact ⟨q1 _ q _ hq rfl rfl id, c1 k c _ hc rfl rfl, r.msgs⟩
  | touch k c ca pa wo hc => exact ⟨r.queues, c1 k c _ hc rfl rfl, r.msgs⟩
  | yield k c m rest pa wo hc hb hd => exact ⟨r.queues, c1 k c _ hc rfl rfl, r.msgs⟩
  | skip k c m rest pa wo hc hb hd => exact ⟨r.queues, c1 k c _ hc rfl rfl, r.msgs⟩
  | ack k c m hc hm hcl => exact ⟨r.queues, c1 k c _ hc rfl rfl, r.msgs⟩
  | nack k c m hc hm hcl => exact ⟨r.queues, c1 k c _ hc rfl rfl, r.msgs⟩
  | requeue k c m q rest hc hm hcl hq hp => exact ⟨q1 _ q _ hq rfl rfl id, c1 k c _ hc rfl rfl, r.msgs⟩
  | drop k c m rest hc hm hcl => exact ⟨r.queues, c1 k c _ hc rfl rfl, r.msgs⟩

theorem Grows.addressed (h : Grows s s') {m i : Nat} (ha : addressed s m i) : addressed s' m i := by
  obtain ⟨g, q, h1, h2, h3⟩ := ha
  obtain ⟨q', h4, h5, -⟩ := h.queues i q h2
  exact ⟨g, q', h.msgs m g h1, h4, h5.trans h3⟩

/-- Messages are only where their name leads. -/
structure Routed (s : St N B) : Prop where
  ready : ∀ (i : Nat) (q : Queue N), s.queues[i]? = some q → ∀ m ∈ q.ready, addressed s m i
  unacked : ∀ c ∈ s.consumers, ∀ m ∈ c.unacked, addressed s m c.inst
  dlv : ∀ m k, (m, k) ∈ s.dlv → ∃ c, s.consumers[k]? = some c ∧ addressed s m c.inst

theorem routed_step (hi : Inv dec prefetch s) (hr : Routed s) (h : step dec prefetch s l = some s') : Routed s' := by
  have hg := grows_step hi.names h
  have he := eff_of_step hi.names h
  generalize s'.calls = cs at he
  generalize s'.closed = cl at he
  clear h
  obtain ⟨h1, h2, h3⟩ := hr
  have g1 : ∀ (i : Nat) (q : Queue N), s.queues[i]? = some q → ∀ m ∈ q.ready, addressed s' m i := fun i q hq m hm => hg.addressed (h1 i q hq m hm)
  have g2 : ∀ c ∈ s.consumers, ∀ m ∈ c.unacked, addressed s' m c.inst := fun c hc m hm => hg.addressed (h2 c hc m hm)
  have g3 : ∀ m k, (m, k) ∈ s.dlv → ∃ c, s'.consumers[k]? = some c ∧ addressed s' m c.inst := by
    intro m k hm
    obtain ⟨c, hc, ha⟩ := h3 m k hm
    obtain ⟨c', h4, h5, -⟩ := hg.consumers k c hc
    exact ⟨c', h4, h5 ▸ hg.addressed ha⟩
  have qs : ∀ (k : Nat) (p p' : Queue N), s.queues[k]? = some p → (∀ m ∈ p'.ready, addressed s' m k) →
      ∀ (i : Nat) (q : Queue N), (s.queues.set k p')[i]? = some q → ∀ m ∈ q.ready, addressed s' m i := by
    intro k p p' hk h i q hq m hm
    rcases getElem?_set' hq with ⟨rfl, rfl⟩ | ⟨_, hq⟩
    · exact h m hm
    · exact g1 i q hq m hm
  have cs' : ∀ (k : Nat) (c c' : Consumer), s.consumers[k]? = some c → (∀ m ∈ c'.unacked, addressed s' m c'.inst) → ∀ d ∈ s.consumers.set k c', ∀ m ∈ d.unacked, addressed s' m d.inst := by
    intro k c c' hc h d hd m hm
    rcases PubAll.mem_set_cases hd with rfl | hd
    · exact h m hm
    · exact g2 d hd m hm
  cases he with
  | other es bs hb => exact ⟨g1, g2, g3⟩
  | newQueue n a h =>
    refine ⟨?_, g2, g3⟩
    intro i q hq m hm
    rcases getElem?_snoc hq with hq | ⟨rfl, rfl⟩
    · exact g1 i q hq m hm
    · simp at hm
  | bind i q bs h hp hb => exact ⟨g1, g2, g3⟩
  | remove i q h => exact ⟨qs i q _ h (by simp), g2, g3⟩
  | pub i q b h hp =>
    refine ⟨qs i q _ h ?_, g2, g3⟩
    intro m hm
    simp only [List.mem_append, List.mem_singleton] at hm
    rcases hm with hm | rfl
    · exact g1 i q h m hm
    · refine ⟨⟨q.name, b⟩, { q with ready := q.ready ++ [s.msgs.length] }, ?_, ?_, rfl⟩
      · simp
      · dsimp only; rw [List.getElem?_set_self (by rw [List.getElem?_eq_some_iff] at h; exact h.1)]
  | unr n b => exact ⟨g1, g2, g3⟩
  | consume conn i q h hp =>
    refine ⟨g1, ?_, g3⟩
    intro c hc
    simp only [List.mem_append, List.mem_singleton] at hc
    rcases hc with hc | rfl
    · exact g2 c hc
    · simp
  | deliver k c q m rest hc hq hr hcan hpf =>
    refine ⟨qs _ q _ hq ?_, cs' k c _ hc ?_, ?_⟩
    · intro x hx; exact g1 _ q hq x (by rw [hr]; exact List.mem_cons_of_mem _ hx)
    · intro x hx
      simp only [List.mem_append, List.mem_singleton] at hx
      rcases hx with hx | rfl
      · exact g2 c (List.mem_of_getElem? hc) x hx
      · exact g1 _ q hq x (by simp [hr])
    · intro x j hx
      simp only [List.mem_append, List.mem_singleton, Prod.mk.injEq] at hx
      rcases hx with hx | ⟨rfl, rfl⟩
      · exact g3 x j hx
      · exact ⟨_, List.getElem?_set_self (by rw [List.getElem?_eq_some_iff] at hc; exact hc.1), g1 _ q hq x (by simp [hr])⟩
  | touch k c ca pa wo hc => exact ⟨g1, cs' k c _ hc (g2 c (List.mem_of_getElem? hc)), g3⟩
  | yield k c m rest pa wo hc hb hd => exact ⟨g1, cs' k c _ hc (g2 c (List.mem_of_getElem? hc)), g3⟩
  | skip k c m rest pa wo hc hb hd => exact ⟨g1, cs' k c _ hc (g2 c (List.mem_of_getElem? hc)), g3⟩
  | ack k c m hc hm hcl => exact ⟨g1, cs' k c _ hc (fun x hx => g2 c (List.mem_of_getElem? hc) x (List.mem_of_mem_erase hx)), g3⟩
  | nack k c m hc hm hcl => exact ⟨g1, cs' k c _ hc (fun x hx => g2 c (List.mem_of_getElem? hc) x (List.mem_of_mem_erase hx)), g3⟩
  | requeue k c m q rest hc hm hcl hq hp =>
    refine ⟨qs _ q _ hq ?_, cs' k c _ hc (fun x hx => g2 c (List.mem_of_getElem? hc) x (by rw [hm]; exact List.mem_append_left _ hx)), g3⟩
    intro x hx
    simp only [List.mem_cons] at hx
    rcases hx with rfl | hx
    · exact g2 c (List.mem_of_getElem? hc) x (by simp [hm])
    · exact g1 _ q hq x hx
  | drop k c m rest hc hm hcl => exact ⟨g1, cs' k c _ hc (fun x hx => g2 c (List.mem_of_getElem? hc) x (by rw [hm]; exact List.mem_append_left _ hx)), g3⟩

theorem routed_run (h : run dec prefetch init ls = some s) : Routed s := by
  have : Inv dec prefetch s ∧ Routed s := Lts.run_inv (P := fun s => Inv dec prefetch s ∧ Routed s) ⟨⟨names_init, data_init, client_init⟩, by constructor <;> simp [init]⟩
    (fun _ _ _ hi hs => ⟨inv_step hi.1 hs, routed_step hi.1 hi.2 hs⟩) h
  exact this.2

theorem grows_run (hi : Inv dec prefetch s) (h : run dec prefetch s ls = some s') : Grows s s' ∧ Inv dec prefetch s' := by
  refine Lts.run_induction (P := fun (_ : List (Label N B)) (x : St N B) => Grows s x ∧ Inv dec prefetch x) ⟨Grows.refl s, hi⟩ ?_ ls s' h
  intro ls l a b _ ih hs
  exact ⟨ih.1.trans (grows_step ih.2.names hs), inv_step ih.2 hs⟩

/-- Deliveries and yields are not undone. -/
theorem yielded_mono (h : step dec prefetch s l = some s') : ∀ x ∈ s.yielded, x ∈ s'.yielded := by
  intro x hx
  cases l with
  | exec k =>
    simp only [step] at h
    have : ∀ conn m, (method s conn m).1.yielded = s.yielded := by
      intro conn m; cases m <;> simp only [method] <;> (repeat' split) <;> simp [remove]
    (repeat' split at h) <;> simp only [Option.some.injEq, reduceCtorEq] at h <;> subst h <;> simp [hx, this]
  | _ =>
    simp only [step, remove] at h
    (repeat' split at h) <;> simp only [Option.some.injEq, reduceCtorEq] at h <;> subst h <;> simp [hx]

/-- Polling and acknowledging, consumer `k` is brought to rest: everything that has arrived is yielded. -/
theorem drain {k : Nat} : ∀ (n : Nat) {s : St N B} {c : Consumer}, Inv dec prefetch s → s.consumers[k]? = some c → c.conn ∉ s.closed →
    (∀ m ∈ c.buffer, decodable dec s m) → 2 * c.buffer.length + c.held.length ≤ n →
    ∃ (ls : List (Label N B)) (s' : St N B) (c' : Consumer), run dec prefetch s ls = some s' ∧ (∀ l ∈ ls, l.serves k) ∧ s'.consumers[k]? = some c' ∧ c'.conn = c.conn ∧ c'.inst = c.inst ∧
      c'.cancelled = c.cancelled ∧ c'.stuck = c.stuck ∧ c'.buffer = [] ∧ c'.held = [] ∧ s'.queues = s.queues ∧ s'.closed = s.closed ∧ s'.msgs = s.msgs ∧
      (∀ x ∈ s.yielded, x ∈ s'.yielded) ∧ ∀ m ∈ c.buffer, (m, k) ∈ s'.yielded := by
  intro n
  induction n with
  | zero =>
    intro s c hi hc ho hd hn
    have hb : c.buffer = [] := List.eq_nil_of_length_eq_zero (by omega)
    have hh : c.held = [] := List.eq_nil_of_length_eq_zero (by omega)
    exact ⟨[], s, c, rfl, by simp, hc, rfl, rfl, rfl, rfl, hb, hh, rfl, rfl, rfl, fun _ h => h, by simp [hb]⟩
  | succ n ih =>
    intro s c hi hc ho hd hn
    have hk : k < s.consumers.length := by rw [List.getElem?_eq_some_iff] at hc; exact hc.1
    cases hb : c.buffer with
    | nil =>
      cases hh : c.held with
      | nil => exact ⟨[], s, c, rfl, by simp, hc, rfl, rfl, rfl, rfl, hb, hh, rfl, rfl, rfl, fun _ h => h, by simp⟩
      | cons m held =>
        have hst : step dec prefetch s (.ack k m) = some { s with
            consumers := s.consumers.set k { c with held := c.held.erase m, unacked := c.unacked.erase m }, acked := s.acked ++ [m] } := by
          simp [step, hc, hh, ho]
        obtain ⟨ls, s', c', r1, r2, r3, r4, r5, r6, r7, r8, r9, r10, r11, r12, r13, r14⟩ :=
          ih (inv_step hi hst) (c := { c with held := c.held.erase m, unacked := c.unacked.erase m }) (by simp [hk]) ho (by simp [hb]) (by simp [hb, hh] at hn ⊢; omega)
        refine ⟨.ack k m :: ls, s', c', Lts.run_cons.2 ⟨_, hst, r1⟩, ?_, r3, r4, r5, r6, r7, r8, r9, r10, r11, r12, r13, by simp⟩
        intro l hl
        simp only [List.mem_cons] at hl
        rcases hl with rfl | hl
        · simp [Label.serves]
        · exact r2 l hl
    | cons m rest =>
      obtain ⟨g, v, hg, hv⟩ := hd m (by simp [hb])
      have hst : step dec prefetch s (.poll k) = some { s with
          consumers := s.consumers.set k { c with buffer := rest, held := c.held ++ [m], parked := true, woken := false }, yielded := s.yielded ++ [(m, k)] } := by
        simp [step, hc, hb, hg, hv]
      obtain ⟨ls, s', c', r1, r2, r3, r4, r5, r6, r7, r8, r9, r10, r11, r12, r13, r14⟩ :=
        ih (inv_step hi hst) (c := { c with buffer := rest, held := c.held ++ [m], parked := true, woken := false }) (by simp [hk]) ho
          (by intro x hx; exact hd x (by rw [hb]; exact List.mem_cons_of_mem _ hx)) (by simp [hb] at hn ⊢; omega)
      refine ⟨.poll k :: ls, s', c', Lts.run_cons.2 ⟨_, hst, r1⟩, ?_, r3, r4, r5, r6, r7, r8, r9, r10, r11, r12, ?_, ?_⟩
      · intro l hl
        simp only [List.mem_cons] at hl
        rcases hl with rfl | hl
        · simp [Label.serves]
        · exact r2 l hl
      · intro x hx; exact r13 x (by simp [hx])
      · intro x hx
        simp only [List.mem_cons] at hx
        rcases hx with rfl | hx
        · exact r13 _ (by simp)
        · exact r14 x hx

/-- The broker and the user of a consumer with room can bring about that it yields a given message. -/
theorem serve {k : Nat} : ∀ (pre : List Nat) {s : St N B} {c : Consumer} {q : Queue N} {m : Nat} {post : List Nat}, Inv dec prefetch s → s.consumers[k]? = some c →
    s.canDeliver c = true → (prefetch = 0 ∨ c.stuck.length < prefetch) → s.queues[c.inst]? = some q → q.ready = pre ++ m :: post →
    (∀ x, x ∈ c.buffer ∨ x ∈ pre ∨ x = m → decodable dec s x) →
    ∃ (ls : List (Label N B)) (s' : St N B), run dec prefetch s ls = some s' ∧ (∀ l ∈ ls, l.serves k) ∧ (m, k) ∈ s'.yielded := by
  intro pre
  induction pre with
  | nil =>
    intro s c q m post hi hc hcan hroom hq hr hd
    have ho : c.conn ∉ s.closed := by simp [St.canDeliver] at hcan; exact hcan.1.2
    obtain ⟨ls, s1, c1, r1, r2, r3, r4, r5, r6, r7, r8, r9, r10, r11, r12, r13, r14⟩ := drain (k := k) _ hi hc ho (fun x hx => hd x (.inl hx)) (Nat.le_refl _)
    have hi1 := (grows_run hi r1).2
    have hun : c1.unacked.length = c.stuck.length := by
      have := (hi1.client.agree k c1 r3 (by rw [r4, r11]; exact ho)).length_eq
      simpa [r8, r9, r7] using this
    have hst : step dec prefetch s1 (.deliver k) = some { s1 with
        queues := s1.queues.set c1.inst { q with ready := post },
        consumers := s1.consumers.set k { c1 with unacked := c1.unacked ++ [m], buffer := c1.buffer ++ [m], woken := c1.woken || c1.parked },
        dlv := s1.dlv ++ [(m, k)] } := by
      have : s1.canDeliver c1 = true := by simpa [St.canDeliver, r4, r5, r6, r10, r11] using hcan
      simp only [step, r3, this, hun, r5, r10, hq, hr]
      simp; omega
    have hk : k < s1.consumers.length := by rw [List.getElem?_eq_some_iff] at r3; exact r3.1
    obtain ⟨g, v, hg, hv⟩ := hd m (.inr (.inr rfl))
    obtain ⟨ls2, s2, c2, t1, t2, t3, t4, t5, t6, t7, t8, t9, t10, t11, t12, t13, t14⟩ := drain (k := k) _ (inv_step hi1 hst)
      (c := { c1 with unacked := c1.unacked ++ [m], buffer := c1.buffer ++ [m], woken := c1.woken || c1.parked }) (by simp [hk]) (by simp [r4, r11, ho])
      (by intro x hx; simp [r8] at hx; subst hx; exact ⟨g, v, by simp [r12, hg], hv⟩) (Nat.le_refl _)
    refine ⟨ls ++ .deliver k :: ls2, s2, Lts.run_append.2 ⟨s1, r1, Lts.run_cons.2 ⟨_, hst, t1⟩⟩, ?_, t14 m (by simp)⟩
    intro l hl
    simp only [List.mem_append, List.mem_cons] at hl
    rcases hl with hl | rfl | hl
    · exact r2 l hl
    · simp [Label.serves]
    · exact t2 l hl
  | cons x pre ih =>
    intro s c q m post hi hc hcan hroom hq hr hd
    have ho : c.conn ∉ s.closed := by simp [St.canDeliver] at hcan; exact hcan.1.2
    obtain ⟨ls, s1, c1, r1, r2, r3, r4, r5, r6, r7, r8, r9, r10, r11, r12, r13, r14⟩ := drain (k := k) _ hi hc ho (fun x hx => hd x (.inl hx)) (Nat.le_refl _)
    have hi1 := (grows_run hi r1).2
    have hun : c1.unacked.length = c.stuck.length := by
      have := (hi1.client.agree k c1 r3 (by rw [r4, r11]; exact ho)).length_eq
      simpa [r8, r9, r7] using this
    have hst : step dec prefetch s1 (.deliver k) = some { s1 with
        queues := s1.queues.set c1.inst { q with ready := pre ++ m :: post },
        consumers := s1.consumers.set k { c1 with unacked := c1.unacked ++ [x], buffer := c1.buffer ++ [x], woken := c1.woken || c1.parked },
        dlv := s1.dlv ++ [(x, k)] } := by
      have : s1.canDeliver c1 = true := by simpa [St.canDeliver, r4, r5, r6, r10, r11] using hcan
      simp only [step, r3, this, hun, r5, r10, hq, hr]
      simp; omega
    have hk : k < s1.consumers.length := by rw [List.getElem?_eq_some_iff] at r3; exact r3.1
    have hci : c.inst < s.queues.length := by rw [List.getElem?_eq_some_iff] at hq; exact hq.1
    have hp : q.present = true := by simp [St.canDeliver, hq] at hcan; exact hcan.2
    obtain ⟨ls2, s2, t1, t2, t3⟩ := ih (s := { s1 with
        queues := s1.queues.set c1.inst { q with ready := pre ++ m :: post },
        consumers := s1.consumers.set k { c1 with unacked := c1.unacked ++ [x], buffer := c1.buffer ++ [x], woken := c1.woken || c1.parked },
        dlv := s1.dlv ++ [(x, k)] }) (c := { c1 with unacked := c1.unacked ++ [x], buffer := c1.buffer ++ [x], woken := c1.woken || c1.parked })
        (q := { q with ready := pre ++ m :: post }) (m := m) (post := post) (inv_step hi1 hst) (by simp [hk])
        (by simp [St.canDeliver, r5, r10, hci, hp] at hcan ⊢; simp [r4, r6, r11, hcan]) (by simpa [r7] using hroom) (by simp [r5, r10, hci]) rfl
        (by
          intro y hy
          have : y = x ∨ y ∈ pre ∨ y = m := by simpa [r8] using hy
          obtain ⟨g, v, hg, hv⟩ := hd y (by rcases this with h | h | h <;> simp [h])
          exact ⟨g, v, by simp [r12, hg], hv⟩)
    refine ⟨ls ++ .deliver k :: ls2, s2, Lts.run_append.2 ⟨s1, r1, Lts.run_cons.2 ⟨_, hst, t1⟩⟩, ?_, t3⟩
    intro l hl
    simp only [List.mem_append, List.mem_cons] at hl
    rcases hl with hl | rfl | hl
    · exact r2 l hl
    · simp [Label.serves]
    · exact t2 l hl

end Amqp
end Paladin
