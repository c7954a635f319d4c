import Verif.Proofs.AmqpServe
import Mathlib.Data.List.Induction
/-! # Properties C47-C50: queues over AMQP -/
namespace Paladin
namespace Amqp

variable {N B V : Type} [DecidableEq N] {dec : B → Option V} {prefetch : Nat} {s s' : St N B} {ls : List (Label N B)}

theorem two_le_count {l : List (Nat × Nat)} {m j k : Nat} (hj : (m, j) ∈ l) (hk : (m, k) ∈ l) (h : j ≠ k) : 2 ≤ (l.map Prod.fst).count m := by
  induction l with
  | nil => simp at hj
  | cons a l ih =>
    simp only [List.map_cons, List.count_cons]
    simp only [List.mem_cons] at hj hk
    have one : ∀ i, (m, i) ∈ l → 1 ≤ (l.map Prod.fst).count m := fun i hi => List.count_pos_iff.2 (List.mem_map.2 ⟨_, hi, rfl⟩)
    rcases hj with rfl | hj <;> rcases hk with hk | hk
    · simp at hk; exact absurd hk.symm h
    · have := one _ hk; simp only [beq_self_eq_true, if_true]; omega
    · subst hk; have := one _ hj; simp only [beq_self_eq_true, if_true]; omega
    · have := ih hj hk; omega

theorem yielded_dlv (hi : Inv dec prefetch s) {m k : Nat} (h : (m, k) ∈ s.yielded) : (m, k) ∈ s.dlv := by
  by_cases hk : k < s.consumers.length
  · have := hi.client.log k _ (List.getElem?_eq_getElem hk) m
    have := List.count_pos_iff.2 h
    exact List.count_pos_iff.1 (by omega)
  · exact absurd h (hi.client.fresh k (Nat.le_of_not_lt hk) m).2

theorem requeued_closed (h : run dec prefetch init ls = some s) : s.closed = [] → s.requeued = [] := by
  have : Names s ∧ (s.closed = [] → s.requeued = []) := by
    refine Lts.run_inv (P := fun s => Names s ∧ (s.closed = [] → s.requeued = [])) ⟨names_init, by simp [init]⟩ ?_ h
    rintro s l s' ⟨hn, hi⟩ hs
    refine ⟨names_step hn hs, ?_⟩
    have hm := closed_mono hs
    have he := eff_of_step hn hs
    generalize s'.calls = cs at he
    generalize s'.closed = cl at he hm ⊢
    intro h0
    subst h0
    have hs0 : s.closed = [] := List.eq_nil_iff_forall_not_mem.2 fun x hx => by simpa using hm x hx
    clear hs
    cases he <;> try exact hi hs0
    rename_i hx _ _
    simp [hs0] at hx
  exact this.2

/-! ## C47 -/

/-- **C47** is false, always: as long as no connection is closed, two consumers never yield the same message, whichever way it was published. -/
theorem C47_never_two (h : run dec prefetch init ls = some s) (hc : s.closed = []) {m j k : Nat} (hj : (m, j) ∈ s.yielded) (hk : (m, k) ∈ s.yielded) : j = k := by
  refine Classical.byContradiction fun hne => ?_
  have hi := inv_run h
  have h2 := two_le_count (yielded_dlv hi hj) (yielded_dlv hi hk) hne
  have := hi.data.once m
  rw [requeued_closed h hc] at this
  simp at this
  split at this <;> omega

/-- A broadcast channel 7 with two consumers, of processes 1 and 2; process 0 publishes 42, which goes to the first consumer. -/
def exBroadcast : List (Label Nat Nat) :=
  [.begin 1 (.declareQueue 7 ChannelType.broadcast.options), .exec 0, .exec 0, .exec 0, .exec 0, .begin 1 (.declareConsumer 7), .exec 1, .exec 1,
   .begin 2 (.declareQueue 7 ChannelType.broadcast.options), .exec 2, .exec 2, .exec 2, .exec 2, .begin 2 (.declareConsumer 7), .exec 3, .exec 3,
   .begin 0 (.declareQueue 7 ChannelType.broadcast.options), .exec 4, .exec 4, .exec 4, .exec 4, .begin 0 (.publish 7 ChannelType.broadcast.options 42), .exec 5, .exec 5,
   .deliver 0, .poll 0, .ack 0 0]

/-- **C47** is false: the second consumer never yields the message, whatever happens next, short of a lost connection. -/
theorem C47_witness : ∃ s : St Nat Nat, run (V := Nat) some 1 init exBroadcast = some s ∧ s.consumers.length = 2 ∧ (s.consumers.all fun c => s.canDeliver c) ∧ (0, 0) ∈ s.yielded ∧
    ∀ ls s', run (V := Nat) some 1 s ls = some s' → s'.closed = [] → (0, 1) ∉ s'.yielded := by
  have h0 : ∃ s : St Nat Nat, run (V := Nat) some 1 init exBroadcast = some s ∧ s.consumers.length = 2 ∧ (s.consumers.all fun c => s.canDeliver c) ∧ (0, 0) ∈ s.yielded :=
    ⟨_, rfl, by decide +kernel, by decide +kernel, by decide +kernel⟩
  obtain ⟨s, h1, h2, h3, h4⟩ := h0
  refine ⟨s, h1, h2, h3, h4, fun ls s' hr hc hy => ?_⟩
  have hmono : ∀ x ∈ s.yielded, x ∈ s'.yielded := by
    refine Lts.run_induction (P := fun _ (x : St Nat Nat) => ∀ y ∈ s.yielded, y ∈ x.yielded) (fun _ h => h) ?_ ls s' hr
    intro ls l a b _ ih hs y hy
    exact yielded_mono hs y (ih y hy)
  have := C47_never_two (Lts.run_append.2 ⟨s, h1, hr⟩) hc (hmono _ h4) hy
  cases this

/-! ## C48 -/

/-- **C48.** A message is yielded only by consumers of the name it was published to. -/
theorem C48_same_name (h : run dec prefetch init ls = some s) {m k : Nat} (hy : (m, k) ∈ s.yielded) :
    ∃ g c q, s.msgs[m]? = some g ∧ s.consumers[k]? = some c ∧ s.queues[c.inst]? = some q ∧ q.name = g.name := by
  obtain ⟨c, hc, g, q, hg, hq, hn⟩ := (routed_run h).dlv m k (yielded_dlv (inv_run h) hy)
  exact ⟨g, c, q, hg, hc, hq, hn⟩

/-- **C48.** Every published message is in exactly one place. -/
theorem C48_one_place (h : run dec prefetch init ls = some s) (m : Nat) : places s m = if m < s.msgs.length then 1 else 0 := (inv_run h).data.count m

/-- **C48.** A message is delivered at most once, and once more each time the broker takes it back from a consumer whose connection was closed. -/
theorem C48_at_most_once (h : run dec prefetch init ls = some s) (m : Nat) : (s.dlv.map Prod.fst).count m ≤ 1 + s.requeued.count m := by
  have := (inv_run h).data.once m
  split at this <;> omega

theorem exec_ok {j : Nat} {r : Running N B} {m : Method N B} {rest : List (Method N B)} (hr : s.calls[j]? = some r) (hres : r.result = none) (ho : r.conn ∉ s.closed) (hrest : r.rest = m :: rest)
    (hm : (method s r.conn m).2 = .ok) : step dec prefetch s (.exec j) = some { (method s r.conn m).1 with calls := s.calls.set j { r with rest := rest } } := by
  simp [step, hr, hres, ho, hrest, hm]

theorem exec_publish {j conn : Nat} {name : N} {o : QueueOptions} {b : B} {i : Nat} (hn : Names s) (hr : s.calls[j]? = some ⟨conn, .publish name o b, (Call.publish name o b).methods, none⟩)
    (ho : conn ∉ s.closed) (hrt : routes s o.mode name i) :
    ∃ s' q q', step dec prefetch s (.exec j) = some s' ∧ s.queues[i]? = some q ∧ s'.queues[i]? = some q' ∧ q'.ready = q.ready ++ [s.msgs.length] ∧ q'.present = q.present ∧
      s'.msgs = s.msgs ++ [⟨name, b⟩] ∧ s'.consumers = s.consumers ∧ s'.closed = s.closed := by
  cases hm : o.mode with
  | exactlyOnce =>
    rw [hm] at hrt
    simp only [routes] at hrt
    obtain ⟨p, hp1, hp2, hp3⟩ := find_some hrt
    have hi : i < s.queues.length := by rw [List.getElem?_eq_some_iff] at hp1; exact hp1.1
    have he := exec_ok (dec := dec) (prefetch := prefetch) (m := .publish (.queue name) b o.deliveryMode) (rest := []) hr rfl ho (by simp [Call.methods, publish, hm]) (by simp [method, hrt])
    refine ⟨_, p, { p with ready := p.ready ++ [s.msgs.length] }, he, hp1, ?_, rfl, rfl, ?_, ?_, ?_⟩ <;> simp [method, hrt, modify_eq_set hp1, hi]
  | broadcast =>
    rw [hm] at hrt
    obtain ⟨hex, hb⟩ := hrt
    obtain ⟨p, hp1, hp2, hp3⟩ := hn.bind name i hb
    have hi : i < s.queues.length := by rw [List.getElem?_eq_some_iff] at hp1; exact hp1.1
    have hany : ((List.range s.queues.length).any fun i => decide ((name, i) ∈ s.bindings)) = true := by
      rw [List.any_eq_true]; exact ⟨i, by simpa using hi, by simpa using hb⟩
    have hmeth : method s conn (.publish (.fanout name) b o.deliveryMode) = ({ s with msgs := s.msgs ++ [⟨name, b⟩], queues := s.queues.mapIdx fun i q =>
        if (name, i) ∈ s.bindings then { q with ready := q.ready ++ [s.msgs.length] } else q }, .ok) := by
      simp only [method, hex, hany, if_true]
    have he := exec_ok (dec := dec) (prefetch := prefetch) (m := .publish (.fanout name) b o.deliveryMode) (rest := []) hr rfl ho (by simp [Call.methods, publish, hm]) (by rw [hmeth])
    rw [hmeth] at he
    refine ⟨_, p, { p with ready := p.ready ++ [s.msgs.length] }, he, hp1, ?_, rfl, rfl, rfl, rfl, rfl⟩
    simp [List.getElem?_mapIdx, hp1, hb]

/-- **C48.** Publishing to a channel whose queue is there puts the message at the end of that queue, and the broker and the user of any one live consumer of that queue can then bring about
that the consumer yields it: no message is stuck behind others, provided fewer undecodable messages than the prefetch limit have reached the consumer and none is ahead. -/
theorem C48_reaches_partial (h : run dec prefetch init ls = some s) {j conn k : Nat} {name : N} {o : QueueOptions} {b : B} {c : Consumer}
    (hr : s.calls[j]? = some ⟨conn, .publish name o b, (Call.publish name o b).methods, none⟩) (ho : conn ∉ s.closed)
    (hc : s.consumers[k]? = some c) (hrt : routes s o.mode name c.inst) (hcan : s.canDeliver c) (hroom : prefetch = 0 ∨ c.stuck.length < prefetch)
    (hb : dec b ≠ none) (hd : ∀ q, s.queues[c.inst]? = some q → ∀ m, m ∈ c.buffer ∨ m ∈ q.ready → decodable dec s m) :
    ∃ ls' s', run dec prefetch s (.exec j :: ls') = some s' ∧ (∀ l ∈ ls', l.serves k) ∧ (s.msgs.length, k) ∈ s'.yielded := by
  have hi := inv_run h
  obtain ⟨s1, q, q', h1, h2, h3, h4, h4', h5, h6, h7⟩ := exec_publish (dec := dec) (prefetch := prefetch) hi.names hr ho hrt
  have hp' : q'.present = true := by
    simp only [St.canDeliver, h2, Bool.and_eq_true] at hcan
    rw [h4']; exact hcan.2
  have hc1 : s1.consumers[k]? = some c := by rw [h6]; exact hc
  have hcan1 : s1.canDeliver c = true := by
    simp only [St.canDeliver, h2, Bool.and_eq_true, h7, h3, hp', and_true] at hcan ⊢
    exact hcan.1
  have hlen : ∀ x, decodable dec s x → decodable dec s1 x := by
    rintro x ⟨g, v, hg, hv⟩
    refine ⟨g, v, ?_, hv⟩
    rw [h5, List.getElem?_append_left (by rw [List.getElem?_eq_some_iff] at hg; exact hg.1)]; exact hg
  obtain ⟨v, hv⟩ := Option.ne_none_iff_exists'.1 hb
  obtain ⟨ls', s', r1, r2, r3⟩ := serve (k := k) q.ready (m := s.msgs.length) (post := []) (inv_step hi h1) hc1 hcan1 hroom h3 h4 (by
    rintro x (hx | hx | rfl)
    · exact hlen x (hd q h2 x (.inl hx))
    · exact hlen x (hd q h2 x (.inr hx))
    · exact ⟨⟨name, b⟩, v, by simp [h5], hv⟩)
  exact ⟨ls', s', Lts.run_cons.2 ⟨s1, h1, r1⟩, r2, r3⟩

theorem requeue_all {k : Nat} : ∀ (us : List Nat) {s : St N B} {c : Consumer} {q : Queue N}, s.consumers[k]? = some c → c.unacked = us → c.conn ∈ s.closed → s.queues[c.inst]? = some q → q.present = true →
    ∃ s', run dec prefetch s (List.replicate us.length (.requeue k)) = some s' ∧ s'.queues[c.inst]? = some { q with ready := us ++ q.ready } ∧ s'.consumers[k]? = some { c with unacked := [] } := by
  intro us
  induction us using List.reverseRec with
  | nil => intro s c q hc hu _ hq _; exact ⟨s, rfl, hq, by rw [hc]; cases c; simp_all⟩
  | append_singleton us m ih =>
    intro s c q hc hu hcl hq hp
    have hs : step dec prefetch s (.requeue k) = some { s with
        consumers := s.consumers.set k { c with unacked := us }, queues := s.queues.set c.inst { q with ready := m :: q.ready }, requeued := s.requeued ++ [m] } := by
      simp [step, hc, hu, hcl, hq, hp]
    obtain ⟨hl1, _⟩ := List.getElem?_eq_some_iff.1 hc
    obtain ⟨hl2, _⟩ := List.getElem?_eq_some_iff.1 hq
    obtain ⟨s', h1, h2, h3⟩ := ih (s := { s with
        consumers := s.consumers.set k { c with unacked := us }, queues := s.queues.set c.inst { q with ready := m :: q.ready }, requeued := s.requeued ++ [m] }) (c := { c with unacked := us })
      (q := { q with ready := m :: q.ready }) (by simp [hl1]) rfl hcl (by simp [hl2]) hp
    refine ⟨s', ?_, by simpa using h2, by simpa using h3⟩
    rw [List.length_append, List.length_singleton, List.replicate_succ, Lts.run_cons]
    exact ⟨_, hs, h1⟩

/-- **C48.** When the connection of a consumer is lost, the broker can put everything that was delivered to it and not settled back to the front of the queue, in order, from where other consumers are served. -/
theorem C48_returned {k : Nat} {c : Consumer} {q : Queue N} (hc : s.consumers[k]? = some c) (hq : s.queues[c.inst]? = some q) (hp : q.present = true) :
    ∃ s', run dec prefetch s (.lose c.conn :: List.replicate c.unacked.length (.requeue k)) = some s' ∧ s'.queues[c.inst]? = some { q with ready := c.unacked ++ q.ready } ∧
      s'.consumers[k]? = some { c with unacked := [] } := by
  obtain ⟨s', h1, h2, h3⟩ := requeue_all (dec := dec) (prefetch := prefetch) (k := k) c.unacked (s := { s with closed := c.conn :: s.closed }) hc rfl (by simp) hq hp
  exact ⟨s', Lts.run_cons.2 ⟨_, rfl, h1⟩, h2, h3⟩

/-- **C48.** Once the broker has performed the first method of a `delete_queue` call, no queue has the name. -/
theorem C48_deleted (h : run dec prefetch init ls = some s) {j conn : Nat} {name : N} (hr : s.calls[j]? = some ⟨conn, .deleteQueue name, (Call.deleteQueue name).methods, none⟩)
    (ho : conn ∉ s.closed) (hs : step dec prefetch s (.exec j) = some s') : s'.find name = none ∧ (∀ x i, x = name → (x, i) ∉ s'.bindings) := by
  have hn := (inv_run h).names
  have hnone : s'.find name = none := by
    unfold St.find
    rw [List.findIdx?_eq_none_iff]
    intro p hp
    simp only [step, hr, Call.methods, deleteQueue, deleteBroadcast, method] at hs
    cases hf : s.find name with
    | none =>
      simp [hf, ho] at hs
      subst hs
      obtain ⟨i, hi⟩ := List.mem_iff_getElem?.1 hp
      have := find_none hf i p hi
      cases hpp : p.present <;> simp
      exact this hpp
    | some i =>
      obtain ⟨q, h1, h2, h3⟩ := find_some hf
      simp [hf, ho, h1] at hs
      subst hs
      simp only [remove] at hp
      obtain ⟨k, hk⟩ := List.mem_iff_getElem?.1 hp
      rcases getElem?_set' hk with ⟨rfl, rfl⟩ | ⟨hne, hk⟩
      · simp
      · cases hpp : p.present with
        | false => simp
        | true =>
          simp
          intro hpn
          exact hne (hn.uniq i k q p h1 hk h2 hpp (by rw [h3, hpn]))
  refine ⟨hnone, ?_⟩
  rintro x i rfl hx
  obtain ⟨q, h1, h2, h3⟩ := (names_step hn hs).bind x i hx
  exact find_none hnone i q h1 h2 h3

/-- **C48.** A queue that is gone stays gone, and its consumers are delivered nothing more. -/
theorem C48_deleted_final (h : run dec prefetch init ls = some s) {i : Nat} {q : Queue N} (hq : s.queues[i]? = some q) (hp : q.present = false) {ls' : List (Label N B)}
    (hr : run dec prefetch s ls' = some s') :
    (∃ q', s'.queues[i]? = some q' ∧ q'.present = false) ∧ ∀ k c, s.consumers[k]? = some c → c.inst = i → ∀ m, (m, k) ∈ s'.dlv → (m, k) ∈ s.dlv := by
  have gone : ∀ x : St N B, Grows s x → ∃ q', x.queues[i]? = some q' ∧ q'.present = false := by
    intro x hg
    obtain ⟨q', h1, -, -, h2⟩ := hg.queues i q hq
    refine ⟨q', h1, ?_⟩
    cases hq' : q'.present with
    | false => rfl
    | true => simp [h2 hq'] at hp
  have hi := inv_run h
  refine ⟨gone s' (grows_run hi hr).1, ?_⟩
  intro k c hc hci
  refine (Lts.run_induction (P := fun (_ : List (Label N B)) (x : St N B) => Grows s x ∧ Inv dec prefetch x ∧ ∀ m, (m, k) ∈ x.dlv → (m, k) ∈ s.dlv) ⟨Grows.refl s, hi, fun _ h => h⟩ ?_ ls' s' hr).2.2
  rintro ls l a b _ ⟨hg, hia, hd⟩ hs
  refine ⟨hg.trans (grows_step hia.names hs), inv_step hia hs, ?_⟩
  have he := eff_of_step hia.names hs
  generalize b.calls = cs at he
  generalize b.closed = cl at he
  clear hs
  cases he <;> try exact hd
  rename_i k' c' q' m rest hc' hq' hr hcan hpf
  intro x hx
  simp only [List.mem_append, List.mem_singleton, Prod.mk.injEq] at hx
  rcases hx with hx | ⟨rfl, rfl⟩
  · exact hd x hx
  · exfalso
    obtain ⟨c1, h1, h2, -⟩ := hg.consumers _ c hc
    rw [hc'] at h1; cases h1
    obtain ⟨q1, h3, h4⟩ := gone a hg
    rw [← hci, ← h2, hq'] at h3; cases h3
    simp [St.canDeliver, hq', h4] at hcan

/-- A process declares an exactly-once channel 7 as a sender; the queue expires (30 minutes without a consumer, publishing does not count); its next message is dropped, and `publish` returns
`Ok`. -/
def exExpired : List (Label Nat Nat) :=
  [.begin 0 (.declareQueue 7 ChannelType.exactlyOnce.options), .exec 0, .exec 0, .expire 0, .begin 0 (.publish 7 ChannelType.exactlyOnce.options 42), .exec 1, .exec 1,
   .begin 1 (.declareQueue 7 ChannelType.exactlyOnce.options), .exec 2, .exec 2, .begin 1 (.declareConsumer 7), .exec 3, .exec 3]

/-- **C48** is false after a queue has expired: the message is in no queue, although `publish` has returned `Ok` and a consumer is there. -/
theorem C48_expired_witness : ∃ s : St Nat Nat, run (V := Nat) some 1 init exExpired = some s ∧ s.unroutable = [0] ∧ (s.calls[1]?.bind (·.result)) = some (some .ok) ∧
    (s.consumers.all fun c => s.canDeliver c) ∧ s.consumers.length = 1 := ⟨_, rfl, by decide +kernel, by decide +kernel, by decide +kernel, by decide +kernel⟩

/-- Two processes exchange messages on two channels. -/
def exTwo : List (Label Nat Nat) :=
  [.begin 0 (.declareQueue 7 ChannelType.exactlyOnce.options), .exec 0, .exec 0, .begin 1 (.declareQueue 8 ChannelType.exactlyOnce.options), .exec 1, .exec 1,
   .begin 1 (.declareConsumer 7), .exec 2, .exec 2, .begin 0 (.declareConsumer 8), .exec 3, .exec 3,
   .begin 0 (.publish 7 ChannelType.exactlyOnce.options 41), .exec 4, .exec 4, .begin 1 (.publish 8 ChannelType.exactlyOnce.options 42), .exec 5, .exec 5,
   .deliver 1, .poll 1, .deliver 0, .poll 0, .ack 0 0, .lose 0, .requeue 1, .begin 1 (.declareConsumer 8), .exec 6, .exec 6, .deliver 2, .poll 2]

example : ∃ s : St Nat Nat, run (V := Nat) some 1 init exTwo = some s ∧ s.yielded = [(1, 1), (0, 0), (1, 2)] ∧ s.requeued = [1] ∧ s.acked = [0] :=
  ⟨_, rfl, by decide +kernel, by decide +kernel, by decide +kernel⟩

/-! ## C49 -/

/-- **C49** is false: once as many undecodable messages as the prefetch limit have reached a consumer, it never yields anything again. -/
theorem C49_stall (h : run dec prefetch init ls = some s) (hp : prefetch ≠ 0) {k : Nat} {c : Consumer} (hc : s.consumers[k]? = some c) (ho : c.conn ∉ s.closed)
    (hst : prefetch ≤ c.stuck.length) {ls' : List (Label N B)} (hr : run dec prefetch s ls' = some s') : ∀ m, (m, k) ∈ s'.yielded → (m, k) ∈ s.yielded := by
  have hi := inv_run h
  have hb : c.buffer = [] := by
    have h1 := (hi.client.agree k c hc ho).length_eq
    have h2 := hi.client.limit hp c (List.mem_of_getElem? hc)
    simp at h1
    exact List.eq_nil_of_length_eq_zero (by omega)
  suffices hP : Inv dec prefetch s' ∧ (∃ d, s'.consumers[k]? = some d ∧ d.buffer = [] ∧ (d.conn ∉ s'.closed → prefetch ≤ d.stuck.length)) ∧ ∀ m, (m, k) ∈ s'.yielded → (m, k) ∈ s.yielded from
    hP.2.2
  refine Lts.run_induction (P := fun (_ : List (Label N B)) (x : St N B) => Inv dec prefetch x ∧ (∃ d, x.consumers[k]? = some d ∧ d.buffer = [] ∧ (d.conn ∉ x.closed → prefetch ≤ d.stuck.length)) ∧
    ∀ m, (m, k) ∈ x.yielded → (m, k) ∈ s.yielded) ⟨hi, ⟨c, hc, hb, fun _ => hst⟩, fun _ h => h⟩ ?_ ls' s' hr
  rintro ls l a b _ ⟨hia, ⟨d, hd, hdb, hds⟩, hy⟩ hs
  refine ⟨inv_step hia hs, ?_⟩
  have hcl : ∀ x, x ∉ b.closed → x ∉ a.closed := fun x hx hx' => hx (closed_mono hs x hx')
  have he := eff_of_step hia.names hs
  generalize b.calls = cs at he
  generalize b.closed = cl at he hcl
  clear hs
  have keep : ∀ (j : Nat) (e e' : Consumer), a.consumers[j]? = some e → e'.conn = e.conn → (e.buffer = [] → e'.buffer = []) → e.stuck.length ≤ e'.stuck.length →
      ∃ d, (a.consumers.set j e')[k]? = some d ∧ d.buffer = [] ∧ (d.conn ∉ cl → prefetch ≤ d.stuck.length) := by
    intro j e e' hj h1 h2 h3
    by_cases hjk : j = k
    · subst hjk
      rw [hd] at hj; cases hj
      refine ⟨e', by rw [List.getElem?_set_self (by rw [List.getElem?_eq_some_iff] at hd; exact hd.1)], h2 hdb, fun h => ?_⟩
      exact Nat.le_trans (hds (hcl _ (h1 ▸ h))) h3
    · exact ⟨d, by rw [List.getElem?_set_ne hjk]; exact hd, hdb, fun h => hds (hcl _ h)⟩
  have same : ∃ d, a.consumers[k]? = some d ∧ d.buffer = [] ∧ (d.conn ∉ cl → prefetch ≤ d.stuck.length) := ⟨d, hd, hdb, fun h => hds (hcl _ h)⟩
  cases he with
  | other es bs hb => exact ⟨same, hy⟩
  | newQueue n a h => exact ⟨same, hy⟩
  | bind i q bs h hp hb => exact ⟨same, hy⟩
  | remove i q h => exact ⟨same, hy⟩
  | pub i q b h hp => exact ⟨same, hy⟩
  | unr n b => exact ⟨same, hy⟩
  | consume conn i q h hp =>
    refine ⟨⟨d, ?_, hdb, fun h => hds (hcl _ h)⟩, hy⟩
    dsimp only
    rw [List.getElem?_append_left (by rw [List.getElem?_eq_some_iff] at hd; exact hd.1)]; exact hd
  | deliver j e q m rest he hq hr hcan hpf =>
    refine ⟨?_, hy⟩
    by_cases hjk : j = k
    · subst hjk
      rw [hd] at he; cases he
      exfalso
      have hopen : d.conn ∉ a.closed := by simp [St.canDeliver] at hcan; exact hcan.1.2
      have h1 := (hia.client.agree j d hd hopen).length_eq
      have h2 := hds hopen
      simp at h1
      rcases hpf with h0 | h0
      · exact hp h0
      · omega
    · exact ⟨d, by rw [List.getElem?_set_ne hjk]; exact hd, hdb, fun h => hds (hcl _ h)⟩
  | touch j e ca pa wo he => exact ⟨keep j e _ he rfl id (Nat.le_refl _), hy⟩
  | yield j e m rest pa wo he hb hdm =>
    by_cases hjk : j = k
    · subst hjk; rw [hd] at he; cases he; simp [hdb] at hb
    · refine ⟨⟨d, by rw [List.getElem?_set_ne hjk]; exact hd, hdb, fun h => hds (hcl _ h)⟩, ?_⟩
      intro x hx
      simp only [List.mem_append, List.mem_singleton, Prod.mk.injEq] at hx
      rcases hx with hx | ⟨-, rfl⟩
      · exact hy x hx
      · exact absurd rfl hjk
  | skip j e m rest pa wo he hb hdm => exact ⟨keep j e _ he rfl (fun h => by simp [h] at hb) (by simp), hy⟩
  | ack j e m he hm hcl => exact ⟨keep j e _ he rfl id (Nat.le_refl _), hy⟩
  | nack j e m he hm hcl => exact ⟨keep j e _ he rfl id (Nat.le_refl _), hy⟩
  | requeue j e m q rest he hm hcl hq hp => exact ⟨keep j e _ he rfl id (Nat.le_refl _), hy⟩
  | drop j e m rest he hm hcl => exact ⟨keep j e _ he rfl id (Nat.le_refl _), hy⟩

/-- **C49.** What a consumer yields can be decoded, so an undecodable message is never yielded. -/
theorem C49_decodable (h : run dec prefetch init ls = some s) {m k : Nat} (hy : (m, k) ∈ s.yielded) : decodable dec s m := by
  have key : ∀ (ls : List (Label N B)) (s : St N B), run dec prefetch init ls = some s → Names s ∧ ∀ m k, (m, k) ∈ s.yielded → decodable dec s m := by
    refine Lts.run_induction (P := fun (_ : List (Label N B)) (s : St N B) => Names s ∧ ∀ m k, (m, k) ∈ s.yielded → decodable dec s m) ⟨names_init, by simp [init]⟩ ?_
    rintro _ l s s' _ ⟨hn, ih⟩ hs
    refine ⟨names_step hn hs, fun m k hy => ?_⟩
    have he := eff_of_step hn hs
    have more : ∀ m g, decodable dec s m → s'.msgs = s.msgs ++ [g] → decodable dec s' m := by
      rintro m g ⟨x, v, h1, h2⟩ hm
      exact ⟨x, v, by rw [hm, List.getElem?_append_left (List.getElem?_eq_some_iff.1 h1).1]; exact h1, h2⟩
    generalize s'.calls = cs at he
    generalize s'.closed = cl at he
    cases he with
    | pub i q b hq hp => exact more m _ (ih m k hy) rfl
    | unr n b => exact more m _ (ih m k hy) rfl
    | yield j c x rest pa wo hc hb hd =>
      simp only [List.mem_append, List.mem_cons, List.not_mem_nil, or_false, Prod.mk.injEq] at hy
      rcases hy with hy | ⟨rfl, rfl⟩
      · exact ih m k hy
      · exact hd
    | _ => exact ih m k hy
  exact (key ls s h).2 m k hy

/-- **C49**, as far as it holds: with fewer undecodable messages polled than the prefetch limit and none ahead, every ready message can still be yielded. -/
theorem C49_fewer_partial (h : run dec prefetch init ls = some s) {k m : Nat} {c : Consumer} {q : Queue N} (hc : s.consumers[k]? = some c) (hcan : s.canDeliver c)
    (hroom : prefetch = 0 ∨ c.stuck.length < prefetch) (hq : s.queues[c.inst]? = some q) (hm : m ∈ q.ready) (hd : ∀ x, x ∈ c.buffer ∨ x ∈ q.ready → decodable dec s x) :
    ∃ ls' s', run dec prefetch s ls' = some s' ∧ (∀ l ∈ ls', l.serves k) ∧ (m, k) ∈ s'.yielded := by
  obtain ⟨pre, post, hpp⟩ := List.append_of_mem hm
  refine serve pre (inv_run h) hc hcan hroom hq hpp ?_
  rintro x (hx | hx | rfl)
  · exact hd x (.inl hx)
  · exact hd x (.inr (by rw [hpp]; exact List.mem_append_left _ hx))
  · exact hd x (.inr hm)

/-- Even numbers can be decoded. -/
def exDec (n : Nat) : Option Nat := if n % 2 = 0 then some n else none

/-- Process 0 consumes channel 7; messages 1 (undecodable) and 2 are published; the consumer is polled. -/
def exStall : List (Label Nat Nat) :=
  [.begin 0 (.declareQueue 7 ChannelType.exactlyOnce.options), .exec 0, .exec 0, .begin 0 (.declareConsumer 7), .exec 1, .exec 1,
   .begin 1 (.publish 7 ChannelType.exactlyOnce.options 1), .exec 2, .exec 2, .begin 1 (.publish 7 ChannelType.exactlyOnce.options 2), .exec 3, .exec 3, .deliver 0, .poll 0]

/-- **C49** is false with the limit 1, which is what the runtime sets: the valid message is ready and the consumer never yields it. -/
theorem C49_witness : ∃ s : St Nat Nat, run exDec 1 init exStall = some s ∧ (s.queues[0]?.map (·.ready)) = some [1] ∧ decodable exDec s 1 ∧
    ∀ ls s', run exDec 1 s ls = some s' → (1, 0) ∉ s'.yielded := by
  have h0 : ∃ s : St Nat Nat, run exDec 1 init exStall = some s ∧ (s.queues[0]?.map (·.ready)) = some [1] ∧ decodable exDec s 1 ∧
      s.consumers[0]? = some ⟨0, 0, false, [0], [], [], [0], true, false⟩ ∧ s.closed = [] ∧ s.yielded = [] :=
    ⟨_, rfl, by decide +kernel, ⟨⟨7, 2⟩, 2, by decide +kernel, rfl⟩, by decide +kernel, by decide +kernel, by decide +kernel⟩
  obtain ⟨s, h1, h2, h3, h4, h5, h6⟩ := h0
  refine ⟨s, h1, h2, h3, fun ls s' hr hy => ?_⟩
  have := C49_stall h1 (by decide) h4 (by simp [h5]) (by simp) hr 1 hy
  simp [h6] at this

/-- **C49** is false also with larger limits: the undecodable message hides the one behind it, of which the task is not told. Both have arrived; the poll returned `Pending`, the second message is in
the buffer, and nothing wakes the task. -/
theorem C49_asleep_witness : ∃ s : St Nat Nat, run exDec 2 init (exStall.dropLast ++ [.deliver 0, .poll 0]) = some s ∧
    s.consumers[0]? = some ⟨0, 0, false, [0, 1], [1], [], [0], true, false⟩ ∧ decodable exDec s 1 :=
  ⟨_, rfl, by decide +kernel, ⟨⟨7, 2⟩, 2, by decide +kernel, rfl⟩⟩

/-! ## C50 -/

/-- **C50.** The options of a channel: its own kind, persistent messages (`delivery_mode` 2), queues that are not durable and expire after 30 minutes. -/
theorem C50_options (t : ChannelType) :
    (t.options.mode = .broadcast ↔ t = .broadcast) ∧ t.options.deliveryMode = some 2 ∧ t.options.args.durable = false ∧ t.options.args.expires = some (30 * 60 * 1000) := by
  cases t <;> simp [ChannelType.options, QueueOptions.deliveryMode, QueueOptions.args]

/-- **C50.** A receiver declares the queue as a sender of the same channel does. -/
theorem C50_same (id : N) (t : ChannelType) : (receiverCalls id t : List (Call N B)) = senderCalls id t ++ [.declareConsumer id] := rfl

/-- The arguments of every declaration of a channel. -/
def chanArgs : Args := ⟨false, some 1800000⟩

def Method.argsOk : Method N B → Prop
  | .exchangeDeclare _ a => a = chanArgs
  | .queueDeclare _ a => a = chanArgs
  | .publish _ _ mode => mode = some 2
  | _ => True

theorem ofChannel_args {c : Call N B} (h : c.ofChannel) : ∀ m ∈ c.methods, m.argsOk := by
  obtain ⟨id, t, h⟩ := h
  simp only [senderCalls, receiverCalls, releaseCalls, List.mem_cons, List.not_mem_nil, or_false] at h
  intro m hm
  rcases h with rfl | (rfl | rfl) | rfl | ⟨b, rfl⟩ <;> cases t <;>
    simp [Call.methods, declareQueue, deleteQueue, deleteBroadcast, declareSingle, declareBroadcast, publish, ChannelType.options, QueueOptions.args, QueueOptions.deliveryMode] at hm <;>
    (try rcases hm with rfl | rfl | rfl) <;> (try rcases hm with rfl | rfl) <;> (try subst hm) <;> simp [Method.argsOk, chanArgs]

structure ArgsInv (s : St N B) : Prop where
  exchanges : ∀ x ∈ s.exchanges, x.2 = chanArgs
  queues : ∀ q ∈ s.queues, q.args = chanArgs
  rest : ∀ r ∈ s.calls, ∀ m ∈ r.rest, m.argsOk
  results : ∀ r ∈ s.calls, r.result ≠ some (some .preconditionFailed)

theorem lookup_args {l : List (N × Args)} (h : ∀ x ∈ l, x.2 = chanArgs) {x : N} {a : Args} (hl : l.lookup x = some a) : a = chanArgs := by
  induction l with
  | nil => simp at hl
  | cons y l ih =>
    rw [List.lookup_cons] at hl
    split at hl
    · cases hl; exact h y (by simp)
    · exact ih (fun z hz => h z (List.mem_cons_of_mem _ hz)) hl

theorem method_args (hi : ArgsInv s) (conn : Nat) (m : Method N B) (hm : m.argsOk) :
    (∀ x ∈ (method s conn m).1.exchanges, x.2 = chanArgs) ∧ (∀ q ∈ (method s conn m).1.queues, q.args = chanArgs) ∧ (method s conn m).2 ≠ .preconditionFailed := by
  cases m with
  | exchangeDeclare x a =>
    simp only [Method.argsOk] at hm; subst hm
    simp only [method]
    split
    · rename_i a' hl
      have := lookup_args hi.exchanges hl
      subst this
      exact ⟨hi.exchanges, hi.queues, by simp⟩
    · refine ⟨?_, hi.queues, by simp⟩
      intro y hy
      simp only [List.mem_append, List.mem_singleton] at hy
      rcases hy with hy | rfl
      · exact hi.exchanges y hy
      · rfl
  | queueDeclare q a =>
    simp only [Method.argsOk] at hm; subst hm
    simp only [method]
    split
    · rename_i i hf
      obtain ⟨p, hp, -⟩ := find_some hf
      refine ⟨hi.exchanges, hi.queues, ?_⟩
      simp [hp, hi.queues p (List.mem_of_getElem? hp)]
    · refine ⟨hi.exchanges, ?_, by simp⟩
      intro y hy
      simp only [List.mem_append, List.mem_singleton] at hy
      rcases hy with hy | rfl
      · exact hi.queues y hy
      · rfl
  | queueBind q x => simp only [method]; split <;> exact ⟨hi.exchanges, hi.queues, by simp⟩
  | queueDelete q =>
    simp only [method]
    split
    · split
      · rename_i c hc
        refine ⟨hi.exchanges, ?_, by simp⟩
        intro y hy
        simp only [remove] at hy
        rcases PubAll.mem_set_cases hy with rfl | hy
        · exact hi.queues c (List.mem_of_getElem? hc)
        · exact hi.queues y hy
      · exact ⟨hi.exchanges, hi.queues, by simp⟩
    · exact ⟨hi.exchanges, hi.queues, by simp⟩
  | exchangeDelete x => exact ⟨fun y hy => hi.exchanges y (List.mem_filter.1 hy).1, hi.queues, by simp [method]⟩
  | publish d b mode =>
    cases d with
    | queue name =>
      simp only [method]
      split
      · rename_i i hf
        obtain ⟨p, hp, -⟩ := find_some hf
        refine ⟨hi.exchanges, ?_, by simp⟩
        dsimp only
        rw [modify_eq_set hp]
        intro y hy
        rcases PubAll.mem_set_cases hy with rfl | hy
        · exact hi.queues p (List.mem_of_getElem? hp)
        · exact hi.queues y hy
      · exact ⟨hi.exchanges, hi.queues, by simp⟩
    | fanout x =>
      simp only [method]
      split
      · split
        · refine ⟨hi.exchanges, ?_, by simp⟩
          intro y hy
          simp only [List.mem_mapIdx] at hy
          obtain ⟨i, hi', rfl⟩ := hy
          have hq := hi.queues _ (List.getElem_mem hi')
          split
          · exact hq
          · exact hq
        · exact ⟨hi.exchanges, hi.queues, by simp⟩
      · exact ⟨hi.exchanges, hi.queues, by simp⟩
  | consume q => simp only [method]; split <;> exact ⟨hi.exchanges, hi.queues, by simp⟩

theorem argsInv_run (h : run dec prefetch init ls = some s) (hch : ∀ conn c, Label.begin conn c ∈ ls → c.ofChannel) : ArgsInv s := by
  refine Lts.run_induction (P := fun (ls : List (Label N B)) (s : St N B) => (∀ conn c, Label.begin conn c ∈ ls → c.ofChannel) → ArgsInv s) (fun _ => by constructor <;> simp [init]) ?_ ls s h hch
  intro ls l s s' hr ih hs hch
  have hi := ih fun conn c hc => hch conn c (List.mem_append_left _ hc)
  have hn := (inv_run hr).names
  cases l with
  | «begin» conn c =>
    simp only [step, Option.some.injEq] at hs; subst hs
    refine ⟨hi.exchanges, hi.queues, ?_, ?_⟩
    · intro r hr
      simp only [List.mem_append, List.mem_singleton] at hr
      rcases hr with hr | rfl
      · exact hi.rest r hr
      · exact ofChannel_args (hch conn c (by simp))
    · intro r hr
      simp only [List.mem_append, List.mem_singleton] at hr
      rcases hr with hr | rfl
      · exact hi.results r hr
      · simp
  | exec k =>
    simp only [step] at hs
    split at hs
    · cases hs
    · rename_i r hrk
      have hmem := List.mem_of_getElem? hrk
      have set' : ∀ r1 : Running N B, (∀ m ∈ r1.rest, m ∈ r.rest) → r1.result ≠ some (some .preconditionFailed) →
          (∀ x ∈ s.calls.set k r1, ∀ m ∈ x.rest, m.argsOk) ∧ ∀ x ∈ s.calls.set k r1, x.result ≠ some (some .preconditionFailed) := by
        intro r1 h1 h2
        refine ⟨?_, ?_⟩
        · intro x hx m hm
          rcases PubAll.mem_set_cases hx with rfl | hx
          · exact hi.rest r hmem m (h1 m hm)
          · exact hi.rest x hx m hm
        · intro x hx
          rcases PubAll.mem_set_cases hx with rfl | hx
          · exact h2
          · exact hi.results x hx
      split at hs
      · cases hs
      · split at hs
        · simp only [Option.some.injEq] at hs; subst hs
          have := set' { r with result := some none } (fun _ h => h) (by simp)
          exact ⟨hi.exchanges, hi.queues, this.1, this.2⟩
        · split at hs
          · simp only [Option.some.injEq] at hs; subst hs
            have := set' { r with result := some (some .ok) } (fun _ h => h) (by simp)
            exact ⟨hi.exchanges, hi.queues, this.1, this.2⟩
          · rename_i m rest hrest
            have hm : m.argsOk := hi.rest r hmem m (by simp [hrest])
            obtain ⟨a1, a2, a3⟩ := method_args hi r.conn m hm
            split at hs
            · simp only [Option.some.injEq] at hs; subst hs
              have := set' { r with rest := rest } (fun _ h => by rw [hrest]; exact List.mem_cons_of_mem _ h) (hi.results r hmem)
              exact ⟨a1, a2, this.1, this.2⟩
            · simp only [Option.some.injEq] at hs; subst hs
              have := set' { r with result := some (some (method s r.conn m).2) } (fun _ h => h) (by simpa using a3)
              exact ⟨a1, a2, this.1, this.2⟩
  | _ =>
    simp only [step, remove] at hs
    (repeat' split at hs) <;> simp only [Option.some.injEq, reduceCtorEq] at hs <;> subst hs
    all_goals refine ⟨hi.exchanges, ?_, hi.rest, hi.results⟩
    all_goals first
      | exact hi.queues
      | (intro y hy
         rcases PubAll.mem_set_cases hy with rfl | hy
         · have hq := hi.queues _ (List.mem_of_getElem? (by assumption : s.queues[_]? = some _)); exact hq
         · exact hi.queues y hy)

/-- **C50.** As long as only channels use the broker, whatever their kinds and names: no declaration ever fails because the queue exists with other arguments, and every queue is not durable and expires. -/
theorem C50_no_conflict (h : run dec prefetch init ls = some s) (hch : ∀ conn c, Label.begin conn c ∈ ls → c.ofChannel) :
    (∀ r ∈ s.calls, r.result ≠ some (some .preconditionFailed)) ∧ ∀ q ∈ s.queues, q.args.durable = false ∧ q.args.expires = some (30 * 60 * 1000) := by
  have hi := argsInv_run h hch
  refine ⟨hi.results, fun q hq => ?_⟩
  rw [hi.queues q hq]; exact ⟨rfl, rfl⟩

/-- Queues declared directly, with other options, do conflict. -/
example : ∃ s : St Nat Nat, run (V := Nat) some 1 init [.begin 0 (.declareQueue 7 ChannelType.exactlyOnce.options), .exec 0, .exec 0,
    .begin 1 (.declareQueue 7 ⟨.exactlyOnce, .persistent, .durable⟩), .exec 1] = some s ∧ (s.calls[1]?.bind (·.result)) = some (some .preconditionFailed) ∧ s.closed = [1] :=
  ⟨_, rfl, by decide +kernel, by decide +kernel⟩

theorem exec_seq {j : Nat} {r : Running N B} {m : Method N B} {rest : List (Method N B)} (hr : s.calls[j]? = some r) (hres : r.result = none) (ho : r.conn ∉ s.closed) (hrest : r.rest = m :: rest)
    (hm : (method s r.conn m).2 = .ok) : ∃ s', step dec prefetch s (.exec j) = some s' ∧ s'.calls[j]? = some { r with rest := rest } ∧ s'.closed = s.closed ∧
      s'.queues = (method s r.conn m).1.queues ∧ s'.exchanges = (method s r.conn m).1.exchanges ∧ s'.bindings = (method s r.conn m).1.bindings :=
  ⟨_, exec_ok hr hres ho hrest hm, by simp [List.getElem?_set_self (by rw [List.getElem?_eq_some_iff] at hr; exact hr.1 : j < s.calls.length)], (method_calls _ _).2, rfl, rfl, rfl⟩

theorem exec_end {j : Nat} {r : Running N B} (hr : s.calls[j]? = some r) (hres : r.result = none) (ho : r.conn ∉ s.closed) (hrest : r.rest = []) :
    ∃ s', step dec prefetch s (.exec j) = some s' ∧ s'.calls[j]? = some { r with result := some (some .ok) } ∧ s'.queues = s.queues ∧ s'.exchanges = s.exchanges ∧ s'.bindings = s.bindings := by
  have hj : j < s.calls.length := by rw [List.getElem?_eq_some_iff] at hr; exact hr.1
  exact ⟨{ s with calls := s.calls.set j { r with result := some (some .ok) } }, by simp [step, hr, hres, ho, hrest], by simp [hj], rfl, rfl, rfl⟩

theorem declare_ok (hi : ArgsInv s) (conn : Nat) (name : N) : (method s conn (.queueDeclare name chanArgs : Method N B)).2 = .ok ∧
    (method s conn (.queueDeclare name chanArgs : Method N B)).1.exchanges = s.exchanges ∧
    ∃ i, ∀ s' : St N B, s'.queues = (method s conn (.queueDeclare name chanArgs : Method N B)).1.queues → s'.find name = some i := by
  cases hf : s.find name with
  | some i =>
    obtain ⟨p, hp, -⟩ := find_some hf
    refine ⟨by simp [method, hf, hp, hi.queues p (List.mem_of_getElem? hp)], by simp [method, hf], i, ?_⟩
    intro s' h
    have : s'.queues = s.queues := by simpa [method, hf] using h
    unfold St.find at hf ⊢
    rw [this]; exact hf
  | none =>
    refine ⟨by simp [method, hf], by simp [method, hf], s.queues.length, ?_⟩
    intro s' h
    have : s'.queues = s.queues ++ [⟨name, chanArgs, true, []⟩] := by simpa [method, hf] using h
    unfold St.find at hf ⊢
    rw [this, List.findIdx?_append, hf]
    simp

theorem lookup_append_self {l : List (N × Args)} (x : N) (a : Args) (h : l.lookup x = none) : (l ++ [(x, a)]).lookup x = some a := by
  induction l with
  | nil => simp
  | cons y l ih =>
    rw [List.lookup_cons] at h
    rw [List.cons_append, List.lookup_cons]
    split at h
    · cases h
    · exact ih h

/-- **C50.** A declaration by a channel that is not interfered with succeeds, and afterwards messages published in its mode are routed to a queue. -/
theorem C50_declares (h : run dec prefetch init ls = some s) (hch : ∀ conn c, Label.begin conn c ∈ ls → c.ofChannel) (conn : Nat) (ho : conn ∉ s.closed) (name : N) (t : ChannelType) :
    ∃ n s' i, run dec prefetch s (.begin conn (.declareQueue name t.options) :: List.replicate n (.exec s.calls.length)) = some s' ∧
      (s'.calls[s.calls.length]?.bind (·.result)) = some (some .ok) ∧ routes s' t.options.mode name i := by
  have hargs : ∀ xs s', run dec prefetch s (.begin conn (.declareQueue name t.options) :: xs) = some s' → (∀ l ∈ xs, l = Label.exec s.calls.length) → ArgsInv s' := by
    intro xs s' hr hxs
    refine argsInv_run (Lts.run_append.2 ⟨s, h, hr⟩) ?_
    intro conn' c hc
    simp only [List.mem_append, List.mem_cons, Label.begin.injEq] at hc
    rcases hc with hc | ⟨rfl, rfl⟩ | hc
    · exact hch _ _ hc
    · exact ⟨name, t, .inl (by simp [senderCalls])⟩
    · have := hxs _ hc; cases this
  have hb : step dec prefetch s (.begin conn (.declareQueue name t.options)) =
      some { s with calls := s.calls ++ [⟨conn, .declareQueue name t.options, (Call.declareQueue name t.options).methods, none⟩] } := rfl
  have run0 := Lts.run_cons.2 ⟨_, hb, Lts.run_nil (step := step dec prefetch) _⟩
  have a0 := hargs [] _ run0 (by simp)
  cases t with
  | exactlyOnce =>
    obtain ⟨d1, -, i, d2⟩ := declare_ok a0 conn name
    obtain ⟨s1, e1, e2, e3, e4, e5, e6⟩ := exec_seq (dec := dec) (prefetch := prefetch) (j := s.calls.length)
      (s := { s with calls := s.calls ++ [⟨conn, .declareQueue name ChannelType.exactlyOnce.options, (Call.declareQueue name ChannelType.exactlyOnce.options).methods, none⟩] })
      (r := ⟨conn, .declareQueue name ChannelType.exactlyOnce.options, (Call.declareQueue name ChannelType.exactlyOnce.options).methods, none⟩) (m := .queueDeclare name chanArgs) (rest := [])
      (by simp) rfl ho rfl d1
    obtain ⟨s2, f1, f2, f3, f4, f5⟩ := exec_end (dec := dec) (prefetch := prefetch) e2 rfl (by rw [e3]; exact ho) rfl
    refine ⟨2, s2, i, Lts.run_cons.2 ⟨_, hb, Lts.run_cons.2 ⟨s1, e1, Lts.run_cons.2 ⟨s2, f1, rfl⟩⟩⟩, by simp [f2], ?_⟩
    exact d2 s2 (by rw [f3, e4])
  | broadcast =>
    have hx : (method { s with calls := s.calls ++ [⟨conn, .declareQueue name ChannelType.broadcast.options, (Call.declareQueue name ChannelType.broadcast.options).methods, none⟩] } conn
        (.exchangeDeclare name chanArgs : Method N B)).2 = .ok ∧
        (((method { s with calls := s.calls ++ [⟨conn, .declareQueue name ChannelType.broadcast.options, (Call.declareQueue name ChannelType.broadcast.options).methods, none⟩] } conn
        (.exchangeDeclare name chanArgs : Method N B)).1.exchanges).lookup name).isSome := by
      simp only [method]
      split
      · rename_i a ha
        have := lookup_args a0.exchanges ha
        exact ⟨by simp [this], by simp [ha]⟩
      · rename_i ha
        exact ⟨rfl, by rw [lookup_append_self _ _ ha]; rfl⟩
    obtain ⟨s1, e1, e2, e3, e4, e5, e6⟩ := exec_seq (dec := dec) (prefetch := prefetch) (j := s.calls.length)
      (s := { s with calls := s.calls ++ [⟨conn, .declareQueue name ChannelType.broadcast.options, (Call.declareQueue name ChannelType.broadcast.options).methods, none⟩] })
      (r := ⟨conn, .declareQueue name ChannelType.broadcast.options, (Call.declareQueue name ChannelType.broadcast.options).methods, none⟩) (m := .exchangeDeclare name chanArgs)
      (rest := [.queueDeclare name chanArgs, .queueBind name name]) (by simp) rfl ho rfl hx.1
    have run1 := Lts.run_snoc.2 ⟨_, run0, e1⟩
    have a1 := hargs [_] s1 run1 (by simp)
    obtain ⟨d1, d3, i, d2⟩ := declare_ok a1 conn name
    obtain ⟨s2, f1, f2, f3, f4, f5, f6⟩ := exec_seq (dec := dec) (prefetch := prefetch) (m := .queueDeclare name chanArgs) (rest := [.queueBind name name]) e2 rfl (by rw [e3]; exact ho) rfl d1
    have hfind := d2 s2 f4
    have hlook : (s2.exchanges.lookup name).isSome := by rw [f5, d3, e5]; exact hx.2
    obtain ⟨a, ha⟩ := Option.isSome_iff_exists.1 hlook
    obtain ⟨s3, g1, g2, g3, g4, g5, g6⟩ := exec_seq (dec := dec) (prefetch := prefetch) (m := .queueBind name name) (rest := []) f2 rfl (by rw [f3, e3]; exact ho) rfl
      (by simp only [method, ha, hfind])
    obtain ⟨s4, k1, k2, k3, k4, k5⟩ := exec_end (dec := dec) (prefetch := prefetch) g2 rfl (by rw [g3, f3, e3]; exact ho) rfl
    refine ⟨4, s4, i, Lts.run_cons.2 ⟨_, hb, Lts.run_cons.2 ⟨s1, e1, Lts.run_cons.2 ⟨s2, f1, Lts.run_cons.2 ⟨s3, g1, Lts.run_cons.2 ⟨s4, k1, rfl⟩⟩⟩⟩⟩, by simp [k2], ?_, ?_⟩
    · rw [k4, g5]; simp only [method, ha, hfind]; rfl
    · rw [k5, g6]; simp only [method, ha, hfind]
      split
      · assumption
      · simp

end Amqp
end Paladin
