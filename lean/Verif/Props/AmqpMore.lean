import Verif.Props.Amqp
/-! # Properties C65 and C66: interference and order on AMQP -/
namespace Paladin
namespace Amqp

variable {N B V : Type} [DecidableEq N] {dec : B → Option V} {prefetch : Nat} {s s' : St N B} {ls : List (Label N B)}

/-! ## C66 -/

/-- The messages consumer `k` has yielded, in this order. -/
def yieldedBy (s : St N B) (k : Nat) : List Nat := (s.yielded.filter fun p => p.2 = k).map Prod.fst

theorem yieldedBy_mem {k m : Nat} : m ∈ yieldedBy s k ↔ (m, k) ∈ s.yielded := by
  simp [yieldedBy]

structure Ord (s : St N B) : Prop where
  ready : ∀ (i : Nat) (q : Queue N), s.queues[i]? = some q → q.ready.Pairwise (· < ·)
  all : ∀ (k : Nat) (c : Consumer) (q : Queue N), s.consumers[k]? = some c → s.queues[c.inst]? = some q → (yieldedBy s k ++ c.buffer ++ q.ready).Pairwise (· < ·)

theorem ready_lt (hi : Inv dec prefetch s) {i : Nat} {q : Queue N} (hq : s.queues[i]? = some q) {m : Nat} (hm : m ∈ q.ready) : m < s.msgs.length := by
  have h0 : m ∈ s.queues.flatMap Queue.ready := List.mem_flatMap.2 ⟨q, List.mem_of_getElem? hq, hm⟩
  have := hi.data.count m
  have := List.count_pos_iff.2 h0
  by_cases hlt : m < s.msgs.length
  · exact hlt
  · rw [if_neg hlt] at *; omega

theorem ord_step (hi : Inv dec prefetch s) (hreq : s'.requeued = []) (ho : s.requeued = [] → Ord s) {l : Label N B} (h : step dec prefetch s l = some s') : Ord s' := by
  have he := eff_of_step hi.names h
  generalize s'.calls = cs at he
  generalize s'.closed = cl at he
  clear h
  -- a queue whose ready messages become fewer
  have less : ∀ (qs : List (Queue N)), (∀ (i : Nat) (q : Queue N), qs[i]? = some q → ∃ p, s.queues[i]? = some p ∧ q.ready.Sublist p.ready) → Ord s →
      ∀ (k : Nat) (c : Consumer) (q : Queue N), s.consumers[k]? = some c → qs[c.inst]? = some q → (yieldedBy s k ++ c.buffer ++ q.ready).Pairwise (· < ·) := by
    intro qs hqs hs k c q hc hq
    obtain ⟨p, hp, hsub⟩ := hqs _ _ hq
    exact (hs.all k c p hc hp).sublist (List.Sublist.append (List.Sublist.refl _) hsub)
  have upd : ∀ (k : Nat) (c c' : Consumer) , Ord s → s.consumers[k]? = some c → c'.inst = c.inst → c'.buffer.Sublist c.buffer →
      ∀ (j : Nat) (d : Consumer) (q : Queue N), (s.consumers.set k c')[j]? = some d → s.queues[d.inst]? = some q → (yieldedBy s j ++ d.buffer ++ q.ready).Pairwise (· < ·) := by
    intro k c c' hs hc h1 h2 j d q hd hq
    rcases getElem?_set' hd with ⟨rfl, rfl⟩ | ⟨_, hd⟩
    · rw [h1] at hq
      exact (hs.all k c q hc hq).sublist (List.Sublist.append (List.Sublist.append (List.Sublist.refl _) h2) (List.Sublist.refl _))
    · exact hs.all j d q hd hq
  have lts : ∀ (k : Nat) (c : Consumer), s.consumers[k]? = some c → ∀ m, m ∈ yieldedBy s k ++ c.buffer → m < s.msgs.length := by
    intro k c hc m hm
    rw [List.mem_append, yieldedBy_mem] at hm
    refine hi.client.known m k ?_
    rcases hm with hm | hm
    · exact yielded_dlv hi hm
    · exact hi.client.stuck_dlv hc (.inr hm)
  cases he with
  | other es bs hb => exact ⟨(ho hreq).1, (ho hreq).2⟩
  | newQueue n a h =>
    have hs := ho hreq
    refine ⟨?_, ?_⟩
    · intro i q hq
      rcases getElem?_snoc hq with hq | ⟨rfl, rfl⟩
      · exact hs.ready i q hq
      · simp
    · intro k c q hc hq
      rcases getElem?_snoc hq with hq | ⟨h, rfl⟩
      · exact hs.all k c q hc hq
      · have := hi.names.cons c (List.mem_of_getElem? hc); omega
  | bind i q bs h hp hb => exact ⟨(ho hreq).1, (ho hreq).2⟩
  | remove i q h =>
    have hs := ho hreq
    have hsub : ∀ (j : Nat) (p : Queue N), (s.queues.set i { q with present := false, ready := [] })[j]? = some p → ∃ p0, s.queues[j]? = some p0 ∧ p.ready.Sublist p0.ready := by
      intro j p hp
      rcases getElem?_set' hp with ⟨rfl, rfl⟩ | ⟨_, hp⟩
      · exact ⟨q, h, by simp⟩
      · exact ⟨p, hp, List.Sublist.refl _⟩
    refine ⟨?_, less _ hsub hs⟩
    intro j p hp
    obtain ⟨p0, h0, h1⟩ := hsub j p hp
    exact (hs.ready j p0 h0).sublist h1
  | pub i q b h hp =>
    have hs := ho hreq
    have snoc : ∀ l : List Nat, l.Pairwise (· < ·) → (∀ m ∈ l, m < s.msgs.length) → (l ++ [s.msgs.length]).Pairwise (· < ·) := by
      intro l h1 h2
      rw [List.pairwise_append]
      exact ⟨h1, by simp, by simpa using h2⟩
    refine ⟨?_, ?_⟩
    · intro j p hp
      rcases getElem?_set' hp with ⟨rfl, rfl⟩ | ⟨_, hp⟩
      · exact snoc _ (hs.ready i q h) fun m hm => ready_lt hi h hm
      · exact hs.ready j p hp
    · intro k c p hc hp
      rcases getElem?_set' hp with ⟨hii, rfl⟩ | ⟨_, hp⟩
      · have h' : s.queues[c.inst]? = some q := hii ▸ h
        have := snoc _ (hs.all k c q hc h') (by
          intro m hm
          rw [List.mem_append] at hm
          rcases hm with hm | hm
          · exact lts k c hc m hm
          · exact ready_lt hi h' hm)
        simpa [yieldedBy] using this
      · exact hs.all k c p hc hp
  | unr n b => exact ⟨(ho hreq).1, (ho hreq).2⟩
  | consume conn i q h hp =>
    have hs := ho hreq
    refine ⟨hs.ready, ?_⟩
    intro k c p hc hp
    rcases getElem?_snoc hc with hc | ⟨rfl, rfl⟩
    · exact hs.all k c p hc hp
    · have : yieldedBy s s.consumers.length = [] := by
        refine List.eq_nil_iff_forall_not_mem.2 fun m hm => ?_
        exact (hi.client.fresh _ (Nat.le_refl _) m).2 (yieldedBy_mem.1 hm)
      have h2 := hs.ready _ p hp
      simp only [yieldedBy] at this ⊢
      simpa [this] using h2
  | deliver k c q m rest hc hq hr hcan hpf =>
    have hs := ho hreq
    refine ⟨?_, ?_⟩
    · intro j p hp
      rcases getElem?_set' hp with ⟨rfl, rfl⟩ | ⟨_, hp⟩
      · have := hs.ready _ q hq
        rw [hr] at this
        exact this.tail
      · exact hs.ready j p hp
    · intro j d p hd hp
      rcases getElem?_set' hd with ⟨rfl, rfl⟩ | ⟨hne, hd⟩
      · rcases getElem?_set' hp with ⟨_, rfl⟩ | ⟨hne, hp⟩
        · have := hs.all k c q hc hq
          rw [hr] at this
          simpa [yieldedBy] using this
        · exact absurd rfl hne
      · rcases getElem?_set' hp with ⟨he, rfl⟩ | ⟨_, hp⟩
        · have hq' : s.queues[d.inst]? = some q := he ▸ hq
          refine (hs.all j d q hd hq').sublist (List.Sublist.append (List.Sublist.refl _) ?_)
          rw [hr]; exact List.sublist_cons_self m rest
        · exact hs.all j d p hd hp
  | touch k c ca pa wo hc => exact ⟨(ho hreq).1, upd k c _ (ho hreq) hc rfl (List.Sublist.refl _)⟩
  | yield k c m rest pa wo hc hb hd =>
    have hs := ho hreq
    refine ⟨hs.ready, ?_⟩
    intro j d q hd hq
    rcases getElem?_set' hd with ⟨rfl, rfl⟩ | ⟨hne, hd⟩
    · have := hs.all k c q hc hq
      rw [hb] at this
      simpa [yieldedBy] using this
    · have := hs.all j d q hd hq
      simpa [yieldedBy, hne] using this
  | skip k c m rest pa wo hc hb hd =>
    refine ⟨(ho hreq).1, upd k c _ (ho hreq) hc rfl ?_⟩
    rw [hb]; exact List.sublist_cons_self m rest
  | ack k c m hc hm hcl => exact ⟨(ho hreq).1, upd k c _ (ho hreq) hc rfl (List.Sublist.refl _)⟩
  | nack k c m hc hm hcl => exact ⟨(ho hreq).1, upd k c _ (ho hreq) hc rfl (List.Sublist.refl _)⟩
  | requeue k c m q rest hc hm hcl hq hp => simp at hreq
  | drop k c m rest hc hm hcl => exact ⟨(ho hreq).1, upd k c _ (ho hreq) hc rfl (List.Sublist.refl _)⟩

theorem requeued_mono (hn : Names s) {l : Label N B} (h : step dec prefetch s l = some s') : s'.requeued = [] → s.requeued = [] := by
  have he := eff_of_step hn h
  generalize s'.calls = cs at he
  generalize s'.closed = cl at he
  clear h
  cases he <;> first | exact id | simp

/-- **C66.** As long as the broker has not taken a message back, every consumer yields messages in the order in which they were published (messages are numbered in this order). -/
theorem C66_in_order_partial (h : run dec prefetch init ls = some s) (hreq : s.requeued = []) (k : Nat) : (yieldedBy s k).Pairwise (· < ·) := by
  have hO : Ord s := by
    refine (Lts.run_inv (P := fun s => Inv dec prefetch s ∧ (s.requeued = [] → Ord s)) ⟨⟨names_init, data_init, client_init⟩, fun _ => by constructor <;> simp [init]⟩ ?_ h).2 hreq
    rintro s l s' ⟨hi, ho⟩ hs
    exact ⟨inv_step hi hs, fun hr => ord_step hi hr ho hs⟩
  by_cases hk : k < s.consumers.length
  · have hc := List.getElem?_eq_getElem hk
    have hin := (inv_run h).names.cons _ (List.mem_of_getElem? hc)
    have := hO.all k _ _ hc (List.getElem?_eq_getElem hin)
    rw [List.append_assoc] at this
    exact (List.pairwise_append.1 this).1
  · have : yieldedBy s k = [] := by
      refine List.eq_nil_iff_forall_not_mem.2 fun m hm => ?_
      exact ((inv_run h).client.fresh k (Nat.le_of_not_lt hk) m).2 (yieldedBy_mem.1 hm)
    rw [this]; exact List.Pairwise.nil

/-- Processes 0 and 1 consume channel 7; 41 goes to process 1, 42 to process 0; process 1 loses its connection and process 0 gets 41 after 42. -/
def exOrder : List (Label Nat Nat) :=
  [.begin 0 (.declareQueue 7 ChannelType.exactlyOnce.options), .exec 0, .exec 0, .begin 0 (.declareConsumer 7), .exec 1, .exec 1, .begin 1 (.declareConsumer 7), .exec 2, .exec 2,
   .begin 2 (.publish 7 ChannelType.exactlyOnce.options 41), .exec 3, .exec 3, .begin 2 (.publish 7 ChannelType.exactlyOnce.options 42), .exec 4, .exec 4,
   .deliver 1, .deliver 0, .poll 0, .ack 0 1, .lose 1, .requeue 1, .deliver 0, .poll 0]

/-- **C66** is false when a connection is lost. -/
theorem C66_witness : ∃ s : St Nat Nat, run (V := Nat) some 1 init exOrder = some s ∧ yieldedBy s 0 = [1, 0] := ⟨_, rfl, by decide +kernel⟩

/-! ## C47 -/

/-- **C47**, as far as it holds: any one live consumer of a broadcast channel can yield a message published to it (and then, by `C47_never_two`, no other consumer does). Missing: the others. -/
theorem C47_one_consumer_partial (h : run dec prefetch init ls = some s) {j conn k : Nat} {name : N} {b : B} {c : Consumer}
    (hr : s.calls[j]? = some ⟨conn, .publish name ChannelType.broadcast.options b, (Call.publish name ChannelType.broadcast.options b).methods, none⟩) (ho : conn ∉ s.closed)
    (hc : s.consumers[k]? = some c) (hrt : routes s .broadcast name c.inst) (hcan : s.canDeliver c) (hroom : prefetch = 0 ∨ c.stuck.length < prefetch)
    (hb : dec b ≠ none) (hd : ∀ q, s.queues[c.inst]? = some q → ∀ m, m ∈ c.buffer ∨ m ∈ q.ready → decodable dec s m) :
    ∃ ls' s', run dec prefetch s (.exec j :: ls') = some s' ∧ (∀ l ∈ ls', l.serves k) ∧ (s.msgs.length, k) ∈ s'.yielded :=
  C48_reaches_partial h hr ho hc hrt hcan hroom hb hd

/-! ## C65 -/

/-- Process 0 consumes channel 8 and sends on the broadcast channel 7; process 1 releases channel 7; process 0 publishes on it. -/
def exInterfere : List (Label Nat Nat) :=
  [.begin 0 (.declareQueue 8 ChannelType.exactlyOnce.options), .exec 0, .exec 0, .begin 0 (.declareConsumer 8), .exec 1, .exec 1,
   .begin 0 (.declareQueue 7 ChannelType.broadcast.options), .exec 2, .exec 2, .exec 2, .exec 2, .begin 1 (.deleteQueue 7), .exec 3, .exec 3, .exec 3,
   .begin 0 (.publish 7 ChannelType.broadcast.options 42), .exec 4]

/-- **C65** is false for broadcast channels: the broker closes the AMQP channel of process 0, which can no longer be delivered anything on channel 8. -/
theorem C65_witness : ∃ s : St Nat Nat, run (V := Nat) some 1 init exInterfere = some s ∧ s.closed = [0] ∧ (s.consumers.map fun c => s.canDeliver c) = [false] :=
  ⟨_, rfl, by decide +kernel, by decide +kernel⟩

/-- **C65** for the senders of exactly-once channels: declaring and publishing never closes a connection, whatever others have deleted, as long as only channels use the broker. -/
theorem C65_senders_partial (h : run dec prefetch init ls = some s) (hch : ∀ conn c, Label.begin conn c ∈ ls → c.ofChannel) {j : Nat} {r : Running N B} (hr : s.calls[j]? = some r)
    (hcall : (∃ name b, r.call = .publish name ChannelType.exactlyOnce.options b) ∨ (∃ name, r.call = .declareQueue name ChannelType.exactlyOnce.options) ∨ ∃ name, r.call = .deleteQueue name)
    (hs : step dec prefetch s (.exec j) = some s') : s'.closed = s.closed := by
  have hargs := argsInv_run h hch
  have hrest : ∀ r ∈ s.calls, ∀ m ∈ r.rest, m ∈ r.call.methods := by
    refine Lts.run_inv (P := fun s : St N B => ∀ r ∈ s.calls, ∀ m ∈ r.rest, m ∈ r.call.methods) (by simp [init]) ?_ h
    intro s l s' hi hs r hr m hm
    rcases calls_step hs r hr with ⟨c, conn, rfl, -⟩ | ⟨r0, h0, h1, -, h2⟩
    · exact hm
    · rw [h1]; exact hi r0 h0 m (h2 m hm)
  simp only [step, hr] at hs
  split at hs
  · cases hs
  · split at hs
    · simp only [Option.some.injEq] at hs; subst hs; rfl
    · split at hs
      · simp only [Option.some.injEq] at hs; subst hs; rfl
      · rename_i m rest hm
        have hmem : m ∈ r.call.methods := hrest r (List.mem_of_getElem? hr) m (by simp [hm])
        have hok := hargs.rest r (List.mem_of_getElem? hr) m (by simp [hm])
        have hres : (method s r.conn m).2 = .ok := by
          have hp := (method_args hargs r.conn m hok).2.2
          rcases hcall with ⟨name, b, hc⟩ | ⟨name, hc⟩ | ⟨name, hc⟩ <;> rw [hc] at hmem <;>
            simp [Call.methods, publish, declareQueue, declareSingle, deleteQueue, deleteBroadcast, ChannelType.options, QueueOptions.args] at hmem
          · subst hmem; simp only [method]; split <;> rfl
          · subst hmem; simp only [method] at hp ⊢
            split
            · rename_i i hf
              simp only [hf] at hp
              split at hp
              · rename_i hh; simp [hh]
              · simp at hp
            · rfl
          · rcases hmem with rfl | rfl
            · simp only [method]; (repeat' split) <;> rfl
            · rfl
        rw [if_pos hres] at hs
        simp only [Option.some.injEq] at hs; subst hs; exact (method_calls _ _).2

end Amqp
end Paladin
