import Verif.Spec.Restart
import Verif.Proofs.AmqpServe
import Verif.Props.AmqpLasts
/-! # Invariants of a broker that restarts -/
namespace Paladin
namespace Restart
open Amqp (Label Consumer Queue Method Call Running)

theorem returned_cons (c : Consumer) (cs : List Consumer) (i : Nat) : returned (c :: cs) i = (if c.inst = i then c.unacked else []) ++ returned cs i := by
  unfold returned
  by_cases h : c.inst = i <;> simp [h]

theorem mem_returned {cs : List Consumer} {i m : Nat} : m ∈ returned cs i ↔ ∃ c ∈ cs, c.inst = i ∧ m ∈ c.unacked := by
  simp [returned, and_assoc]

/-- Counting over all queues: every consumer is of one of them. -/
theorem sum_returned (m : Nat) : ∀ (n : Nat) (cs : List Consumer), (∀ c ∈ cs, c.inst < n) →
    ((List.range n).map fun i => (returned cs i).count m).sum = (cs.flatMap (·.unacked)).count m := by
  intro n cs
  induction cs with
  | nil =>
    intro _
    have : (fun i => (returned [] i).count m) = fun _ => 0 := by funext i; simp [returned]
    rw [this, List.map_const', List.sum_replicate_nat]
    simp
  | cons c cs ih =>
    intro h
    have ih := ih fun x hx => h x (by simp [hx])
    have hc : c.inst < n := h c (by simp)
    simp only [List.flatMap_cons, List.count_append, ← ih]
    have e : ∀ (k : Nat), ((List.range k).map fun i => (returned (c :: cs) i).count m).sum =
        (if c.inst < k then c.unacked.count m else 0) + ((List.range k).map fun i => (returned cs i).count m).sum := by
      intro k
      induction k with
      | zero => simp
      | succ k ihk =>
        simp only [List.range_succ, List.map_append, List.sum_append, ihk, List.map_cons, List.map_nil, List.sum_cons, List.sum_nil]
        rw [returned_cons, List.count_append]
        by_cases h1 : c.inst = k
        · subst h1; rw [if_neg (Nat.lt_irrefl _), if_pos rfl, if_pos (Nat.lt_succ_self _)]; omega
        · by_cases h2 : c.inst < k
          · have : c.inst < k + 1 := by omega
            rw [if_pos h2, if_neg h1, if_pos this]; simp only [List.count_nil]; omega
          · have : ¬ c.inst < k + 1 := by omega
            rw [if_neg h2, if_neg h1, if_neg this]; simp only [List.count_nil]; omega
    rw [e n, if_pos hc]

theorem count_flatten_mapIdx {α : Type} (f : Nat → α → List Nat) (m : Nat) : ∀ (l : List α), ((l.mapIdx f).flatten).count m = ((l.mapIdx fun i a => (f i a).count m)).sum := by
  intro l
  rw [List.count_flatten]
  congr 1
  apply List.ext_getElem?
  intro i
  simp [Function.comp_def]

theorem sum_mapIdx_add {α : Type} : ∀ (l : List α) (f g : Nat → α → Nat), (l.mapIdx fun i a => f i a + g i a).sum = (l.mapIdx f).sum + (l.mapIdx g).sum := by
  intro l
  induction l with
  | nil => simp
  | cons a l ih => intro f g; simp only [List.mapIdx_cons, List.sum_cons, ih]; omega

theorem sum_mapIdx_fst {α : Type} : ∀ (l : List α) (f : Nat → Nat), (l.mapIdx fun i _ => f i).sum = ((List.range l.length).map f).sum := by
  intro l f
  congr 1
  apply List.ext_getElem?
  intro i
  by_cases h : i < l.length <;> simp [h]

theorem sum_mapIdx_snd {α : Type} (f : α → List Nat) (m : Nat) : ∀ (l : List α), (l.mapIdx fun _ a => (f a).count m).sum = (l.flatMap f).count m := by
  intro l
  induction l with
  | nil => simp
  | cons a l ih => simp only [List.mapIdx_cons, List.sum_cons, List.flatMap_cons, List.count_append, ih]

theorem kept_gone (s : St N B) (i : Nat) (q : Queue N) (m : Nat) : (kept s i q).count m + (gone s i q).count m = (returned s.base.consumers i).count m + q.ready.count m := by
  unfold kept gone
  split
  · rw [← List.count_append]
    have := (List.filter_append_perm s.onDisk (returned s.base.consumers i ++ q.ready)).count_eq m
    simp only [List.count_append] at this ⊢
    exact this
  · simp

theorem kept_back (s : St N B) (i : Nat) (q : Queue N) (m : Nat) : (kept s i q).count m ≤ (back s i q).count m + q.ready.count m := by
  unfold kept back
  split
  · rw [List.filter_append, List.count_append]
    have := List.Sublist.count_le m (List.filter_sublist (p := s.onDisk) (l := q.ready))
    omega
  · simp

variable {N B V : Type} [DecidableEq N] {dec : B → Option V} {prefetch : Nat} {s s' : St N B}

theorem restart_queue {conns : List Nat} {i : Nat} {q : Queue N} (h : (restart s conns).base.queues[i]? = some q) :
    ∃ p, s.base.queues[i]? = some p ∧ q = { p with present := keeps p, ready := kept s i p } := by
  simp only [restart, List.getElem?_mapIdx, Option.map_eq_some_iff] at h
  obtain ⟨p, hp, rfl⟩ := h
  exact ⟨p, hp, rfl⟩

theorem queue_restart {conns : List Nat} {i : Nat} {p : Queue N} (h : s.base.queues[i]? = some p) :
    (restart s conns).base.queues[i]? = some { p with present := keeps p, ready := kept s i p } := by
  simp only [restart, List.getElem?_mapIdx, h, Option.map]

theorem restart_closed {conns : List Nat} {c : Consumer} (h : c ∈ s.base.consumers) : c.conn ∈ (restart s conns).base.closed := by
  simp only [restart, List.mem_append, List.mem_map]
  exact .inl (.inr ⟨c, h, rfl⟩)

theorem names_restart (h : Amqp.Names s.base) (conns : List Nat) : Amqp.Names (restart s conns).base where
  uniq i j p q hp hq pp pq e := by
    obtain ⟨p0, h1, rfl⟩ := restart_queue hp
    obtain ⟨q0, h2, rfl⟩ := restart_queue hq
    simp only [keeps, Bool.and_eq_true] at pp pq
    exact h.uniq i j p0 q0 h1 h2 pp.1 pq.1 e
  bind x i hb := by
    simp only [restart, List.mem_filter, Bool.and_eq_true] at hb
    obtain ⟨h1, h2, -⟩ := hb
    obtain ⟨q, hq, hp, hn⟩ := h.bind x i h1
    simp only [hq] at h2
    exact ⟨_, queue_restart hq, h2, hn⟩
  cons c hc := by
    simp only [restart, List.mem_map] at hc ⊢
    obtain ⟨c0, h1, rfl⟩ := hc
    simp only [List.length_mapIdx]
    exact h.cons c0 h1
  rest := h.rest

theorem flatMap_ready_restart (conns : List Nat) (m : Nat) : ((restart s conns).base.queues.flatMap Queue.ready).count m = (s.base.queues.mapIdx fun i q => (kept s i q).count m).sum := by
  rw [← sum_mapIdx_snd]
  congr 1
  apply List.ext_getElem?
  intro i
  simp [restart, Function.comp_def]

theorem data_restart (hn : Amqp.Names s.base) (h : Amqp.Data s.base) (conns : List Nat) : Amqp.Data (restart s conns).base where
  count m := by
    have h1 := h.count m
    have h2 := flatMap_ready_restart (s := s) conns m
    have h3 : ((restart s conns).base.consumers.flatMap Consumer.unacked).count m = 0 := by
      simp [restart, List.count_eq_zero]
    have h4 : (restart s conns).base.lost.count m = s.base.lost.count m + (s.base.queues.mapIdx fun i q => (gone s i q).count m).sum := by
      simp only [restart, List.count_append, count_flatten_mapIdx]
    have h5 : (s.base.queues.mapIdx fun i q => (kept s i q).count m).sum + (s.base.queues.mapIdx fun i q => (gone s i q).count m).sum =
        (s.base.consumers.flatMap Consumer.unacked).count m + (s.base.queues.flatMap Queue.ready).count m := by
      rw [← sum_mapIdx_add]
      simp only [kept_gone]
      rw [sum_mapIdx_add, sum_mapIdx_fst, sum_returned m _ _ hn.cons, sum_mapIdx_snd]
    have h6 : (restart s conns).base.acked = s.base.acked := rfl
    have h7 : (restart s conns).base.nacked = s.base.nacked := rfl
    have h8 : (restart s conns).base.unroutable = s.base.unroutable := rfl
    have h9 : (restart s conns).base.msgs = s.base.msgs := rfl
    rw [h2, h3, h4, h6, h7, h8, h9]
    omega
  once m := by
    have h1 := h.once m
    have h2 := flatMap_ready_restart (s := s) conns m
    have h3 : (restart s conns).base.requeued.count m = s.base.requeued.count m + (s.base.queues.mapIdx fun i q => (back s i q).count m).sum := by
      simp only [restart, List.count_append, count_flatten_mapIdx]
    have h5 : (s.base.queues.mapIdx fun i q => (kept s i q).count m).sum ≤ (s.base.queues.mapIdx fun i q => (back s i q).count m).sum + (s.base.queues.flatMap Queue.ready).count m := by
      rw [← sum_mapIdx_snd Queue.ready, ← sum_mapIdx_add]
      generalize s.base.queues = l
      have : ∀ (l : List (Queue N)) (f g : Nat → Queue N → Nat), (∀ i q, f i q ≤ g i q) → (l.mapIdx f).sum ≤ (l.mapIdx g).sum := by
        intro l
        induction l with
        | nil => simp
        | cons a l ih =>
          intro f g hfg
          simp only [List.mapIdx_cons, List.sum_cons]
          exact Nat.add_le_add (hfg 0 a) (ih _ _ fun i q => hfg (i + 1) q)
      exact this l _ _ fun i q => kept_back s i q m
    have h6 : (restart s conns).base.dlv = s.base.dlv := rfl
    have h9 : (restart s conns).base.msgs = s.base.msgs := rfl
    rw [h2, h3, h6, h9]
    omega

theorem consumer_restart {conns : List Nat} {k : Nat} {c : Consumer} (h : (restart s conns).base.consumers[k]? = some c) :
    ∃ c0, s.base.consumers[k]? = some c0 ∧ c = { c0 with unacked := [] } := by
  simp only [restart, List.getElem?_map, Option.map_eq_some_iff] at h
  obtain ⟨c0, h1, rfl⟩ := h
  exact ⟨c0, h1, rfl⟩

theorem client_restart (h : Amqp.Client dec prefetch s.base) (conns : List Nat) : Amqp.Client dec prefetch (restart s conns).base where
  agree k c hc ho := by
    obtain ⟨c0, h1, rfl⟩ := consumer_restart hc
    exact absurd (restart_closed (List.mem_of_getElem? h1)) ho
  limit _ c hc := by
    simp only [restart, List.mem_map] at hc
    obtain ⟨c0, -, rfl⟩ := hc
    simp
  bad c hc m hm g hg := by
    simp only [restart, List.mem_map] at hc
    obtain ⟨c0, h0, rfl⟩ := hc
    exact h.bad c0 h0 m hm g hg
  good := h.good
  log k c hc m := by
    obtain ⟨c0, h1, rfl⟩ := consumer_restart hc
    exact h.log k c0 h1 m
  fresh k hk m := h.fresh k (by simpa [restart] using hk) m
  known := h.known

theorem inv_restart (h : Amqp.Inv dec prefetch s.base) (conns : List Nat) : Amqp.Inv dec prefetch (restart s conns).base :=
  ⟨names_restart h.names conns, data_restart h.names h.data conns, client_restart h.client conns⟩

theorem addressed_restart {conns : List Nat} {m i : Nat} (h : Amqp.addressed s.base m i) : Amqp.addressed (restart s conns).base m i := by
  obtain ⟨g, q, h1, h2, h3⟩ := h
  exact ⟨g, _, h1, queue_restart h2, h3⟩

theorem routed_restart (h : Amqp.Routed s.base) (conns : List Nat) : Amqp.Routed (restart s conns).base where
  ready i q hq m hm := by
    obtain ⟨p, hp, rfl⟩ := restart_queue hq
    refine addressed_restart ?_
    simp only [kept] at hm
    split at hm
    · simp only [List.mem_filter, List.mem_append] at hm
      rcases hm.1 with h1 | h1
      · obtain ⟨c, hc, rfl, h2⟩ := mem_returned.1 h1
        exact h.unacked c hc m h2
      · exact h.ready i p hp m h1
    · simp at hm
  unacked c hc m hm := by
    simp only [restart, List.mem_map] at hc
    obtain ⟨c0, -, rfl⟩ := hc
    simp at hm
  dlv m k hm := by
    obtain ⟨c, hc, ha⟩ := h.dlv m k hm
    exact ⟨{ c with unacked := [] }, by simp [restart, hc], addressed_restart ha⟩

/-! ## Where options come from -/

/-- What the calls, queues and messages of an execution were asked for. -/
structure Origin (ls : List (RLabel N B)) (s : St N B) : Prop where
  calls : ∀ r ∈ s.base.calls, .base (.begin r.conn r.call) ∈ ls ∧ ∀ m ∈ r.rest, m ∈ r.call.methods
  queues : ∀ (i : Nat) (q : Queue N), s.base.queues[i]? = some q → ∃ conn o, .base (.begin conn (.declareQueue q.name o)) ∈ ls ∧ q.args = o.args
  exchanges : ∀ e ∈ s.base.exchanges, ∃ conn o, .base (.begin conn (.declareQueue e.1 o)) ∈ ls ∧ e.2 = o.args
  modes : s.modes.length = s.base.msgs.length
  msgs : ∀ (m : Nat) (g : Amqp.Msg N B), s.base.msgs[m]? = some g → ∃ conn o, .base (.begin conn (.publish g.name o g.bytes)) ∈ ls ∧ s.modes[m]? = some o.deliveryMode

theorem declare_of_mem {c : Call N B} {q : N} {a : Amqp.Args} (h : Method.queueDeclare q a ∈ c.methods) : ∃ o, c = .declareQueue q o ∧ a = o.args := by
  cases c with
  | declareQueue name o =>
    cases ho : o.mode <;> simp [Call.methods, Amqp.declareQueue, ho, Amqp.declareSingle, Amqp.declareBroadcast] at h <;> exact ⟨o, by rw [h.1], h.2⟩
  | deleteQueue name => simp [Call.methods, Amqp.deleteQueue, Amqp.deleteBroadcast] at h
  | publish name o b => cases ho : o.mode <;> simp [Call.methods, Amqp.publish, ho] at h
  | declareConsumer name => simp [Call.methods] at h

theorem exchange_of_mem {c : Call N B} {q : N} {a : Amqp.Args} (h : Method.exchangeDeclare q a ∈ c.methods) : ∃ o, c = .declareQueue q o ∧ a = o.args := by
  cases c with
  | declareQueue name o =>
    cases ho : o.mode <;> simp [Call.methods, Amqp.declareQueue, ho, Amqp.declareSingle, Amqp.declareBroadcast] at h; exact ⟨o, by rw [h.1], h.2⟩
  | deleteQueue name => simp [Call.methods, Amqp.deleteQueue, Amqp.deleteBroadcast] at h
  | publish name o b => cases ho : o.mode <;> simp [Call.methods, Amqp.publish, ho] at h
  | declareConsumer name => simp [Call.methods] at h

theorem delete_of_mem {c : Call N B} {q : N} (h : Method.queueDelete q ∈ c.methods ∨ Method.exchangeDelete q ∈ c.methods) : c = .deleteQueue q := by
  cases c with
  | declareQueue name o => cases ho : o.mode <;> simp [Call.methods, Amqp.declareQueue, ho, Amqp.declareSingle, Amqp.declareBroadcast] at h
  | deleteQueue name => simp [Call.methods, Amqp.deleteQueue, Amqp.deleteBroadcast] at h; rw [h]
  | publish name o b => cases ho : o.mode <;> simp [Call.methods, Amqp.publish, ho] at h
  | declareConsumer name => simp [Call.methods] at h

theorem publish_of_mem {c : Call N B} {d : Amqp.Dest N} {b : B} {mode : Option Nat} (h : Method.publish d b mode ∈ c.methods) : ∃ o, c = .publish d.name o b ∧ mode = o.deliveryMode := by
  cases c with
  | declareQueue name o => cases ho : o.mode <;> simp [Call.methods, Amqp.declareQueue, ho, Amqp.declareSingle, Amqp.declareBroadcast] at h
  | deleteQueue name => simp [Call.methods, Amqp.deleteQueue, Amqp.deleteBroadcast] at h
  | publish name o b' => cases ho : o.mode <;> simp [Call.methods, Amqp.publish, ho] at h <;> obtain ⟨rfl, rfl, rfl⟩ := h <;> exact ⟨o, rfl, rfl⟩
  | declareConsumer name => simp [Call.methods] at h

/-- What one method does to queues and messages. -/
theorem method_new (x : Amqp.St N B) (conn : Nat) (m : Method N B) :
    (∀ (i : Nat) (q : Queue N), (Amqp.method x conn m).1.queues[i]? = some q → (∃ p, x.queues[i]? = some p ∧ q.name = p.name ∧ q.args = p.args) ∨ (q.present = true ∧ m = .queueDeclare q.name q.args)) ∧
    ((Amqp.method x conn m).1.msgs = x.msgs ∨ ∃ d b mode, m = .publish d b mode ∧ (Amqp.method x conn m).1.msgs = x.msgs ++ [⟨d.name, b⟩]) := by
  have same : ∀ (i : Nat) (q : Queue N), x.queues[i]? = some q → (∃ p, x.queues[i]? = some p ∧ q.name = p.name ∧ q.args = p.args) ∨ (q.present = true ∧ m = .queueDeclare q.name q.args) := fun i q h => .inl ⟨q, h, rfl, rfl⟩
  cases m with
  | exchangeDeclare y a => simp only [Amqp.method]; split <;> exact ⟨same, .inl rfl⟩
  | queueDeclare y a =>
    simp only [Amqp.method]
    split
    · exact ⟨same, .inl rfl⟩
    · refine ⟨fun i q h => ?_, .inl rfl⟩
      rcases Amqp.getElem?_snoc h with h | ⟨-, rfl⟩
      · exact .inl ⟨q, h, rfl, rfl⟩
      · exact .inr ⟨rfl, rfl⟩
  | queueBind y z => simp only [Amqp.method]; split <;> exact ⟨same, .inl rfl⟩
  | queueDelete y =>
    simp only [Amqp.method]
    split
    · split
      · rename_i i c hc
        refine ⟨fun j q h => ?_, .inl rfl⟩
        simp only [Amqp.remove] at h
        rcases Amqp.getElem?_set' h with ⟨rfl, rfl⟩ | ⟨-, h⟩
        · exact .inl ⟨c, hc, rfl, rfl⟩
        · exact .inl ⟨q, h, rfl, rfl⟩
      · exact ⟨same, .inl rfl⟩
    · exact ⟨same, .inl rfl⟩
  | exchangeDelete y => exact ⟨same, .inl rfl⟩
  | publish d b mode =>
    cases d with
    | queue name =>
      simp only [Amqp.method]
      split
      · refine ⟨fun j q h => ?_, .inr ⟨_, _, _, rfl, rfl⟩⟩
        rw [List.getElem?_modify] at h
        obtain ⟨p, hp, hq⟩ := Option.map_eq_some_iff.1 h
        refine .inl ⟨p, hp, ?_⟩
        split at hq <;> subst hq <;> simp
      · exact ⟨same, .inr ⟨_, _, _, rfl, rfl⟩⟩
    | fanout y =>
      simp only [Amqp.method]
      split
      · split
        · refine ⟨fun j q h => ?_, .inr ⟨_, _, _, rfl, rfl⟩⟩
          simp only [List.getElem?_mapIdx, Option.map_eq_some_iff] at h
          obtain ⟨p, hp, hq⟩ := h
          refine .inl ⟨p, hp, ?_⟩
          split at hq <;> subst hq <;> simp
        · exact ⟨same, .inr ⟨_, _, _, rfl, rfl⟩⟩
      · exact ⟨same, .inr ⟨_, _, _, rfl, rfl⟩⟩
  | consume y => simp only [Amqp.method]; split <;> exact ⟨same, .inl rfl⟩

/-- … and what one step does to them. -/
theorem step_new {x x' : Amqp.St N B} {l : Label N B} (h : Amqp.step dec prefetch x l = some x') :
    (∀ (i : Nat) (q : Queue N), x'.queues[i]? = some q → (∃ p, x.queues[i]? = some p ∧ q.name = p.name ∧ q.args = p.args) ∨
      q.present = true ∧ ∃ r ∈ x.calls, Method.queueDeclare q.name q.args ∈ r.rest) ∧
    (x'.msgs = x.msgs ∨ ∃ r ∈ x.calls, ∃ d b, Method.publish d b (modeOf x l) ∈ r.rest ∧ x'.msgs = x.msgs ++ [⟨d.name, b⟩]) := by
  have same : ∀ (i : Nat) (q : Queue N), x.queues[i]? = some q → (∃ p, x.queues[i]? = some p ∧ q.name = p.name ∧ q.args = p.args) ∨ q.present = true ∧ ∃ r ∈ x.calls, Method.queueDeclare q.name q.args ∈ r.rest :=
    fun i q h => .inl ⟨q, h, rfl, rfl⟩
  have set : ∀ (k : Nat) (p p' : Queue N), x.queues[k]? = some p → p'.name = p.name → p'.args = p.args → ∀ (i : Nat) (q : Queue N), (x.queues.set k p')[i]? = some q →
      (∃ p, x.queues[i]? = some p ∧ q.name = p.name ∧ q.args = p.args) ∨ q.present = true ∧ ∃ r ∈ x.calls, Method.queueDeclare q.name q.args ∈ r.rest := by
    intro k p p' hk h1 h2 i q hq
    rcases Amqp.getElem?_set' hq with ⟨rfl, rfl⟩ | ⟨-, hq⟩
    · exact .inl ⟨p, hk, h1, h2⟩
    · exact same i q hq
  cases l with
  | «begin» conn c => simp only [Amqp.step, Option.some.injEq] at h; subst h; exact ⟨same, .inl rfl⟩
  | exec k =>
    simp only [Amqp.step] at h
    split at h
    · cases h
    · rename_i r hr
      have hmem := List.mem_of_getElem? hr
      split at h
      · cases h
      · split at h
        · cases h; exact ⟨same, .inl rfl⟩
        · split at h
          · cases h; exact ⟨same, .inl rfl⟩
          · rename_i m rest hrest
            have hm := method_new x r.conn m
            have hmo : ∀ d b mode, m = .publish d b mode → modeOf x (.exec k) = mode := by
              rintro d b mode rfl
              simp only [modeOf, hr, hrest]
            have key : (∀ (i : Nat) (q : Queue N), (Amqp.method x r.conn m).1.queues[i]? = some q → (∃ p, x.queues[i]? = some p ∧ q.name = p.name ∧ q.args = p.args) ∨
                  q.present = true ∧ ∃ r ∈ x.calls, Method.queueDeclare q.name q.args ∈ r.rest) ∧
                ((Amqp.method x r.conn m).1.msgs = x.msgs ∨ ∃ r' ∈ x.calls, ∃ d b, Method.publish d b (modeOf x (.exec k)) ∈ r'.rest ∧ (Amqp.method x r.conn m).1.msgs = x.msgs ++ [⟨d.name, b⟩]) := by
              refine ⟨fun i q hq => ?_, ?_⟩
              · rcases hm.1 i q hq with h | h
                · exact .inl h
                · exact .inr ⟨h.1, r, hmem, by rw [hrest, h.2]; simp⟩
              · rcases hm.2 with h | ⟨d, b, mode, h1, h2⟩
                · exact .inl h
                · exact .inr ⟨r, hmem, d, b, by rw [hmo d b mode h1, hrest, h1]; simp, h2⟩
            split at h <;> cases h <;> exact key
  | deliver k =>
    simp only [Amqp.step] at h
    split at h <;> try cases h
    split at h <;> try cases h
    split at h <;> try cases h
    split at h <;> try cases h
    rename_i q hq _ m rest hr
    exact ⟨set _ q _ hq rfl rfl, .inl rfl⟩
  | poll k =>
    simp only [Amqp.step] at h
    split at h <;> try cases h
    split at h
    · cases h; exact ⟨same, .inl rfl⟩
    · split at h <;> cases h <;> exact ⟨same, .inl rfl⟩
  | ack k m =>
    simp only [Amqp.step] at h
    split at h <;> try cases h
    split at h <;> cases h
    exact ⟨same, .inl rfl⟩
  | nack k m =>
    simp only [Amqp.step] at h
    split at h <;> try cases h
    split at h <;> cases h
    exact ⟨same, .inl rfl⟩
  | cancel k =>
    simp only [Amqp.step] at h
    split at h <;> cases h
    exact ⟨same, .inl rfl⟩
  | lose conn => simp only [Amqp.step, Option.some.injEq] at h; subst h; exact ⟨same, .inl rfl⟩
  | requeue k =>
    simp only [Amqp.step] at h
    split at h <;> try cases h
    split at h <;> try cases h
    split at h <;> try cases h
    split at h <;> try cases h
    rename_i q hq
    split at h <;> cases h
    · exact ⟨set _ q _ hq rfl rfl, .inl rfl⟩
    · exact ⟨same, .inl rfl⟩
  | expire i =>
    simp only [Amqp.step] at h
    split at h <;> try cases h
    rename_i q hq
    split at h <;> cases h
    exact ⟨set _ q _ hq rfl rfl, .inl rfl⟩

/-- New exchanges are those that a call declares. -/
theorem step_exchanges {x x' : Amqp.St N B} {l : Label N B} (h : Amqp.step dec prefetch x l = some x') :
    ∀ e ∈ x'.exchanges, e ∈ x.exchanges ∨ ∃ r ∈ x.calls, Method.exchangeDeclare e.1 e.2 ∈ r.rest := by
  have hm : ∀ conn (m : Method N B), ∀ e ∈ (Amqp.method x conn m).1.exchanges, e ∈ x.exchanges ∨ m = .exchangeDeclare e.1 e.2 := by
    intro conn m e he
    cases m with
    | exchangeDeclare y a =>
      simp only [Amqp.method] at he
      split at he
      · exact .inl he
      · simp only [List.mem_append, List.mem_singleton] at he
        rcases he with he | rfl
        · exact .inl he
        · exact .inr rfl
    | exchangeDelete y => simp only [Amqp.method, List.mem_filter] at he; exact .inl he.1
    | publish d b mode => cases d <;> simp only [Amqp.method] at he <;> (repeat' split at he) <;> exact .inl he
    | _ => simp only [Amqp.method, Amqp.remove] at he; (repeat' split at he) <;> exact .inl he
  cases l with
  | exec k =>
    simp only [Amqp.step] at h
    split at h
    · cases h
    · rename_i r hr
      split at h
      · cases h
      · split at h
        · cases h; exact fun e he => .inl he
        · split at h
          · cases h; exact fun e he => .inl he
          · rename_i m rest hrest
            have key : ∀ e ∈ (Amqp.method x r.conn m).1.exchanges, e ∈ x.exchanges ∨ ∃ r ∈ x.calls, Method.exchangeDeclare e.1 e.2 ∈ r.rest := by
              intro e he
              rcases hm r.conn m e he with h | h
              · exact .inl h
              · exact .inr ⟨r, List.mem_of_getElem? hr, by rw [hrest, h]; simp⟩
            split at h <;> cases h <;> exact key
  | _ =>
    simp only [Amqp.step, Amqp.remove] at h
    (repeat' split at h) <;> simp only [Option.some.injEq, reduceCtorEq] at h <;> subst h <;> exact fun e he => .inl he

/-- How messages get lost: the queue is removed, or it was before a delivery returned. -/
theorem step_lost {x x' : Amqp.St N B} {l : Label N B} (h : Amqp.step dec prefetch x l = some x') {m : Nat} (hm : m ∈ x'.lost) :
    m ∈ x.lost ∨ (∃ (i : Nat) (q q' : Queue N), x.queues[i]? = some q ∧ q.present = true ∧ m ∈ q.ready ∧ x'.queues[i]? = some q' ∧ q'.present = false) ∨
      ∃ c ∈ x.consumers, m ∈ c.unacked ∧ ∃ q, x.queues[c.inst]? = some q ∧ q.present = false := by
  have rem : ∀ (i : Nat) (q : Queue N), x.queues[i]? = some q → q.present = true → m ∈ x.lost ++ q.ready → m ∈ x.lost ∨
      ∃ (j : Nat) (p p' : Queue N), x.queues[j]? = some p ∧ p.present = true ∧ m ∈ p.ready ∧ (x.queues.set i { q with present := false, ready := [] })[j]? = some p' ∧ p'.present = false := by
    intro i q hq hp h
    rcases List.mem_append.1 h with h | h
    · exact .inl h
    · exact .inr ⟨i, q, _, hq, hp, h, List.getElem?_set_self (List.getElem?_eq_some_iff.1 hq).1, rfl⟩
  cases l with
  | exec k =>
    simp only [Amqp.step] at h
    split at h
    · cases h
    · rename_i r hr
      split at h
      · cases h
      · split at h
        · cases h; exact .inl hm
        · split at h
          · cases h; exact .inl hm
          · rename_i w rest hrest
            have key : m ∈ (Amqp.method x r.conn w).1.lost → m ∈ x.lost ∨
                ∃ (j : Nat) (p p' : Queue N), x.queues[j]? = some p ∧ p.present = true ∧ m ∈ p.ready ∧ (Amqp.method x r.conn w).1.queues[j]? = some p' ∧ p'.present = false := by
              intro hm
              cases w with
              | queueDelete y =>
                simp only [Amqp.method] at hm ⊢
                split at hm
                · rename_i i hf
                  split at hm
                  · rename_i c hc
                    simp only [hc]
                    obtain ⟨q, hq, hp, -⟩ := Amqp.find_some hf
                    rw [hc] at hq; cases hq
                    exact rem i c hc hp hm
                  · exact .inl hm
                · exact .inl hm
              | publish d b mode => cases d <;> simp only [Amqp.method] at hm <;> (repeat' split at hm) <;> exact .inl hm
              | _ => simp only [Amqp.method] at hm; (repeat' split at hm) <;> exact .inl hm
            split at h <;> cases h <;> rcases key hm with h | h
            · exact .inl h
            · exact .inr (.inl h)
            · exact .inl h
            · exact .inr (.inl h)
  | requeue k =>
    simp only [Amqp.step] at h
    split at h <;> try cases h
    rename_i c hc
    split at h <;> try cases h
    rename_i w hw
    split at h <;> try cases h
    split at h <;> try cases h
    rename_i q hq
    split at h <;> cases h
    · exact .inl hm
    · rename_i hp
      simp only [List.mem_append, List.mem_singleton] at hm
      rcases hm with hm | rfl
      · exact .inl hm
      · exact .inr (.inr ⟨c, List.mem_of_getElem? hc, List.mem_of_getLast? hw, q, hq, by simpa using hp⟩)
  | expire i =>
    simp only [Amqp.step] at h
    split at h <;> try cases h
    rename_i q hq
    split at h <;> cases h
    rename_i hp
    simp only [Bool.and_eq_true] at hp
    rcases rem i q hq hp.1.1 hm with h | h
    · exact .inl h
    · exact .inr (.inl h)
  | _ =>
    simp only [Amqp.step] at h
    (repeat' split at h) <;> simp only [Option.some.injEq, reduceCtorEq] at h <;> subst h <;> exact .inl hm

theorem origin_step {ls : List (RLabel N B)} {l : RLabel N B} (ho : Origin ls s) (h : step dec prefetch s l = some s') : Origin (ls ++ [l]) s' := by
  cases l with
  | restart conns =>
    simp only [step, Option.some.injEq] at h
    subst h
    refine ⟨fun r hr => ⟨List.mem_append_left _ (ho.calls r hr).1, (ho.calls r hr).2⟩, fun i q hq => ?_, fun e he => ?_, ho.modes, fun m g hg => ?_⟩
    · obtain ⟨p, hp, rfl⟩ := restart_queue hq
      obtain ⟨conn, o, h1, h2⟩ := ho.queues i p hp
      exact ⟨conn, o, List.mem_append_left _ h1, h2⟩
    · simp only [restart, List.mem_filter] at he
      obtain ⟨conn, o, h1, h2⟩ := ho.exchanges e he.1
      exact ⟨conn, o, List.mem_append_left _ h1, h2⟩
    · obtain ⟨conn, o, h1, h2⟩ := ho.msgs m g hg
      exact ⟨conn, o, List.mem_append_left _ h1, h2⟩
  | base l =>
    simp only [step, Option.map_eq_some_iff] at h
    obtain ⟨b, hb, rfl⟩ := h
    obtain ⟨hq, hm⟩ := step_new hb
    refine ⟨fun r hr => ?_, fun i q hi => ?_, fun e he => ?_, ?_, ?_⟩
    · rcases Amqp.calls_step hb r hr with ⟨c, conn, rfl, rfl⟩ | ⟨r0, h0, h1, h2, h3⟩
      · exact ⟨by simp, fun m hm => hm⟩
      · obtain ⟨h4, h5⟩ := ho.calls r0 h0
        refine ⟨List.mem_append_left _ (by rw [h1, h2]; exact h4), fun m hm => ?_⟩
        rw [h1]
        exact h5 m (h3 m hm)
    · rcases hq i q hi with ⟨p, hp, h1, h2⟩ | ⟨-, r, hr, h1⟩
      · obtain ⟨conn, o, h3, h4⟩ := ho.queues i p hp
        exact ⟨conn, o, List.mem_append_left _ (by rw [h1]; exact h3), by rw [h2]; exact h4⟩
      · obtain ⟨h2, h3⟩ := ho.calls r hr
        obtain ⟨o, h4, h5⟩ := declare_of_mem (h3 _ h1)
        exact ⟨r.conn, o, List.mem_append_left _ (by rw [← h4]; exact h2), h5⟩
    · rcases step_exchanges hb e he with h1 | ⟨r, hr, h1⟩
      · obtain ⟨conn, o, h3, h4⟩ := ho.exchanges e h1
        exact ⟨conn, o, List.mem_append_left _ h3, h4⟩
      · obtain ⟨h2, h3⟩ := ho.calls r hr
        obtain ⟨o, h4, h5⟩ := exchange_of_mem (h3 _ h1)
        exact ⟨r.conn, o, List.mem_append_left _ (by rw [← h4]; exact h2), h5⟩
    · rcases hm with hm | ⟨r, hr, d, x, h1, hm⟩
      · simp only [hm, Nat.lt_irrefl, if_false]; exact ho.modes
      · simp [hm, ho.modes]
    · intro m g hg
      rcases hm with hm | ⟨r, hr, d, x, h1, hm⟩
      · simp only [hm, Nat.lt_irrefl, if_false] at hg ⊢
        obtain ⟨conn, o, h1, h2⟩ := ho.msgs m g hg
        exact ⟨conn, o, List.mem_append_left _ h1, h2⟩
      · simp only [hm, List.length_append, List.length_singleton, Nat.lt_succ_self, if_true] at hg ⊢
        rcases Amqp.getElem?_snoc hg with hg | ⟨rfl, rfl⟩
        · obtain ⟨conn, o, h2, h3⟩ := ho.msgs m g hg
          have hlt : m < s.modes.length := by rw [ho.modes]; exact (List.getElem?_eq_some_iff.1 hg).1
          exact ⟨conn, o, List.mem_append_left _ h2, by rw [List.getElem?_append_left hlt]; exact h3⟩
        · obtain ⟨h2, h3⟩ := ho.calls r hr
          obtain ⟨o, h4, h5⟩ := publish_of_mem (h3 _ h1)
          refine ⟨r.conn, o, List.mem_append_left _ (by rw [← h4]; exact h2), ?_⟩
          rw [← ho.modes, ← h5]
          simp

/-! ## All executions -/

/-- What holds in all executions. -/
structure Good (dec : B → Option V) (prefetch : Nat) (ls : List (RLabel N B)) (s : St N B) : Prop where
  inv : Amqp.Inv dec prefetch s.base
  routed : Amqp.Routed s.base
  origin : Origin ls s

theorem good_init : Good dec prefetch [] (init : St N B) where
  inv := ⟨Amqp.names_init, Amqp.data_init, Amqp.client_init⟩
  routed := by constructor <;> simp [init, Amqp.init]
  origin := by constructor <;> simp [init, Amqp.init]

theorem good_step {ls : List (RLabel N B)} {l : RLabel N B} (hg : Good dec prefetch ls s) (h : step dec prefetch s l = some s') : Good dec prefetch (ls ++ [l]) s' := by
  have ho := origin_step hg.origin h
  cases l with
  | restart conns =>
    simp only [step, Option.some.injEq] at h
    subst h
    exact ⟨inv_restart hg.inv conns, routed_restart hg.routed conns, ho⟩
  | base l =>
    simp only [step, Option.map_eq_some_iff] at h
    obtain ⟨b, hb, rfl⟩ := h
    exact ⟨Amqp.inv_step hg.inv hb, Amqp.routed_step hg.inv hg.routed hb, ho⟩

theorem good_run {ls : List (RLabel N B)} (h : run dec prefetch init ls = some s) : Good dec prefetch ls s :=
  Lts.run_induction (P := fun (ls : List (RLabel N B)) (s : St N B) => Good dec prefetch ls s) good_init (fun _ _ _ _ _ hg hs => good_step hg hs) ls s h

theorem run_base {ls : List (Label N B)} : ∀ {s : St N B} {b : Amqp.St N B}, Amqp.run dec prefetch s.base ls = some b → ∃ ms, run dec prefetch s (ls.map .base) = some ⟨b, ms⟩ := by
  induction ls with
  | nil => intro s b h; cases h; exact ⟨s.modes, rfl⟩
  | cons l ls ih =>
    intro s b h
    obtain ⟨b1, h1, h2⟩ := Lts.run_cons.1 h
    obtain ⟨ms, h3⟩ := ih (s := ⟨b1, if s.base.msgs.length < b1.msgs.length then s.modes ++ [modeOf s.base l] else s.modes⟩) h2
    exact ⟨ms, Lts.run_cons.2 ⟨_, by simp [step, h1], h3⟩⟩

theorem closed_step {l : RLabel N B} (h : step dec prefetch s l = some s') : ∀ x ∈ s.base.closed, x ∈ s'.base.closed := by
  cases l with
  | restart conns => simp only [step, Option.some.injEq] at h; subst h; intro x hx; simp [restart, hx]
  | base l =>
    simp only [step, Option.map_eq_some_iff] at h
    obtain ⟨b, hb, rfl⟩ := h
    exact Amqp.closed_mono hb

/-! ## A durable name -/

/-- A name whose queue is durable, whose messages are on disk, and that nobody deletes. -/
structure Durable (name : N) (s : St N B) : Prop where
  queue : ∀ (i : Nat) (q : Queue N), s.base.queues[i]? = some q → q.name = name → q.args = ⟨true, none⟩
  exchange : ∀ a, s.base.exchanges.lookup name = some a → a.durable = true
  calls : ∀ r ∈ s.base.calls, Method.queueDelete name ∉ r.rest ∧ Method.exchangeDelete name ∉ r.rest
  disk : ∀ (m : Nat) (g : Amqp.Msg N B), s.base.msgs[m]? = some g → g.name = name → s.onDisk m = true

theorem mem_of_lookup {l : List (N × Amqp.Args)} {x : N} {a : Amqp.Args} (h : l.lookup x = some a) : (x, a) ∈ l := by
  induction l with
  | nil => simp at h
  | cons y l ih =>
    rw [List.lookup_cons] at h
    split at h
    · rename_i hy
      simp only [beq_iff_eq] at hy
      simp only [Option.some.injEq] at h
      rw [hy, ← h]; simp
    · exact List.mem_cons_of_mem _ (ih h)

theorem durable_of {ls : List (RLabel N B)} {name : N} (ho : Origin ls s) (hd : DeclaredAs ls name .durable) (hp : PublishedAs ls name .persistent) (hn : NotDeleted ls name) : Durable name s where
  queue i q hq e := by
    obtain ⟨conn, o, h1, h2⟩ := ho.queues i q hq
    rw [h2, Amqp.QueueOptions.args, hd conn o (e ▸ h1)]
  exchange a ha := by
    obtain ⟨conn, o, h1, h2⟩ := ho.exchanges _ (mem_of_lookup ha)
    dsimp only at h1 h2
    rw [h2, Amqp.QueueOptions.args, hd conn o h1]
  calls r hr := by
    obtain ⟨h1, h2⟩ := ho.calls r hr
    have : ¬ (Method.queueDelete name ∈ r.call.methods ∨ Method.exchangeDelete name ∈ r.call.methods) := fun h => hn r.conn (delete_of_mem h ▸ h1)
    exact ⟨fun h => this (.inl (h2 _ h)), fun h => this (.inr (h2 _ h))⟩
  disk m g hg e := by
    obtain ⟨conn, o, h1, h2⟩ := ho.msgs m g hg
    simp only [St.onDisk, h2, Amqp.QueueOptions.deliveryMode, hp conn o g.bytes (e ▸ h1), decide_true]

theorem lookup_durable {l : List (N × Amqp.Args)} {x : N} {a : Amqp.Args} (h : l.lookup x = some a) (ha : a.durable = true) : (l.filter fun e => e.2.durable).lookup x = some a := by
  induction l with
  | nil => simp at h
  | cons y l ih =>
    rw [List.lookup_cons] at h
    split at h
    · rename_i hy
      simp only [Option.some.injEq] at h
      rw [List.filter_cons, if_pos (by rw [h]; exact ha), List.lookup_cons, hy, h]
    · rename_i hy
      rw [List.filter_cons]
      split
      · rw [List.lookup_cons, hy]; exact ih h
      · exact ih h

/-- What is routed to a durable name stays, restarts or not. -/
theorem keeps_durable {name : N} {i : Nat} {l : RLabel N B} (hd : Durable name s) (h : step dec prefetch s l = some s') (ht : Amqp.There s.base name i) :
    Amqp.There s'.base name i ∧ (Amqp.routes s.base .broadcast name i → Amqp.routes s'.base .broadcast name i) := by
  cases l with
  | restart conns =>
    simp only [step, Option.some.injEq] at h
    subst h
    obtain ⟨q, hq, hp, hn⟩ := ht
    have hk : keeps q = true := by simp [keeps, hp, hd.queue i q hq hn]
    refine ⟨⟨_, queue_restart hq, hk, hn⟩, ?_⟩
    rintro ⟨hx, hb⟩
    obtain ⟨a, ha⟩ := Option.isSome_iff_exists.1 hx
    have hda := hd.exchange a ha
    refine ⟨?_, ?_⟩
    · show (List.lookup name (List.filter _ _)).isSome
      rw [lookup_durable ha hda]; rfl
    · simp only [restart, List.mem_filter]
      exact ⟨hb, by simp [hq, hk, ha, hda]⟩
  | base l =>
    simp only [step, Option.map_eq_some_iff] at h
    obtain ⟨b, hb, rfl⟩ := h
    have hk : Amqp.Keeps name i s.base b := by
      refine Amqp.keeps_step hb ?_ fun r hr _ _ => hd.calls r hr
      rintro rfl
      obtain ⟨q, hq, hp, hn⟩ := ht
      simp [Amqp.step, hq, hd.queue i q hq hn] at hb
    exact ⟨hk.queue ht, fun h => ⟨hk.exchange h.1, hk.binding ht h.2⟩⟩

/-- The queue of a durable name is always there, and no message of the name is lost. -/
structure Safe (name : N) (s : St N B) : Prop where
  present : ∀ (i : Nat) (q : Queue N), s.base.queues[i]? = some q → q.name = name → q.present = true
  lost : ∀ m ∈ s.base.lost, ∀ g, s.base.msgs[m]? = some g → g.name ≠ name

theorem lost_known {ls : List (RLabel N B)} (hg : Good dec prefetch ls s) {m : Nat} (hm : m ∈ s.base.lost) : ∃ g, s.base.msgs[m]? = some g := by
  have h1 := hg.inv.data.count m
  have h2 := List.count_pos_iff.2 hm
  by_cases h : m < s.base.msgs.length
  · exact ⟨_, List.getElem?_eq_getElem h⟩
  · rw [if_neg h] at h1; omega

theorem safe_step {name : N} {ls : List (RLabel N B)} {l : RLabel N B} (hg : Good dec prefetch ls s) (hd : Durable name s) (hs : Safe name s) (h : step dec prefetch s l = some s') : Safe name s' := by
  cases l with
  | restart conns =>
    simp only [step, Option.some.injEq] at h
    subst h
    have name_of : ∀ (i : Nat) (q : Queue N), s.base.queues[i]? = some q → ∀ m, m ∈ returned s.base.consumers i ++ q.ready → ∀ g, s.base.msgs[m]? = some g → q.name = g.name := by
      intro i q hq m hm g hgm
      have : Amqp.addressed s.base m i := by
        rcases List.mem_append.1 hm with hm | hm
        · obtain ⟨c, hc, rfl, hu⟩ := mem_returned.1 hm
          exact hg.routed.unacked c hc m hu
        · exact hg.routed.ready i q hq m hm
      obtain ⟨g', q', h1, h2, h3⟩ := this
      rw [hgm] at h1; cases h1
      rw [hq] at h2; cases h2
      exact h3
    refine ⟨?_, ?_⟩
    · intro i q hq hn
      obtain ⟨p, hp, rfl⟩ := restart_queue hq
      simp [keeps, hs.present i p hp hn, hd.queue i p hp hn]
    · intro m hm g hgm hname
      simp only [restart, List.mem_append, List.mem_flatten, List.mem_mapIdx] at hm
      rcases hm with hm | ⟨l, ⟨i, hi, rfl⟩, hm⟩
      · exact hs.lost m hm g hgm hname
      · have hq : s.base.queues[i]? = some s.base.queues[i] := List.getElem?_eq_getElem hi
        have hmem : m ∈ returned s.base.consumers i ++ (s.base.queues[i]).ready := by
          simp only [gone] at hm
          split at hm
          · exact (List.mem_filter.1 hm).1
          · exact hm
        have hn := (name_of i _ hq m hmem g hgm).trans hname
        have hk : keeps s.base.queues[i] = true := by simp [keeps, hs.present i _ hq hn, hd.queue i _ hq hn]
        simp only [gone, hk, if_true, List.mem_filter] at hm
        simp [hd.disk m g hgm hname] at hm
  | base l =>
    have hstep := h
    simp only [step, Option.map_eq_some_iff] at h
    obtain ⟨b, hb, rfl⟩ := h
    have pres : ∀ (i : Nat) (q : Queue N), b.queues[i]? = some q → q.name = name → q.present = true := by
      intro i q hq hn
      rcases (step_new hb).1 i q hq with ⟨p, hp, h1, h2⟩ | h
      · obtain ⟨⟨q', h3, h4, -⟩, -⟩ := keeps_durable hd hstep ⟨p, hp, hs.present i p hp (h1 ▸ hn), h1 ▸ hn⟩
        dsimp only at h3
        rw [hq] at h3; cases h3
        exact h4
      · exact h.1
    refine ⟨pres, ?_⟩
    intro m hm g hgm hname
    have old : ∀ g0, s.base.msgs[m]? = some g0 → g0.name = name := by
      intro g0 h0
      have := (Amqp.grows_step hg.inv.names hb).msgs m g0 h0
      dsimp only at hgm
      rw [hgm] at this; cases this
      exact hname
    rcases step_lost hb hm with h | ⟨i, q, q', hq, hp, hr, hq', hp'⟩ | ⟨c, hc, hu, q, hq, hp⟩
    · obtain ⟨g0, h0⟩ := lost_known hg h
      exact hs.lost m h g0 h0 (old g0 h0)
    · obtain ⟨g0, q0, h1, h2, h3⟩ := hg.routed.ready i q hq m hr
      rw [hq] at h2; cases h2
      obtain ⟨⟨q'', h3', h4, -⟩, -⟩ := keeps_durable hd hstep ⟨q, hq, hp, h3.trans (old g0 h1)⟩
      dsimp only at h3'
      rw [hq'] at h3'; cases h3'
      rw [hp'] at h4; cases h4
    · obtain ⟨g0, q0, h1, h2, h3⟩ := hg.routed.unacked c hc m hu
      rw [hq] at h2; cases h2
      rw [hs.present _ q hq (h3.trans (old g0 h1))] at hp
      cases hp

end Restart
end Paladin
