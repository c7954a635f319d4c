import Verif.Spec.SystemAmqp
import Verif.Proofs.AmqpSys
import Verif.Proofs.SystemMem
/-! # The whole system on an AMQP broker: refinement -/
namespace Paladin
namespace SystemAmqp
open Retry System

/-- Steps of the directive depend on no other results than the one received, wherever it is. -/
structure Indexed {σ ℓ T R : Type} (cl : Client σ ℓ T R) (any : ℓ → ℓ) : Prop where
  lcl : SystemMem.Local cl
  fix0 : ∀ {s l y}, cl.step s l [] = some y → any l = l
  move : ∀ {s l x ts} {r : R}, cl.step s l [r] = some (x, ts, []) → any l = l ∧ ∀ {R : List _} {i : Nat}, R[i]? = some r → ∃ l', any l' = l ∧ cl.step s l' R = some (x, ts, R.eraseIdx i)

theorem takeAt_move {R S : Type} (f : R → S) {rs : List R} {i : Nat} {r : R} (h : rs[i]? = some r) :
    Fold.takeAt (rs.map f) i = Fold.takeAt ((r :: rs.eraseIdx i).map f) 0 := by
  simp [Fold.takeAt, h, List.eraseIdx_map]

theorem indexed_map {α β ε ω T O : Type} (op : ω → α → Except ε β) (enc : Nat × α → Option T) (dec : O → Except ε (Nat × β)) : Indexed (mapClient op enc dec) mapAny := by
  refine ⟨SystemMem.local_map op enc dec, ?_, ?_⟩
  · intro s l y h
    cases l <;> first | rfl | (exfalso; simp [mapClient, mapLead, MapS.step, Fold.takeAt] at h)
  · intro s l x ts r h
    have hl := (SystemMem.local_map op enc dec).one h
    cases l with
    | recv k =>
      cases k with
      | succ k => simp [mapClient, mapLead, MapS.step, Fold.takeAt] at h
      | zero =>
        refine ⟨rfl, fun {R i} hR => ⟨.recv i, rfl, ?_⟩⟩
        rw [← hl (R.eraseIdx i)]
        simp only [mapClient, mapLead, MapS.step, if_true, takeAt_move (fun r => r.bind dec) hR, mapLeft, List.eraseIdx_zero, List.tail_cons]
    | recvAckErr k e =>
      cases k with
      | succ k => simp [mapClient, mapLead, MapS.step, Fold.takeAt] at h
      | zero =>
        refine ⟨rfl, fun {R i} hR => ⟨.recvAckErr i e, rfl, ?_⟩⟩
        rw [← hl (R.eraseIdx i)]
        simp only [mapClient, mapLead, MapS.step, if_true, takeAt_move (fun r => r.bind dec) hR, mapLeft, List.eraseIdx_zero, List.tail_cons]
    | _ =>
      exfalso
      simp only [mapClient, mapLeft] at h
      (repeat' split at h) <;> simp at h

theorem indexed_fold {α ε ω T O : Type} (comb : ω → α → α → Except ε α) (empty : α) (dupErr : ε) (enc : Fold.CTask α → Option T) (dec : O → Except ε (Seg α)) :
    Indexed (foldClient comb empty dupErr enc dec) foldAny := by
  refine ⟨SystemMem.local_fold comb empty dupErr enc dec, ?_, ?_⟩
  · intro s l y h
    cases l <;> first | rfl | (exfalso; simp [foldClient, foldLead, Fold.step, Fold.takeAt] at h; try (split at h <;> simp_all))
  · intro s l x ts r h
    have hl := (SystemMem.local_fold comb empty dupErr enc dec).one h
    cases l with
    | recv k =>
      cases k with
      | succ k => simp [foldClient, foldLead, Fold.step, Fold.takeAt] at h
      | zero =>
        refine ⟨rfl, fun {R i} hR => ⟨.recv i, rfl, ?_⟩⟩
        rw [← hl (R.eraseIdx i)]
        simp only [foldClient, foldLead, Fold.step, if_true, takeAt_move (fun r => toRes (r.bind dec)) hR, foldLeft, List.eraseIdx_zero, List.tail_cons]
    | _ =>
      exfalso
      simp only [foldClient, foldLeft] at h
      (repeat' split at h) <;> simp at h

section
variable {κ : Type} {σ ℓ : κ → Type} {T O ε χ ω : Type} [DecidableEq κ] {cl : (j : κ) → Client (σ j) (ℓ j) T (Except ε O)} {listens : (j : κ) → σ j → Bool} {nt : Net κ} {cfg : Worker.Cfg κ}
  {exec : ω → T → Except (OpError χ) O} {text : OpError χ → ε} {any : (j : κ) → ℓ j → ℓ j}

/-- The broker's state. -/
abbrev Broker (κ T O ε : Type) := Amqp.St (Name κ) (Payload κ T O ε)

/-! ## Publishing -/

theorem publish_eq {pf : Nat} {n : Broker κ T O ε} {conn : Nat} {name : Name κ} {b : Payload κ T O ε} (hc : conn ∉ n.closed) :
    publish pf n conn name b = some { (Amqp.method n conn (.publish (.queue name) b (some 2))).1 with
      calls := n.calls ++ [⟨conn, .publish name Amqp.ChannelType.exactlyOnce.options b, [], none⟩] } := by
  have hok : ∀ s : Broker κ T O ε, (Amqp.method s conn (.publish (.queue name) b (some 2))).2 = .ok := by
    intro s; simp only [Amqp.method]; split <;> rfl
  have hcalls : ∀ cs cs', ({ (Amqp.method { n with calls := cs } conn (.publish (.queue name) b (some 2))).1 with calls := cs' } : Broker κ T O ε) =
      { (Amqp.method n conn (.publish (.queue name) b (some 2))).1 with calls := cs' } := by
    intro cs cs'
    have hf : Amqp.St.find { n with calls := cs } name = n.find name := rfl
    simp only [Amqp.method, hf]
    cases n.find name <;> rfl
  unfold publish
  rw [if_neg hc]
  have hm : (Amqp.Call.publish name Amqp.ChannelType.exactlyOnce.options b).methods = [.publish (.queue name) b (some 2)] := rfl
  refine Lts.run_cons.2 ⟨{ n with calls := n.calls ++ [⟨conn, .publish name Amqp.ChannelType.exactlyOnce.options b, [.publish (.queue name) b (some 2)], none⟩] }, rfl, Lts.run_one.2 ?_⟩
  simp only [Amqp.step, List.getElem?_concat_length, Option.isSome_none, Bool.false_eq_true, if_false, List.contains_eq_mem, hc, decide_false, hok, if_true]
  rw [hcalls]
  simp

theorem publish_posts {pf : Nat} {n n' : Broker κ T O ε} {conn : Nat} {name : Name κ} {b : Payload κ T O ε} (h : publish pf n conn name b = some n') :
    conn ∉ n.closed ∧ Amqp.Posts name [b] n n' := by
  by_cases hc : conn ∈ n.closed
  · simp [publish, hc] at h
  refine ⟨hc, ?_⟩
  rw [publish_eq hc, Option.some.injEq] at h
  subst h
  have hcalls : ∀ {x : Broker κ T O ε}, x.calls = n.calls ++ [⟨conn, .publish name Amqp.ChannelType.exactlyOnce.options b, [], none⟩] → Amqp.NoPub n → Amqp.NoPub x := by
    intro x hx hp r hr d b mode hm
    rw [hx] at hr
    rcases List.mem_append.1 hr with hr | hr
    · exact hp r hr d b mode hm
    · simp only [List.mem_singleton] at hr; subst hr; simp at hm
  cases hn : n.find name with
  | none =>
    have he : (Amqp.method n conn (.publish (.queue name) b (some 2))).1 = { n with msgs := n.msgs ++ [⟨name, b⟩], unroutable := n.unroutable ++ [n.msgs.length] } := by simp only [Amqp.method, hn]
    rw [he]
    exact ⟨rfl, rfl, rfl, rfl, rfl, rfl, hcalls rfl, fun ⟨i, hi⟩ => by (rw [hn] at hi; cases hi), rfl⟩
  | some i =>
    have he : (Amqp.method n conn (.publish (.queue name) b (some 2))).1 =
        { n with msgs := n.msgs ++ [⟨name, b⟩], queues := n.queues.modify i fun q => { q with ready := q.ready ++ [n.msgs.length] } } := by simp only [Amqp.method, hn]
    rw [he]
    exact ⟨rfl, rfl, rfl, rfl, rfl, rfl, hcalls rfl, fun _ => ⟨rfl, rfl⟩, SystemMem.modify_map (fun q : Amqp.Queue (Name κ) => (q.name, q.present)) (fun q => { q with ready := q.ready ++ [n.msgs.length] }) (fun _ => rfl) n.queues i⟩

theorem publish_sound {pf : Nat} {n n' : Broker κ T O ε} {conn : Nat} {name : Name κ} {b : Payload κ T O ε} (hs : Amqp.Sound (V := Payload κ T O ε) some pf n) (h : publish pf n conn name b = some n') :
    Amqp.Sound (V := Payload κ T O ε) some pf n' ∧ Amqp.Grows n n' := by
  unfold publish at h
  split at h
  · cases h
  · exact ⟨Amqp.sound_run hs h, (Amqp.grows_run hs.inv h).1⟩

theorem publishAll_posts {pf : Nat} {conn : Nat} {name : Name κ} : ∀ {bs : List (Payload κ T O ε)} {n n' : Broker κ T O ε}, publishAll pf conn name n bs = some n' → Amqp.Posts name bs n n'
  | [], n, n', h => by simp only [publishAll, Option.some.injEq] at h; subst h; exact Amqp.Posts.refl name n
  | b :: bs, n, n', h => by
    simp only [publishAll, Option.bind_eq_some_iff] at h
    obtain ⟨n1, h1, h2⟩ := h
    exact (publish_posts h1).2.trans (publishAll_posts h2)

theorem publishAll_sound {pf : Nat} {conn : Nat} {name : Name κ} : ∀ {bs : List (Payload κ T O ε)} {n n' : Broker κ T O ε}, Amqp.Sound (V := Payload κ T O ε) some pf n →
    publishAll pf conn name n bs = some n' → Amqp.Sound (V := Payload κ T O ε) some pf n' ∧ Amqp.Grows n n'
  | [], n, n', hs, h => by simp only [publishAll, Option.some.injEq] at h; subst h; exact ⟨hs, Amqp.Grows.refl n⟩
  | b :: bs, n, n', hs, h => by
    simp only [publishAll, Option.bind_eq_some_iff] at h
    obtain ⟨n1, h1, h2⟩ := h
    obtain ⟨a1, a2⟩ := publish_sound hs h1
    obtain ⟨b1, b2⟩ := publishAll_sound a1 h2
    exact ⟨b1, a2.trans b2⟩

/-! ## Who consumes what -/

/-- A message is a task on the bus, or a result on the queue of a job. -/
def Fits : Amqp.Msg (Name κ) (Payload κ T O ε) → Prop
  | ⟨.bus, .task _⟩ | ⟨.job _, .result _⟩ => True
  | _ => False

/-- The ties are right, and only tied consumers are polled. -/
structure Wired (nt : Net κ) (s : St κ σ T O ε χ) : Prop where
  sound : Amqp.Sound (V := Payload κ T O ε) some nt.prefetch s.net
  nopub : Amqp.NoPub s.net
  tie : ∀ o k, s.ties.lookup o = some k → ∃ c q, s.net.consumers[k]? = some c ∧ c.conn = o.conn nt ∧ s.net.queues[c.inst]? = some q ∧ q.name = o.queue
  inj : ∀ o o' k, s.ties.lookup o = some k → s.ties.lookup o' = some k → o = o'
  held : ∀ (k : Nat) (c : Amqp.Consumer), s.net.consumers[k]? = some c → c.held ≠ [] → ∃ o, s.ties.lookup o = some k
  yielded : ∀ m k, (m, k) ∈ s.net.yielded → ∃ o, s.ties.lookup o = some k
  fits : ∀ g ∈ s.net.msgs, Fits g

theorem wired_init : Wired nt (init cl : St κ σ T O ε χ) := by
  refine ⟨Amqp.sound_init, ?_, ?_, ?_, ?_, ?_, ?_⟩ <;> simp [init, Amqp.init, Amqp.NoPub]

theorem Wired.mono {s s' : St κ σ T O ε χ} (hw : Wired nt s) (ht : s'.ties = s.ties) (hs : Amqp.Sound (V := Payload κ T O ε) some nt.prefetch s'.net) (hg : Amqp.Grows s.net s'.net)
    (hn : Amqp.NoPub s'.net)
    (hh : ∀ (k : Nat) (c' : Amqp.Consumer), s'.net.consumers[k]? = some c' → c'.held ≠ [] → (∃ c, s.net.consumers[k]? = some c ∧ c.held ≠ []) ∨ ∃ o, s.ties.lookup o = some k)
    (hy : ∀ m k, (m, k) ∈ s'.net.yielded → (m, k) ∈ s.net.yielded ∨ ∃ o, s.ties.lookup o = some k)
    (hf : ∀ g ∈ s'.net.msgs, g ∈ s.net.msgs ∨ Fits g) : Wired nt s' := by
  refine ⟨hs, hn, ?_, ?_, ?_, ?_, ?_⟩
  · intro o k h
    rw [ht] at h
    obtain ⟨c, q, h1, h2, h3, h4⟩ := hw.tie o k h
    obtain ⟨c', h5, h6, h7⟩ := hg.consumers k c h1
    obtain ⟨q', h8, h9, -⟩ := hg.queues _ q h3
    exact ⟨c', q', h5, h7.trans h2, by rw [h6]; exact h8, h9.trans h4⟩
  · rw [ht]; exact hw.inj
  · intro k c' hc hne
    rw [ht]
    rcases hh k c' hc hne with ⟨c, h1, h2⟩ | h
    · exact hw.held k c h1 h2
    · exact h
  · intro m k h
    rw [ht]
    rcases hy m k h with h | h
    · exact hw.yielded m k h
    · exact h
  · intro g hg
    rcases hf g hg with h | h
    · exact hw.fits g h
    · exact h

theorem Wired.quiet {s s' : St κ σ T O ε χ} (hw : Wired nt s) (ht : s'.ties = s.ties) (hs : Amqp.Sound (V := Payload κ T O ε) some nt.prefetch s'.net) (hg : Amqp.Grows s.net s'.net)
    (hq : Amqp.Quiet s.net s'.net ∧ Amqp.NoPub s'.net) : Wired nt s' := by
  refine hw.mono ht hs hg hq.2 ?_ ?_ ?_
  · intro k c' hc hne
    rcases hq.1.bwd k c' hc with ⟨c, h1, h2⟩ | h
    · exact .inl ⟨c, h1, by rw [h2]; exact hne⟩
    · exact absurd h hne
  · intro m k h; rw [hq.1.yielded] at h; exact .inl h
  · intro g h; rw [hq.1.msgs] at h; exact .inl h

theorem Wired.posts {s s' : St κ σ T O ε χ} (hw : Wired nt s) (ht : s'.ties = s.ties) (hs : Amqp.Sound (V := Payload κ T O ε) some nt.prefetch s'.net) (hg : Amqp.Grows s.net s'.net)
    {name : Name κ} {bs : List (Payload κ T O ε)} (hp : Amqp.Posts name bs s.net s'.net) (hb : ∀ b ∈ bs, Fits ⟨name, b⟩) : Wired nt s' := by
  refine hw.mono ht hs hg (hp.nopub hw.nopub) ?_ ?_ ?_
  · intro k c' hc hne; rw [hp.consumers] at hc; exact .inl ⟨c', hc, hne⟩
  · intro m k h; rw [hp.yielded] at h; exact .inl h
  · intro g h
    rw [hp.msgs, List.mem_append, List.mem_map] at h
    rcases h with h | ⟨b, h1, rfl⟩
    · exact .inl h
    · exact .inr (hb b h1)

/-- The message that a poll yields. -/
theorem next_spec {s : St κ σ T O ε χ} {pf : Nat} {o : Owner κ} {m : Nat} {b : Payload κ T O ε} {n : Broker κ T O ε} (h : s.next pf o = some (m, b, n)) :
    ∃ k c g rest, s.ties.lookup o = some k ∧ s.net.consumers[k]? = some c ∧ c.buffer = m :: rest ∧ s.net.msgs[m]? = some g ∧ g.bytes = b ∧ s.awake o c = true ∧
      Amqp.step (V := Payload κ T O ε) some pf s.net (.poll k) = some n ∧
      n = { s.net with consumers := s.net.consumers.set k { c with buffer := rest, held := c.held ++ [m], parked := true, woken := false }, yielded := s.net.yielded ++ [(m, k)] } := by
  unfold St.next at h
  split at h
  · cases h
  rename_i k c hco
  have hco' : ∃ k0, s.ties.lookup o = some k0 ∧ ∃ c0, s.net.consumers[k0]? = some c0 ∧ (k0, c0) = (k, c) := by
    simpa [St.consumer, Option.bind_eq_some_iff] using hco
  obtain ⟨k0, h1, c0, h2, he⟩ := hco'
  cases he
  split at h
  · rename_i haw
    split at h
    · cases h
    · rename_i m' rest hb
      split at h
      · rename_i g n' hg hn
        simp only [Option.some.injEq, Prod.mk.injEq] at h
        obtain ⟨rfl, rfl, rfl⟩ := h
        refine ⟨k, c, g, rest, h1, h2, hb, hg, rfl, haw, hn, ?_⟩
        simp only [Amqp.step, h2, hb, hg, Option.bind_some, Option.some.injEq] at hn
        exact hn.symm
      · cases h
  · cases h

theorem consumer_spec {s : St κ σ T O ε χ} {o : Owner κ} {k : Nat} {c : Amqp.Consumer} : s.consumer o = some (k, c) ↔ s.ties.lookup o = some k ∧ s.net.consumers[k]? = some c := by
  unfold St.consumer
  simp only [Option.bind_eq_some_iff, Option.map_eq_some_iff, Prod.mk.injEq]
  constructor
  · rintro ⟨k', h1, c', h2, rfl, rfl⟩; exact ⟨h1, h2⟩
  · rintro ⟨h1, h2⟩; exact ⟨k, h1, c, h2, rfl, rfl⟩

/-- Message `m` is acknowledged or rejected by consumer `k`. -/
structure Settles (k m : Nat) (n n' : Broker κ T O ε) : Prop where
  ex : ∃ c, n.consumers[k]? = some c ∧ m ∈ c.held ∧ c.conn ∉ n.closed ∧ n'.consumers = n.consumers.set k { c with held := c.held.erase m, unacked := c.unacked.erase m }
  msgs : n'.msgs = n.msgs
  yielded : n'.yielded = n.yielded
  closed : n'.closed = n.closed
  calls : n'.calls = n.calls
  queues : n'.queues = n.queues
  done : ∀ x, (x ∈ n'.acked ∨ x ∈ n'.nacked) ↔ x = m ∨ x ∈ n.acked ∨ x ∈ n.nacked

theorem settles_ack {pf : Nat} {n n' : Broker κ T O ε} {k m : Nat} (h : Amqp.step (V := Payload κ T O ε) some pf n (.ack k m) = some n') : Settles k m n n' := by
  simp only [Amqp.step] at h
  split at h
  · cases h
  rename_i c hc
  split at h <;> simp only [Option.some.injEq, reduceCtorEq] at h
  rename_i hg
  subst h
  simp at hg
  refine ⟨⟨c, hc, hg.1, hg.2, rfl⟩, rfl, rfl, rfl, rfl, rfl, ?_⟩
  intro x
  simp only [List.mem_append, List.mem_singleton]
  constructor
  · rintro ((h | h) | h) <;> simp [h]
  · rintro (h | h | h) <;> simp [h]

theorem settles_nack {pf : Nat} {n n' : Broker κ T O ε} {k m : Nat} (h : Amqp.step (V := Payload κ T O ε) some pf n (.nack k m) = some n') : Settles k m n n' := by
  simp only [Amqp.step] at h
  split at h
  · cases h
  rename_i c hc
  split at h <;> simp only [Option.some.injEq, reduceCtorEq] at h
  rename_i hg
  subst h
  simp at hg
  refine ⟨⟨c, hc, hg.1, hg.2, rfl⟩, rfl, rfl, rfl, rfl, rfl, ?_⟩
  intro x
  simp only [List.mem_append, List.mem_singleton]
  constructor
  · rintro (h | h | h) <;> simp [h]
  · rintro (h | h | h) <;> simp [h]

theorem Wired.settles {s s' : St κ σ T O ε χ} (hw : Wired nt s) (ht : s'.ties = s.ties) (hs : Amqp.Sound (V := Payload κ T O ε) some nt.prefetch s'.net) (hg : Amqp.Grows s.net s'.net)
    {k m : Nat} (h : Settles k m s.net s'.net) : Wired nt s' := by
  refine hw.mono ht hs hg (by intro r hr; rw [h.calls] at hr; exact hw.nopub r hr) ?_ ?_ ?_
  · intro k' c' hc hne
    obtain ⟨c, h1, h2, -, h3⟩ := h.ex
    rw [h3] at hc
    rcases Amqp.getElem?_set' hc with ⟨rfl, rfl⟩ | ⟨_, hc⟩
    · exact .inl ⟨c, h1, by rintro h0; simp [h0] at h2⟩
    · exact .inl ⟨c', hc, hne⟩
  · intro m k h'; rw [h.yielded] at h'; exact .inl h'
  · intro g h'; rw [h.msgs] at h'; exact .inl h'

theorem Wired.polls {s s' : St κ σ T O ε χ} (hw : Wired nt s) (ht : s'.ties = s.ties) (hs : Amqp.Sound (V := Payload κ T O ε) some nt.prefetch s'.net) (hg : Amqp.Grows s.net s'.net)
    {k m : Nat} {c' : Amqp.Consumer} {o : Owner κ} (ho : s.ties.lookup o = some k) (hc : s'.net.consumers = s.net.consumers.set k c') (hy : s'.net.yielded = s.net.yielded ++ [(m, k)])
    (hm : s'.net.msgs = s.net.msgs) (hl : s'.net.calls = s.net.calls) : Wired nt s' := by
  refine hw.mono ht hs hg (by intro r hr; rw [hl] at hr; exact hw.nopub r hr) ?_ ?_ ?_
  · intro k' d hd hne
    rw [hc] at hd
    rcases Amqp.getElem?_set' hd with ⟨rfl, rfl⟩ | ⟨_, hd⟩
    · exact .inr ⟨o, ho⟩
    · exact .inl ⟨d, hd, hne⟩
  · intro x j h'
    rw [hy] at h'
    simp only [List.mem_append, List.mem_singleton, Prod.mk.injEq] at h'
    rcases h' with h' | ⟨rfl, rfl⟩
    · exact .inl h'
    · exact .inr ⟨o, ho⟩
  · intro g h'; rw [hm] at h'; exact .inl h'

/-- What a step of a worker does, here and in `System`. -/
theorem effect_cases {s : St κ σ T O ε χ} {w : Nat} {l : Worker.Label κ O χ} {n : Broker κ T O ε} (h : effect nt text s w l = some n) :
    (∃ k m, s.ties.lookup (.worker w) = some k ∧ s.cur w = some m ∧ Settles k m s.net n ∧ (∃ l', Amqp.step (V := Payload κ T O ε) some nt.prefetch s.net l' = some n) ∧
      ∀ a : System.St κ σ T O ε χ, a.worker w = s.worker w → System.effect text a w l = { a with dels := settle a.dels (a.cur w) }) ∨
    (∃ j r, publish nt.prefetch s.net (nt.wconn w) (.job j) (.result r) = some n ∧
      ∀ a : System.St κ σ T O ε χ, a.worker w = s.worker w →
        System.effect text a w l = { a with dels := answer a.dels (a.cur w), results := Function.update a.results j (a.results j ++ [r]) }) ∨
    (n = s.net ∧ ∀ a : System.St κ σ T O ε χ, a.worker w = s.worker w → System.effect text a w l = a) := by
  unfold effect at h
  split at h
  · split at h
    · rename_i k m hk hm
      exact .inl ⟨k, m, hk, hm, settles_ack h, ⟨_, h⟩, fun a _ => rfl⟩
    · cases h
  all_goals first
    | (split at h
       · rename_i k m hk hm
         exact .inl ⟨k, m, hk, hm, settles_nack h, ⟨_, h⟩, fun a _ => rfl⟩
       · cases h)
    | skip
  · rename_i hpc
    exact .inr (.inl ⟨_, _, h, fun a ha => by simp only [System.effect, ha, hpc]⟩)
  · rename_i hpc
    exact .inr (.inl ⟨_, _, h, fun a ha => by simp only [System.effect, ha, hpc]⟩)
  · rename_i h1 h2 h3 h4 h5 h6
    simp only [Option.some.injEq] at h
    refine .inr (.inr ⟨h.symm, fun a ha => ?_⟩)
    unfold System.effect
    rw [ha]
    split
    · exact absurd rfl h1
    · exact absurd rfl h2
    · exact absurd rfl h3
    · exact absurd rfl h4
    · rename_i hpc; exact absurd hpc (h5 _ _ _ _ _ rfl)
    · rename_i hpc; exact absurd hpc (h6 _ _ _ _ _ _ rfl)
    · rfl

theorem others_quiet {s : St κ σ T O ε χ} (hw : Wired nt s) {l : Amqp.Label (Name κ) (Payload κ T O ε)} (ho : others l = true) {n : Broker κ T O ε}
    (hn : Amqp.step (V := Payload κ T O ε) some nt.prefetch s.net l = some n) : Amqp.Quiet s.net n ∧ Amqp.NoPub n := by
  refine Amqp.quiet_step hw.nopub ?_ ?_ ?_ ?_ hn
  · rintro conn c rfl d b mode hm
    cases c with
    | publish name o b => simp [others] at ho
    | declareQueue name o =>
      simp only [Amqp.Call.methods, Amqp.declareQueue] at hm
      split at hm <;> simp [Amqp.declareSingle, Amqp.declareBroadcast] at hm
    | deleteQueue name => simp [Amqp.Call.methods, Amqp.deleteQueue, Amqp.deleteBroadcast] at hm
    | declareConsumer name => simp [Amqp.Call.methods] at hm
  · rintro k c rfl; simp [others] at ho
  · rintro k m rfl; simp [others] at ho
  · rintro k m rfl; simp [others] at ho

theorem wired_step {s s' : St κ σ T O ε χ} {l : Label κ ℓ T O ε χ ω} (hw : Wired nt s) (h : step cl listens nt cfg exec text s l = some s') : Wired nt s' := by
  have taskFits : ∀ (j : κ) (ts : List T), ∀ b ∈ ts.map (fun t => (Payload.task ⟨j, t⟩ : Payload κ T O ε)), Fits (⟨.bus, b⟩ : Amqp.Msg (Name κ) (Payload κ T O ε)) := by
    intro j ts b hb
    obtain ⟨t, _, rfl⟩ := List.mem_map.1 hb
    trivial
  cases l with
  | lead j l =>
    simp only [step] at h
    split at h
    · split at h <;> simp only [Option.some.injEq, reduceCtorEq] at h
      rename_i n hn
      subst h
      obtain ⟨h1, h2⟩ := publishAll_sound hw.sound hn
      exact hw.posts rfl h1 h2 (publishAll_posts hn) (taskFits j _)
    · cases h
  | recv j l =>
    simp only [step] at h
    split at h
    · rename_i m r n hnx
      split at h
      · split at h <;> simp only [Option.some.injEq, reduceCtorEq] at h
        rename_i n' hn
        subst h
        obtain ⟨k, c, g, rest, h1, h2, h3, h4, h5, h6, h7, h8⟩ := next_spec hnx
        have hs := Amqp.sound_step hw.sound h7
        have hg := Amqp.grows_step hw.sound.inv.names h7
        have hw1 : Wired nt { s with net := n } := hw.polls (s' := { s with net := n }) rfl hs hg h1 (by rw [h8]) (by rw [h8]) (by rw [h8]) (by rw [h8])
        obtain ⟨h1, h2⟩ := publishAll_sound hs hn
        exact hw1.posts rfl h1 h2 (publishAll_posts hn) (taskFits j _)
      · cases h
    · cases h
  | sleep o =>
    simp only [step] at h
    split at h
    · rename_i k c hco
      obtain ⟨h1, h2⟩ := consumer_spec.1 hco
      split at h
      · rename_i hcond
        simp only [Option.map_eq_some_iff] at h
        obtain ⟨n, hn, rfl⟩ := h
        simp only [Bool.and_eq_true, List.isEmpty_iff] at hcond
        refine hw.quiet rfl (Amqp.sound_step hw.sound hn) (Amqp.grows_step hw.sound.inv.names hn) (Amqp.quiet_step hw.nopub (by simp) ?_ (by simp) (by simp) hn)
        intro k' c' he hc'
        injection he with he
        subst he
        rw [h2] at hc'; cases hc'
        exact hcond.2
      · cases h
    · cases h
  | ackRes j =>
    simp only [step] at h
    split at h
    · split at h
      · cases h
      · simp only [Option.map_eq_some_iff] at h
        obtain ⟨n, hn, rfl⟩ := h
        exact hw.settles rfl (Amqp.sound_step hw.sound hn) (Amqp.grows_step hw.sound.inv.names hn) (settles_ack hn)
    · cases h
  | deliver w =>
    simp only [step] at h
    split at h
    · rename_i m t n hnx
      split at h <;> simp only [Option.some.injEq, reduceCtorEq] at h
      subst h
      obtain ⟨k, c, g, rest, h1, h2, h3, h4, h5, h6, h7, h8⟩ := next_spec hnx
      exact hw.polls rfl (Amqp.sound_step hw.sound h7) (Amqp.grows_step hw.sound.inv.names h7) h1 (by rw [h8]) (by rw [h8]) (by rw [h8]) (by rw [h8])
    · cases h
  | finish w x =>
    simp only [step] at h
    split at h
    · split at h <;> simp only [Option.some.injEq, reduceCtorEq] at h
      subst h
      exact hw.mono rfl hw.sound (Amqp.Grows.refl _) hw.nopub (fun k c hc hne => .inl ⟨c, hc, hne⟩) (fun m k h => .inl h) (fun g h => .inl h)
    · cases h
  | work w l =>
    have key : ∀ v n, effect nt text s w l = some n → Wired nt { s with worker := Function.update s.worker w v, net := n } := by
      intro v n he
      rcases effect_cases he with ⟨k, m, h1, h2, h3, ⟨l', h4⟩, h5⟩ | ⟨j, r, h1, h2⟩ | ⟨rfl, h2⟩
      · exact hw.settles rfl (Amqp.sound_step hw.sound h4) (Amqp.grows_step hw.sound.inv.names h4) h3
      · obtain ⟨h3, h4⟩ := publish_sound hw.sound h1
        exact hw.posts rfl h3 h4 (publish_posts h1).2 (by simp [Fits])
      · exact hw.mono rfl hw.sound (Amqp.Grows.refl _) hw.nopub (fun k c hc hne => .inl ⟨c, hc, hne⟩) (fun m k h => .inl h) (fun g h => .inl h)
    simp only [step] at h
    split at h
    · cases h
    · cases h
    · split at h <;> simp only [Option.some.injEq, reduceCtorEq] at h
      rename_i v n _ he
      subst h
      exact key v n he
  | attach o k =>
    simp only [step] at h
    split at h
    · rename_i c hc
      split at h <;> simp only [Option.some.injEq, reduceCtorEq] at h
      rename_i hcond
      obtain ⟨h1, h2, h3, h4⟩ := hcond
      subst h
      have hl : ∀ o', (s.ties ++ [(o, k)]).lookup o' = if o' = o then some k else s.ties.lookup o' := by
        intro o'
        rw [List.lookup_append]
        by_cases ho : o' = o
        · subst ho; simp [h1, List.lookup]
        · have : (o' == o) = false := by simpa using ho
          simp [List.lookup, this, ho]
      have hk : ∀ o', s.ties.lookup o' ≠ some k := by
        intro o' ho
        rw [List.lookup_eq_some_iff] at ho
        obtain ⟨l1, l2, he, -⟩ := ho
        exact h2 (by rw [he]; simp)
      refine ⟨hw.sound, hw.nopub, ?_, ?_, ?_, ?_, hw.fits⟩
      · intro o' k' ho
        simp only [hl] at ho
        split at ho
        · rename_i he; cases ho; subst he
          simp only [Option.map_eq_some_iff] at h4
          obtain ⟨q, h5, h6⟩ := h4
          exact ⟨c, q, hc, h3, h5, h6⟩
        · exact hw.tie o' k' ho
      · intro o1 o2 k' ho1 ho2
        simp only [hl] at ho1 ho2
        split at ho1 <;> split at ho2
        · simp_all
        · cases ho1; exact absurd ho2 (hk _)
        · cases ho2; exact absurd ho1 (hk _)
        · exact hw.inj o1 o2 k' ho1 ho2
      · intro k' c' hc' hne
        obtain ⟨o', ho⟩ := hw.held k' c' hc' hne
        refine ⟨o', ?_⟩
        simp only [hl]
        split
        · rename_i he; subst he; rw [h1] at ho; cases ho
        · exact ho
      · intro m k' hy
        obtain ⟨o', ho⟩ := hw.yielded m k' hy
        refine ⟨o', ?_⟩
        simp only [hl]
        split
        · rename_i he; subst he; rw [h1] at ho; cases ho
        · exact ho
    · cases h
  | net l =>
    simp only [step] at h
    split at h
    · rename_i ho
      simp only [Option.map_eq_some_iff] at h
      obtain ⟨n, hn, rfl⟩ := h
      exact hw.quiet rfl (Amqp.sound_step hw.sound hn) (Amqp.grows_step hw.sound.inv.names hn) (others_quiet hw ho hn)
    · cases h

/-! ## The relation to the system with abstract queues -/

/-- The task with number `m`. -/
def taskOf (n : Broker κ T O ε) (m : Nat) : Option (Msg κ T) :=
  match n.msgs[m]? with
  | some ⟨.bus, .task t⟩ => some t
  | _ => none

/-- The result for job `j` with number `m`. -/
def resOf (n : Broker κ T O ε) (j : κ) (m : Nat) : Option (Except ε O) :=
  match n.msgs[m]? with
  | some ⟨.job j', .result r⟩ => if j' = j then some r else none
  | _ => none

/-- The message is acknowledged or rejected. -/
def Done (n : Broker κ T O ε) (m : Nat) : Prop := m ∈ n.acked ∨ m ∈ n.nacked

/-- Worker `w` has received message `m` and not settled it. -/
def Holds (s : St κ σ T O ε χ) (w m : Nat) : Prop := ∃ k c, s.ties.lookup (.worker w) = some k ∧ s.net.consumers[k]? = some c ∧ m ∈ c.held

/-- Delivery `n` is that of message `m` to worker `w`, and not settled. -/
def HeldAt (ids : List Nat) (dels : List (Del κ T)) (n w m : Nat) : Prop := ids[n]? = some m ∧ ∃ d, dels[n]? = some d ∧ d.fate = .held ∧ d.worker = w

theorem heldAt_answer {ids : List Nat} {dels : List (Del κ T)} {c n w m : Nat} : HeldAt ids (answer dels c) n w m ↔ HeldAt ids dels n w m := by
  unfold HeldAt answer
  rw [List.getElem?_modify]
  cases dels[n]? with
  | none => simp
  | some d => by_cases h : c = n <;> simp [h]

theorem heldAt_settle {ids : List Nat} {dels : List (Del κ T)} {c n w m : Nat} : HeldAt ids (settle dels c) n w m ↔ HeldAt ids dels n w m ∧ n ≠ c := by
  unfold HeldAt settle
  rw [List.getElem?_modify]
  cases dels[n]? with
  | none => simp
  | some d =>
    by_cases h : c = n
    · subst h
      simp only [if_true, Option.map_eq_map, Option.map_some, Option.some.injEq, exists_eq_left', ne_eq, not_true_eq_false, and_false, iff_false]
      rintro ⟨_, h, _⟩
      cases hf : d.fate <;> simp [hf, Fate.settle] at h
    · simp [h, Ne.symm h]

theorem heldAt_giveBack {ids : List Nat} {dels : List (Del κ T)} {c n w m : Nat} : HeldAt ids (giveBack dels c) n w m ↔ HeldAt ids dels n w m ∧ n ≠ c := by
  unfold HeldAt giveBack
  rw [List.getElem?_modify]
  cases dels[n]? with
  | none => simp
  | some d => by_cases h : c = n <;> simp [h, Ne.symm]

theorem heldAt_snoc {ids : List Nat} {dels : List (Del κ T)} (hl : ids.length = dels.length) {x v n w m : Nat} {t : Msg κ T} {b : Bool} :
    HeldAt (ids ++ [x]) (dels ++ [⟨v, t, .held, b⟩]) n w m ↔ HeldAt ids dels n w m ∨ (n = dels.length ∧ w = v ∧ m = x) := by
  unfold HeldAt
  rcases Nat.lt_trichotomy n dels.length with h | h | h
  · rw [List.getElem?_append_left (by omega), List.getElem?_append_left h]
    have : n ≠ dels.length := by omega
    simp [this]
  · subst h
    rw [List.getElem?_append_right (by omega), List.getElem?_append_right (by omega)]
    simp [hl]
    constructor
    · rintro ⟨rfl, rfl⟩; exact ⟨rfl, rfl⟩
    · rintro ⟨rfl, rfl⟩; exact ⟨rfl, rfl⟩
  · rw [List.getElem?_eq_none (by simp; omega), List.getElem?_eq_none (l := ids) (by omega)]
    simp; omega

theorem settle_msg (dels : List (Del κ T)) (n : Nat) (f : Del κ T → Del κ T) (hf : ∀ d, (f d).msg = d.msg) : (dels.modify n f).map (fun d => some d.msg) = dels.map fun d => some d.msg :=
  SystemMem.modify_map (fun d : Del κ T => some d.msg) f (fun d => by simp only [hf]) dels n

/-- Workers, queue and results of `System`, and those here. `ids`, `Q` and `R` are the numbers of the messages of the deliveries, in the queue, and in the result queues. -/
structure Rel (nt : Net κ) (s : St κ σ T O ε χ) (a : System.St κ σ T O ε χ) (ids Q : List Nat) (R : κ → List Nat) : Prop where
  lead : a.lead = s.lead
  worker : ∀ w, nt.wconn w ∉ s.net.closed → a.worker w = s.worker w
  queue : Q.map (taskOf s.net) = a.queue.map some
  dels : ids.map (taskOf s.net) = a.dels.map fun d => some d.msg
  results : ∀ j, (R j).map (resOf s.net j) = (a.results j).map some
  rmem : ∀ j m, m ∈ R j ↔ (resOf s.net j m).isSome ∧ ∀ k, s.ties.lookup (.job j) = some k → (m, k) ∉ s.net.yielded
  rnodup : ∀ j, (R j).Nodup
  live : ∀ m, (m ∈ Q ∨ ∃ n w, HeldAt ids a.dels n w m) ↔ (taskOf s.net m).isSome ∧ ¬ Done s.net m
  qnodup : Q.Nodup
  apart : ∀ m n w, m ∈ Q → ¬ HeldAt ids a.dels n w m
  uniq : ∀ m n n' w w', HeldAt ids a.dels n w m → HeldAt ids a.dels n' w' m → n = n'
  cur : ∀ w m, nt.wconn w ∉ s.net.closed → s.cur w = some m → ids[a.cur w]? = some m
  link : ∀ w m, nt.wconn w ∉ s.net.closed → Holds s w m → ∃ n, HeldAt ids a.dels n w m ∧ (s.cur w = some m → n = a.cur w)
  fate : ∀ w m n, nt.wconn w ∉ s.net.closed → HeldAt ids a.dels n w m → Holds s w m
  got : ∀ n w m, HeldAt ids a.dels n w m → ∃ k, s.ties.lookup (.worker w) = some k ∧ (m, k) ∈ s.net.yielded

theorem rel_init : Rel nt (init cl : St κ σ T O ε χ) (System.init cl) [] [] (fun _ => []) := by
  refine ⟨rfl, fun _ _ => rfl, rfl, rfl, fun _ => rfl, ?_, by simp, ?_, List.nodup_nil, by simp, ?_, ?_, ?_, ?_, ?_⟩ <;>
    simp [init, Amqp.init, resOf, taskOf, HeldAt, Holds]

variable {s s' : St κ σ T O ε χ} {a : System.St κ σ T O ε χ} {ids Q : List Nat} {R : κ → List Nat}

theorem Rel.len (h : Rel nt s a ids Q R) : ids.length = a.dels.length := by
  have := congrArg List.length h.dels
  simpa using this

/-- Nothing happens that `System` sees, but for the state of workers. -/
theorem Rel.frame (h : Rel nt s a ids Q R) (hl : s'.lead = s.lead) (hm : s'.net.msgs = s.net.msgs) (hd : ∀ m, (taskOf s.net m).isSome → (Done s'.net m ↔ Done s.net m))
    (ho : ∀ x ∈ s.net.closed, x ∈ s'.net.closed) (hh : ∀ w m, nt.wconn w ∉ s'.net.closed → (Holds s' w m ↔ Holds s w m))
    (hy : ∀ j m, (∀ k, s'.ties.lookup (.job j) = some k → (m, k) ∉ s'.net.yielded) ↔ ∀ k, s.ties.lookup (.job j) = some k → (m, k) ∉ s.net.yielded)
    (hg : ∀ w k, s.ties.lookup (.worker w) = some k → s'.ties.lookup (.worker w) = some k) (hg' : ∀ x ∈ s.net.yielded, x ∈ s'.net.yielded)
    (hc : ∀ w, nt.wconn w ∉ s'.net.closed → s'.cur w = s.cur w) (W : Nat → Worker.St κ O χ) (hw : ∀ w, nt.wconn w ∉ s'.net.closed → W w = s'.worker w) :
    Rel nt s' { a with worker := W } ids Q R := by
  have ht : taskOf s'.net = taskOf s.net := by funext m; simp only [taskOf, hm]
  have hr : resOf s'.net = resOf s.net := by funext j m; simp only [resOf, hm]
  have ho' : ∀ w, nt.wconn w ∉ s'.net.closed → nt.wconn w ∉ s.net.closed := fun w hw hx => hw (ho _ hx)
  refine ⟨h.lead.trans hl.symm, hw, by rw [ht]; exact h.queue, by rw [ht]; exact h.dels, fun j => by rw [hr]; exact h.results j, ?_, h.rnodup, ?_, h.qnodup, h.apart, h.uniq, ?_, ?_, ?_, ?_⟩
  · intro j m; rw [hr, hy]; exact h.rmem j m
  · intro m
    rw [ht, h.live m]
    constructor
    · rintro ⟨h1, h2⟩; exact ⟨h1, fun hx => h2 ((hd m h1).1 hx)⟩
    · rintro ⟨h1, h2⟩; exact ⟨h1, fun hx => h2 ((hd m h1).2 hx)⟩
  · intro w m hw hcu; rw [hc w hw] at hcu; exact h.cur w m (ho' w hw) hcu
  · intro w m hw hx; rw [hc w hw]; exact h.link w m (ho' w hw) ((hh w m hw).1 hx)
  · intro w m n hw hx; exact (hh w m hw).2 (h.fate w m n (ho' w hw) hx)
  · intro n w m hx
    obtain ⟨k, h1, h2⟩ := h.got n w m hx
    exact ⟨k, hg w k h1, hg' _ h2⟩

theorem taskOf_lt {n : Broker κ T O ε} {m : Nat} (h : (taskOf n m).isSome) : m < n.msgs.length := by
  unfold taskOf at h
  split at h
  · rename_i hm; rw [List.getElem?_eq_some_iff] at hm; exact hm.1
  · simp at h

theorem resOf_lt {n : Broker κ T O ε} {j : κ} {m : Nat} (h : (resOf n j m).isSome) : m < n.msgs.length := by
  unfold resOf at h
  split at h
  · rename_i hm; rw [List.getElem?_eq_some_iff] at hm; exact hm.1
  · simp at h

theorem done_lt {pf : Nat} {n : Broker κ T O ε} (hs : Amqp.Sound (V := Payload κ T O ε) some pf n) {m : Nat} (h : Done n m) : m < n.msgs.length := by
  refine Decidable.byContradiction fun hc => ?_
  have h2 := hs.inv.data.count m
  rw [if_neg hc] at h2
  rcases h with h | h <;> (have := List.count_pos_iff.2 h; omega)

theorem yielded_lt {pf : Nat} {n : Broker κ T O ε} (hs : Amqp.Sound (V := Payload κ T O ε) some pf n) {m k : Nat} (h : (m, k) ∈ n.yielded) : m < n.msgs.length := by
  obtain ⟨g, v, h1, -⟩ := hs.inv.client.good m k h
  rw [List.getElem?_eq_some_iff] at h1
  exact h1.1

theorem map_at {α β : Type} {f : α → Option β} {l : List α} {r : List β} (h : l.map f = r.map some) {i : Nat} {m : α} (hi : l[i]? = some m) : ∃ t, f m = some t ∧ r[i]? = some t := by
  have := congrArg (fun x => x[i]?) h
  simp only [List.getElem?_map, hi, Option.map_some] at this
  cases hr : r[i]? with
  | none => simp [hr] at this
  | some t => exact ⟨t, by simpa [hr] using this, rfl⟩

/-- Tasks are published. -/
theorem Rel.tasks {pf : Nat} (hs : Amqp.Sound (V := Payload κ T O ε) some pf s.net) (h : Rel nt s a ids Q R) {j : κ} {ts : List T} {n : Broker κ T O ε}
    (hp : Amqp.Posts .bus (ts.map fun t => .task ⟨j, t⟩) s.net n) :
    Rel nt { s with net := n } { a with queue := a.queue ++ ts.map fun t => ⟨j, t⟩ } ids (Q ++ List.range' s.net.msgs.length ts.length) R := by
  have hold : ∀ m, m < s.net.msgs.length → n.msgs[m]? = s.net.msgs[m]? := fun m hm => by rw [hp.msgs, List.getElem?_append_left hm]
  have ht : ∀ m, m < s.net.msgs.length → taskOf n m = taskOf s.net m := fun m hm => by simp only [taskOf, hold m hm]
  have hr : ∀ j m, m < s.net.msgs.length → resOf n j m = resOf s.net j m := fun j m hm => by simp only [resOf, hold m hm]
  have hnew : ∀ i, taskOf n (s.net.msgs.length + i) = (ts[i]?).map fun t => ⟨j, t⟩ := by
    intro i
    unfold taskOf
    rw [hp.msgs, List.getElem?_append_right (by omega)]
    simp only [Nat.add_sub_cancel_left, List.getElem?_map, Option.map_map]
    cases ts[i]? <;> rfl
  have hnor : ∀ j' m, s.net.msgs.length ≤ m → resOf n j' m = none := by
    intro j' m hm
    unfold resOf
    rw [hp.msgs, List.getElem?_append_right hm]
    simp only [List.getElem?_map, Option.map_map]
    cases ts[m - s.net.msgs.length]? <;> rfl
  have hrange : (List.range' s.net.msgs.length ts.length).map (taskOf n) = (ts.map fun t => (⟨j, t⟩ : Msg κ T)).map some := by
    apply List.ext_getElem?
    intro i
    simp only [List.getElem?_map, Option.map_map]
    by_cases hi : i < ts.length
    · rw [List.getElem?_range' hi]
      simp only [Option.map_some, Nat.one_mul, hnew]
      cases hti : ts[i]? with
      | none => simp at hti; omega
      | some t => rfl
    · simp [List.getElem?_eq_none (by simp; omega : (List.range' s.net.msgs.length ts.length).length ≤ i), List.getElem?_eq_none (by omega : ts.length ≤ i)]
  have qlt : ∀ m ∈ Q, m < s.net.msgs.length := fun m hm => taskOf_lt ((h.live m).1 (.inl hm)).1
  have ilt : ∀ m ∈ ids, m < s.net.msgs.length := by
    intro m hm
    obtain ⟨i, hi⟩ := List.getElem?_of_mem hm
    have h1 := congrArg (fun x => x[i]?) h.dels
    simp only [List.getElem?_map, hi, Option.map_some] at h1
    cases hd : a.dels[i]? with
    | none => simp [hd] at h1
    | some d =>
      simp only [hd, Option.map_some, Option.some.injEq] at h1
      exact taskOf_lt (by rw [h1]; rfl)
  have hdone : ∀ m, Done n m ↔ Done s.net m := fun m => by simp only [Done, hp.acked, hp.nacked]
  have hholds : ∀ w m, Holds { s with net := n } w m ↔ Holds s w m := fun w m => by simp only [Holds, hp.consumers]
  refine ⟨h.lead, ?_, ?_, ?_, ?_, ?_, h.rnodup, ?_, ?_, ?_, h.uniq, ?_, ?_, ?_, by simp only [hp.yielded]; exact h.got⟩
  · intro w hw; rw [hp.closed] at hw; exact h.worker w hw
  · simp only [List.map_append]
    rw [hrange, ← h.queue]
    congr 1
    exact List.map_congr_left fun m hm => ht m (qlt m hm)
  · rw [← h.dels]; exact List.map_congr_left fun m hm => ht m (ilt m hm)
  · intro j'
    rw [← h.results j']
    exact List.map_congr_left fun m hm => hr j' m (resOf_lt ((h.rmem j' m).1 hm).1)
  · intro j' m
    simp only [hp.yielded]
    rw [h.rmem j' m]
    by_cases hm : m < s.net.msgs.length
    · rw [hr j' m hm]
    · have h1 : resOf s.net j' m = none := by
        cases hx : resOf s.net j' m with
        | none => rfl
        | some r => exact absurd (resOf_lt (by rw [hx]; rfl)) hm
      rw [hnor j' m (by omega), h1]
  · intro m
    have hl := h.live m
    simp only [hdone]
    simp only [List.mem_append, List.mem_range'_1]
    by_cases hm : m < s.net.msgs.length
    · rw [ht m hm, ← hl]
      constructor
      · rintro ((h1 | h1) | h1)
        · exact .inl h1
        · omega
        · exact .inr h1
      · rintro (h1 | h1)
        · exact .inl (.inl h1)
        · exact .inr h1
    · have h1 : ¬ Done s.net m := fun hd => hm (done_lt hs hd)
      have h2 : taskOf s.net m = none := by
        cases hx : taskOf s.net m with
        | none => rfl
        | some r => exact absurd (taskOf_lt (by rw [hx]; rfl)) hm
      rw [h2] at hl
      simp only [Option.isSome_none, Bool.false_eq_true, false_and, iff_false, not_or] at hl
      obtain ⟨i, rfl⟩ := Nat.exists_eq_add_of_le (by omega : s.net.msgs.length ≤ m)
      rw [hnew]
      simp only [hl.1, false_or, h1, not_false_eq_true, and_true, Option.isSome_map]
      constructor
      · rintro (h3 | h3)
        · rw [List.getElem?_eq_getElem (by omega)]; rfl
        · exact absurd h3 hl.2
      · intro h3
        have : i < ts.length := by
          refine Decidable.byContradiction fun hc => ?_
          rw [List.getElem?_eq_none (by omega)] at h3; cases h3
        exact .inl (by omega)
  · refine List.nodup_append.2 ⟨h.qnodup, List.nodup_range', ?_⟩
    intro x hx y hy he
    have := qlt x hx
    rw [List.mem_range'_1] at hy
    omega
  · intro m x w hm hx
    rw [List.mem_append] at hm
    rcases hm with hm | hm
    · exact h.apart m x w hm hx
    · have := ilt m (List.mem_of_getElem? hx.1)
      rw [List.mem_range'_1] at hm
      omega
  · intro w m hw; rw [hp.closed] at hw; exact h.cur w m hw
  · intro w m hw hx; rw [hp.closed] at hw; exact h.link w m hw ((hholds w m).1 hx)
  · intro w m x hw hx; rw [hp.closed] at hw; exact (hholds w m).2 (h.fate w m x hw hx)

/-- A result is published. -/
theorem Rel.result {pf : Nat} (hs : Amqp.Sound (V := Payload κ T O ε) some pf s.net) (h : Rel nt s a ids Q R) {j : κ} {r : Except ε O} {n : Broker κ T O ε} (c : Nat)
    (hp : Amqp.Posts (.job j) [.result r] s.net n) :
    Rel nt { s with net := n } { a with dels := answer a.dels c, results := Function.update a.results j (a.results j ++ [r]) } ids Q (Function.update R j (R j ++ [s.net.msgs.length])) := by
  have hold : ∀ m, m < s.net.msgs.length → n.msgs[m]? = s.net.msgs[m]? := fun m hm => by rw [hp.msgs, List.getElem?_append_left hm]
  have ht : ∀ m, taskOf n m = taskOf s.net m := by
    intro m
    by_cases hm : m < s.net.msgs.length
    · simp only [taskOf, hold m hm]
    · have h1 : taskOf s.net m = none := by
        cases hx : taskOf s.net m with
        | none => rfl
        | some r => exact absurd (taskOf_lt (by rw [hx]; rfl)) hm
      rw [h1]
      unfold taskOf
      rw [hp.msgs, List.getElem?_append_right (by omega)]
      cases hi : m - s.net.msgs.length <;> simp
  have hr : ∀ j m, m < s.net.msgs.length → resOf n j m = resOf s.net j m := fun j m hm => by simp only [resOf, hold m hm]
  have hnew : ∀ j', resOf n j' s.net.msgs.length = if j' = j then some r else none := by
    intro j'
    unfold resOf
    rw [hp.msgs]
    simp [eq_comm]
  have hnone : ∀ j' m, s.net.msgs.length < m → resOf n j' m = none := by
    intro j' m hm
    cases hx : resOf n j' m with
    | none => rfl
    | some r =>
      have := resOf_lt (by rw [hx]; rfl : (resOf n j' m).isSome)
      rw [hp.msgs] at this
      simp at this
      omega
  have hnone' : ∀ j' m, s.net.msgs.length ≤ m → resOf s.net j' m = none := by
    intro j' m hm
    cases hx : resOf s.net j' m with
    | none => rfl
    | some r => have := resOf_lt (by rw [hx]; rfl : (resOf s.net j' m).isSome); omega
  have ht' : taskOf n = taskOf s.net := funext ht
  have rlt : ∀ j' m, m ∈ R j' → m < s.net.msgs.length := fun j' m hm => resOf_lt ((h.rmem j' m).1 hm).1
  have hdone : ∀ m, Done n m ↔ Done s.net m := fun m => by simp only [Done, hp.acked, hp.nacked]
  have hholds : ∀ w m, Holds { s with net := n } w m ↔ Holds s w m := fun w m => by simp only [Holds, hp.consumers]
  refine ⟨h.lead, ?_, ?_, ?_, ?_, ?_, ?_, ?_, h.qnodup, ?_, ?_, ?_, ?_, ?_, by simp only [hp.yielded, heldAt_answer]; exact h.got⟩
  · intro w hw; rw [hp.closed] at hw; exact h.worker w hw
  · rw [ht']; exact h.queue
  · rw [ht', h.dels]; exact (settle_msg a.dels c (fun d => { d with answered := true }) fun _ => rfl).symm
  · intro j'
    by_cases hj : j' = j
    · subst hj
      simp only [Function.update_self, List.map_append]
      rw [← h.results j']
      have h1 : (R j').map (resOf n j') = (R j').map (resOf s.net j') := List.map_congr_left fun m hm => hr j' m (rlt j' m hm)
      rw [h1]
      simp [hnew]
    · simp only [Function.update_of_ne hj]
      rw [← h.results j']
      exact List.map_congr_left fun m hm => hr j' m (rlt j' m hm)
  · intro j' m
    simp only [hp.yielded]
    have h0 := h.rmem j' m
    by_cases hj : j' = j
    · subst hj
      simp only [Function.update_self, List.mem_append, List.mem_singleton]
      rcases Nat.lt_trichotomy m s.net.msgs.length with hm | hm | hm
      · rw [hr j' m hm, ← h0]
        constructor
        · rintro (h1 | h1)
          · exact h1
          · omega
        · exact .inl
      · subst hm
        rw [hnew, if_pos rfl]
        simp only [or_true, Option.isSome_some, true_and, true_iff]
        intro k _ hy
        have := yielded_lt hs hy
        omega
      · rw [hnone j' m hm]
        simp only [Option.isSome_none, Bool.false_eq_true, false_and, iff_false, not_or]
        exact ⟨fun hx => by have := rlt j' m hx; omega, by omega⟩
    · simp only [Function.update_of_ne hj]
      rcases Nat.lt_trichotomy m s.net.msgs.length with hm | hm | hm
      · rw [hr j' m hm]; exact h0
      · subst hm
        rw [hnew, if_neg hj]
        rw [hnone' j' _ (Nat.le_refl _)] at h0
        exact h0
      · rw [hnone j' m hm]
        rw [hnone' j' m (by omega)] at h0
        exact h0
  · intro j'
    by_cases hj : j' = j
    · subst hj
      simp only [Function.update_self]
      refine List.nodup_append.2 ⟨h.rnodup j', by simp, ?_⟩
      intro x hx y hy he
      have := rlt j' x hx
      simp at hy
      omega
    · simp only [Function.update_of_ne hj]; exact h.rnodup j'
  · intro m
    rw [ht']
    simp only [hdone, heldAt_answer]
    exact h.live m
  · intro m x w hm; rw [heldAt_answer]; exact h.apart m x w hm
  · intro m x x' w w'; simp only [heldAt_answer]; exact h.uniq m x x' w w'
  · intro w m hw; rw [hp.closed] at hw; exact h.cur w m hw
  · intro w m hw hx; rw [hp.closed] at hw; simp only [heldAt_answer]; exact h.link w m hw ((hholds w m).1 hx)
  · intro w m x hw hx; rw [hp.closed] at hw; rw [heldAt_answer] at hx; exact (hholds w m).2 (h.fate w m x hw hx)

theorem held_erase {pf : Nat} {n : Broker κ T O ε} (hs : Amqp.Sound (V := Payload κ T O ε) some pf n) {k m : Nat} {c : Amqp.Consumer} (hc : n.consumers[k]? = some c) (ho : c.conn ∉ n.closed)
    (hm : m ∈ c.held) {x : Nat} : x ∈ c.held.erase m ↔ x ∈ c.held ∧ x ≠ m := by
  have h1 := hs.inv.client.agree k c hc ho
  have m1 : m ∈ c.unacked := h1.mem_iff.2 (by simp [hm])
  have h3 := (hs.inv.data.unacked_only hc m1).2.2.1
  have h4 := h1.count_eq m
  have h5 := List.count_pos_iff.2 hm
  simp only [List.count_append] at h4
  by_cases hx : x = m
  · subst hx
    have : (c.held.erase x).count x = 0 := by rw [List.count_erase_self]; omega
    rw [List.count_eq_zero] at this
    simp [this]
  · simp [List.mem_erase_of_ne hx, hx]

/-- A worker settles its message. -/
theorem Rel.settles (hw : Wired nt s) (h : Rel nt s a ids Q R) {w k m : Nat} {n : Broker κ T O ε} (ho : nt.wconn w ∉ s.net.closed) (hk : s.ties.lookup (.worker w) = some k) (hcu : s.cur w = some m)
    (hst : Settles k m s.net n) : Rel nt { s with net := n } { a with dels := settle a.dels (a.cur w) } ids Q R := by
  obtain ⟨c, h1, h2, h3, h4⟩ := hst.ex
  have ht : taskOf n = taskOf s.net := by funext m; simp only [taskOf, hst.msgs]
  have hr : resOf n = resOf s.net := by funext j m; simp only [resOf, hst.msgs]
  have hh : Holds s w m := ⟨k, c, hk, h1, h2⟩
  obtain ⟨x, hx, hxc⟩ := h.link w m ho hh
  have hxc := hxc hcu
  subst hxc
  have hholds : ∀ w' m', nt.wconn w' ∉ s.net.closed → (Holds { s with net := n } w' m' ↔ Holds s w' m' ∧ m' ≠ m) := by
    intro w' m' ho'
    constructor
    · rintro ⟨k', c', hk', hc', hm'⟩
      simp only [h4] at hc'
      rcases Amqp.getElem?_set' hc' with ⟨rfl, rfl⟩ | ⟨hne, hc2⟩
      · have := (held_erase hw.sound h1 h3 h2).1 hm'
        exact ⟨⟨k, c, hk', h1, this.1⟩, this.2⟩
      · refine ⟨⟨k', c', hk', hc2, hm'⟩, ?_⟩
        intro he; subst he
        obtain ⟨x', hx', -⟩ := h.link w' m' ho' ⟨k', c', hk', hc2, hm'⟩
        have := h.uniq _ _ _ _ _ hx hx'
        subst this
        obtain ⟨_, d, hd, _, hd1⟩ := hx
        obtain ⟨_, d', hd', _, hd2⟩ := hx'
        rw [hd] at hd'; cases hd'
        rw [← hd1, hd2, hk'] at hk
        exact hne (by cases hk; rfl)
    · rintro ⟨⟨k', c', hk', hc', hm'⟩, hne⟩
      by_cases hkk : k' = k
      · subst hkk
        rw [h1] at hc'; cases hc'
        refine ⟨k', { c with held := c.held.erase m, unacked := c.unacked.erase m }, hk', ?_, (held_erase hw.sound h1 h3 h2).2 ⟨hm', hne⟩⟩
        simp only [h4]
        rw [List.getElem?_set_self (by rw [List.getElem?_eq_some_iff] at h1; exact h1.1)]
      · refine ⟨k', c', hk', ?_, hm'⟩
        simp only [h4]
        rw [List.getElem?_set_ne (Ne.symm hkk)]
        exact hc'
  refine ⟨h.lead, ?_, by rw [ht]; exact h.queue, ?_, fun j => by rw [hr]; exact h.results j, ?_, h.rnodup, ?_, h.qnodup, ?_, ?_, ?_, ?_, ?_,
    fun n w m hx => by simp only [hst.yielded]; exact h.got n w m (heldAt_settle.1 hx).1⟩
  · intro w hw; rw [hst.closed] at hw; exact h.worker w hw
  · rw [ht, h.dels]; exact (settle_msg a.dels (a.cur w) (fun d => { d with fate := d.fate.settle }) fun _ => rfl).symm
  · intro j m'; simp only [hr, hst.yielded]; exact h.rmem j m'
  · intro m'
    rw [ht]
    simp only [heldAt_settle]
    have hd : Done n m' ↔ m' = m ∨ Done s.net m' := hst.done m'
    rw [hd]
    have hl := h.live m'
    by_cases hm : m' = m
    · subst hm
      simp only [true_or, not_true_eq_false, and_false, iff_false]
      rintro (h5 | ⟨n', w', h5, h6⟩)
      · exact h.apart _ _ _ h5 hx
      · exact h6 (h.uniq _ _ _ _ _ h5 hx)
    · simp only [hm, false_or]
      rw [← hl]
      constructor
      · rintro (h5 | ⟨n', w', h5, h6⟩)
        · exact .inl h5
        · exact .inr ⟨n', w', h5⟩
      · rintro (h5 | ⟨n', w', h5⟩)
        · exact .inl h5
        · refine .inr ⟨n', w', h5, ?_⟩
          rintro rfl
          have := h5.1.symm.trans hx.1
          exact hm (by cases this; rfl)
  · intro m' n' w' hm' hx'; rw [heldAt_settle] at hx'; exact h.apart m' n' w' hm' hx'.1
  · intro m' n1 n2 w1 w2 ha hb; rw [heldAt_settle] at ha hb; exact h.uniq m' n1 n2 w1 w2 ha.1 hb.1
  · intro w' m' hw'; rw [hst.closed] at hw'; exact h.cur w' m' hw'
  · intro w' m' hw' hx'
    rw [hst.closed] at hw'
    obtain ⟨h5, h6⟩ := (hholds w' m' hw').1 hx'
    obtain ⟨n', h7, h8⟩ := h.link w' m' hw' h5
    refine ⟨n', heldAt_settle.2 ⟨h7, ?_⟩, h8⟩
    rintro rfl
    have := h7.1.symm.trans hx.1
    exact h6 (by cases this; rfl)
  · intro w' m' n' hw' hx'
    rw [hst.closed] at hw'
    rw [heldAt_settle] at hx'
    refine (hholds w' m' hw').2 ⟨h.fate w' m' n' hw' hx'.1, ?_⟩
    rintro rfl
    exact hx'.2 (h.uniq _ _ _ _ _ hx'.1 hx)

/-- A delivery to a worker whose connection is closed goes back to the queue. -/
theorem Rel.back (h : Rel nt s a ids Q R) {n w m : Nat} (hx : HeldAt ids a.dels n w m) (hc : nt.wconn w ∈ s.net.closed) {t : Msg κ T} (ht : taskOf s.net m = some t) :
    Rel nt s { a with dels := giveBack a.dels n, queue := t :: a.queue } ids (m :: Q) R := by
  refine ⟨h.lead, h.worker, ?_, ?_, h.results, h.rmem, h.rnodup, ?_, ?_, ?_, ?_, h.cur, ?_, ?_, fun n w m hx => h.got n w m (heldAt_giveBack.1 hx).1⟩
  · simp only [List.map_cons, ht, h.queue]
  · rw [h.dels]; exact (settle_msg a.dels n (fun d => { d with fate := .returned }) fun _ => rfl).symm
  · intro m'
    simp only [heldAt_giveBack]
    rw [← h.live m']
    constructor
    · rintro (h5 | ⟨n', w', h5, h6⟩)
      · rcases List.mem_cons.1 h5 with rfl | h5
        · exact .inr ⟨n, w, hx⟩
        · exact .inl h5
      · exact .inr ⟨n', w', h5⟩
    · rintro (h5 | ⟨n', w', h5⟩)
      · exact .inl (List.mem_cons_of_mem _ h5)
      · by_cases hn : n' = n
        · subst hn
          have := h5.1.symm.trans hx.1
          cases this
          exact .inl (List.mem_cons_self ..)
        · exact .inr ⟨n', w', h5, hn⟩
  · exact List.nodup_cons.2 ⟨fun hm => h.apart _ _ _ hm hx, h.qnodup⟩
  · intro m' n' w' hm' hx'
    rw [heldAt_giveBack] at hx'
    rcases List.mem_cons.1 hm' with rfl | hm'
    · exact hx'.2 (h.uniq _ _ _ _ _ hx'.1 hx)
    · exact h.apart _ _ _ hm' hx'.1
  · intro m' n1 n2 w1 w2 ha hb; rw [heldAt_giveBack] at ha hb; exact h.uniq m' n1 n2 w1 w2 ha.1 hb.1
  · intro w' m' hw' hx'
    obtain ⟨n', h7, h8⟩ := h.link w' m' hw' hx'
    refine ⟨n', heldAt_giveBack.2 ⟨h7, ?_⟩, h8⟩
    rintro rfl
    obtain ⟨_, d, hd, _, hd1⟩ := hx
    obtain ⟨_, d', hd', _, hd2⟩ := h7
    rw [hd] at hd'; cases hd'
    rw [← hd2, hd1] at hw'
    exact hw' hc
  · intro w' m' n' hw' hx'
    rw [heldAt_giveBack] at hx'
    exact h.fate w' m' n' hw' hx'.1

/-- Polling changes what one owner holds. -/
theorem holds_poll (hw : Wired nt s) {o : Owner κ} {k m : Nat} {c c' : Amqp.Consumer} {n : Broker κ T O ε} (hk : s.ties.lookup o = some k) (hc : s.net.consumers[k]? = some c)
    (hh : c'.held = c.held ++ [m]) (hn : n.consumers = s.net.consumers.set k c') (w x : Nat) : Holds { s with net := n } w x ↔ Holds s w x ∨ (o = .worker w ∧ x = m) := by
  constructor
  · rintro ⟨k', d, hk', hd, hx⟩
    simp only [hn] at hd
    rcases Amqp.getElem?_set' hd with ⟨rfl, rfl⟩ | ⟨hne, hd⟩
    · rw [hh, List.mem_append, List.mem_singleton] at hx
      rcases hx with hx | hx
      · exact .inl ⟨_, c, hk', hc, hx⟩
      · exact .inr ⟨hw.inj _ _ _ hk hk', hx⟩
    · exact .inl ⟨k', d, hk', hd, hx⟩
  · have hs : (s.net.consumers.set k c')[k]? = some c' := List.getElem?_set_self (by rw [List.getElem?_eq_some_iff] at hc; exact hc.1)
    rintro (⟨k', d, hk', hd, hx⟩ | ⟨rfl, rfl⟩)
    · by_cases hkk : k' = k
      · subst hkk
        rw [hc] at hd; cases hd
        exact ⟨k', c', hk', by simp only [hn]; exact hs, by rw [hh]; simp [hx]⟩
      · exact ⟨k', d, hk', by simp only [hn]; rw [List.getElem?_set_ne (Ne.symm hkk)]; exact hd, hx⟩
    · exact ⟨k, c', hk, by simp only [hn]; exact hs, by rw [hh]; simp⟩

/-- A worker receives a message of the queue. -/
theorem Rel.deliver (hw : Wired nt s) (h : Rel nt s a ids Q R) {w k m i : Nat} {c : Amqp.Consumer} {rest : List Nat} {n : Broker κ T O ε} {t : Msg κ T} (ho : nt.wconn w ∉ s.net.closed)
    (hk : s.ties.lookup (.worker w) = some k) (hc : s.net.consumers[k]? = some c) (hb : c.buffer = m :: rest) {c' : Amqp.Consumer} (hh : c'.held = c.held ++ [m])
    (hn : n = { s.net with consumers := s.net.consumers.set k c', yielded := s.net.yielded ++ [(m, k)] }) (hi : Q[i]? = some m) (ht : taskOf s.net m = some t) (v : Worker.St κ O χ) (z : Owner κ → Bool) :
    Rel nt { s with worker := Function.update s.worker w v, cur := Function.update s.cur w (some m), net := n, asleep := z }
      { a with queue := a.queue.eraseIdx i, dels := a.dels ++ [⟨w, t, .held, false⟩], worker := Function.update a.worker w v, cur := Function.update a.cur w a.dels.length }
      (ids ++ [m]) (Q.eraseIdx i) R := by
  have hmQ : m ∈ Q := List.mem_of_getElem? hi
  have hq : ∀ x, x ∈ Q.eraseIdx i ↔ x ∈ Q ∧ x ≠ m := by
    intro x
    have he : Q.eraseIdx i = Q.erase m := by
      rw [List.getElem?_eq_some_iff] at hi
      obtain ⟨hlt, rfl⟩ := hi
      exact (h.qnodup.erase_getElem i hlt).symm
    rw [he, h.qnodup.mem_erase_iff, and_comm]
  have hholds : ∀ w' x, Holds { s with worker := Function.update s.worker w v, cur := Function.update s.cur w (some m), net := n, asleep := z } w' x ↔ Holds s w' x ∨ (w = w' ∧ x = m) := by
    intro w' x
    have := holds_poll (n := n) hw hk hc hh (by rw [hn]) w' x
    rw [show ((Owner.worker w : Owner κ) = .worker w' ∧ x = m) ↔ (w = w' ∧ x = m) by simp] at this
    exact this
  have hcl : n.closed = s.net.closed := by rw [hn]
  have hnh : ∀ w', nt.wconn w' ∉ s.net.closed → ¬ Holds s w' m := by
    intro w' hw' hx
    obtain ⟨x, hx, -⟩ := h.link w' m hw' hx
    exact h.apart _ _ _ hmQ hx
  have hlen := h.len
  have htn : taskOf n = taskOf s.net := by funext x; simp only [taskOf, hn]
  have hrn : resOf n = resOf s.net := by funext j x; simp only [resOf, hn]
  refine ⟨h.lead, ?_, ?_, ?_, fun j => by rw [hrn]; exact h.results j, ?_, h.rnodup, ?_, h.qnodup.eraseIdx i, ?_, ?_, ?_, ?_, ?_, ?_⟩
  · intro w' hw'
    simp only [hcl] at hw'
    by_cases hww : w' = w
    · subst hww; simp
    · simp only [Function.update_of_ne hww]; exact h.worker w' hw'
  · rw [htn]
    simp only [← List.eraseIdx_map, h.queue]
  · rw [htn]
    simp only [List.map_append, h.dels, List.map_cons, List.map_nil, ht]
  · intro j x
    simp only [hrn, hn, List.mem_append, List.mem_singleton, Prod.mk.injEq, not_or]
    rw [h.rmem j x]
    refine and_congr_right fun _ => ⟨fun hx k' hk' => ⟨hx k' hk', ?_⟩, fun hx k' hk' => (hx k' hk').1⟩
    rintro ⟨rfl, rfl⟩
    exact absurd (hw.inj _ _ _ hk hk') (by simp)
  · intro x
    rw [htn]
    simp only [hn]
    have hd : Done { s.net with consumers := s.net.consumers.set k c', yielded := s.net.yielded ++ [(m, k)] } x ↔ Done s.net x := Iff.rfl
    rw [hd, ← h.live x]
    simp only [heldAt_snoc hlen, hq]
    constructor
    · rintro (h5 | ⟨n', w', h5 | ⟨h5, h6, h7⟩⟩)
      · exact .inl h5.1
      · exact .inr ⟨n', w', h5⟩
      · subst h7; exact .inl hmQ
    · rintro (h5 | ⟨n', w', h5⟩)
      · by_cases hx : x = m
        · exact .inr ⟨a.dels.length, w, .inr ⟨rfl, rfl, hx⟩⟩
        · exact .inl ⟨h5, hx⟩
      · exact .inr ⟨n', w', .inl h5⟩
  · intro x n' w' hx hx'
    rw [hq] at hx
    rw [heldAt_snoc hlen] at hx'
    rcases hx' with hx' | ⟨_, _, rfl⟩
    · exact h.apart _ _ _ hx.1 hx'
    · exact hx.2 rfl
  · intro x n1 n2 w1 w2 ha hb
    rw [heldAt_snoc hlen] at ha hb
    rcases ha with ha | ⟨rfl, rfl, rfl⟩ <;> rcases hb with hb | ⟨rfl, rfl, hb⟩
    · exact h.uniq x n1 n2 w1 w2 ha hb
    · subst hb; exact absurd ha (h.apart _ _ _ hmQ)
    · exact absurd hb (h.apart _ _ _ hmQ)
    · rfl
  · intro w' x hw' hcu
    simp only [hcl] at hw'
    by_cases hww : w' = w
    · subst hww
      simp only [Function.update_self, Option.some.injEq] at hcu
      subst hcu
      simp only [Function.update_self, ← hlen, List.getElem?_concat_length]
    · simp only [Function.update_of_ne hww] at hcu ⊢
      have := h.cur w' x hw' hcu
      rw [List.getElem?_append_left (by rw [List.getElem?_eq_some_iff] at this; exact this.1)]
      exact this
  · intro w' x hw' hx
    simp only [hcl] at hw'
    rw [hholds] at hx
    simp only [heldAt_snoc hlen]
    rcases hx with hx | ⟨rfl, rfl⟩
    · obtain ⟨n', h5, h6⟩ := h.link w' x hw' hx
      refine ⟨n', .inl h5, ?_⟩
      by_cases hww : w' = w
      · subst hww
        simp only [Function.update_self, Option.some.injEq]
        rintro rfl
        exact absurd hx (hnh w' hw')
      · simp only [Function.update_of_ne hww]; exact h6
    · exact ⟨a.dels.length, .inr ⟨rfl, rfl, rfl⟩, by simp⟩
  · intro w' x n' hw' hx
    simp only [hcl] at hw'
    rw [hholds]
    rw [heldAt_snoc hlen] at hx
    rcases hx with hx | ⟨_, rfl, rfl⟩
    · exact .inl (h.fate w' x n' hw' hx)
    · exact .inr ⟨rfl, rfl⟩
  · intro n' w' x hx
    rw [heldAt_snoc hlen] at hx
    simp only [hn]
    rcases hx with hx | ⟨_, rfl, rfl⟩
    · obtain ⟨k', h1, h2⟩ := h.got n' w' x hx
      exact ⟨k', h1, by simp [h2]⟩
    · exact ⟨k, hk, by simp⟩

/-- A leader receives a result. -/
theorem Rel.recv (hw : Wired nt s) (h : Rel nt s a ids Q R) {j : κ} {k m i : Nat} {c : Amqp.Consumer} {n : Broker κ T O ε} {x : σ j}
    (hk : s.ties.lookup (.job j) = some k) (hc : s.net.consumers[k]? = some c) {c' : Amqp.Consumer} (hh : c'.held = c.held ++ [m])
    (hn : n = { s.net with consumers := s.net.consumers.set k c', yielded := s.net.yielded ++ [(m, k)] }) (hi : (R j)[i]? = some m) (z : Owner κ → Bool) :
    Rel nt { s with lead := Function.update s.lead j x, net := n, asleep := z }
      { a with lead := Function.update a.lead j x, results := Function.update a.results j ((a.results j).eraseIdx i) } ids Q (Function.update R j ((R j).eraseIdx i)) := by
  have hholds : ∀ w' x', Holds { s with lead := Function.update s.lead j x, net := n, asleep := z } w' x' ↔ Holds s w' x' := by
    intro w' x'
    have := holds_poll (n := n) hw hk hc hh (by rw [hn]) w' x'
    rw [show ((Owner.job j : Owner κ) = .worker w' ∧ x' = m) ↔ False by simp, or_false] at this
    exact this
  have hcl : n.closed = s.net.closed := by rw [hn]
  have htn : taskOf n = taskOf s.net := by funext x; simp only [taskOf, hn]
  have hrn : resOf n = resOf s.net := by funext j x; simp only [resOf, hn]
  have hr : ∀ y, y ∈ (R j).eraseIdx i ↔ y ∈ R j ∧ y ≠ m := by
    intro y
    have he : (R j).eraseIdx i = (R j).erase m := by
      rw [List.getElem?_eq_some_iff] at hi
      obtain ⟨hlt, rfl⟩ := hi
      exact ((h.rnodup j).erase_getElem i hlt).symm
    rw [he, (h.rnodup j).mem_erase_iff, and_comm]
  refine ⟨by rw [h.lead], ?_, by rw [htn]; exact h.queue, by rw [htn]; exact h.dels, ?_, ?_, ?_, ?_, h.qnodup, h.apart, h.uniq, ?_, ?_, ?_, ?_⟩
  · intro w hw; simp only [hcl] at hw; exact h.worker w hw
  · intro j'
    rw [hrn]
    by_cases hj : j' = j
    · subst hj
      simp only [Function.update_self, ← List.eraseIdx_map, h.results]
    · simp only [Function.update_of_ne hj]; exact h.results j'
  · intro j' y
    simp only [hrn, hn, List.mem_append, List.mem_singleton, Prod.mk.injEq, not_or]
    by_cases hj : j' = j
    · subst hj
      simp only [Function.update_self, hr, h.rmem j' y, hk, Option.some.injEq, forall_eq']
      constructor
      · rintro ⟨⟨h1, h2⟩, h3⟩; exact ⟨h1, h2, fun h4 => h3 h4.1⟩
      · rintro ⟨h1, h2, h3⟩; exact ⟨⟨h1, h2⟩, fun h4 => h3 ⟨h4, trivial⟩⟩
    · simp only [Function.update_of_ne hj]
      rw [h.rmem j' y]
      refine and_congr_right fun _ => ⟨fun hx k' hk' => ⟨hx k' hk', ?_⟩, fun hx k' hk' => (hx k' hk').1⟩
      rintro ⟨rfl, rfl⟩
      have := hw.inj _ _ _ hk hk'
      simp only [Owner.job.injEq] at this
      exact hj this.symm
  · intro j'
    by_cases hj : j' = j
    · subst hj; simp only [Function.update_self]; exact (h.rnodup j').eraseIdx i
    · simp only [Function.update_of_ne hj]; exact h.rnodup j'
  · intro y
    rw [htn]
    simp only [hn]
    exact h.live y
  · intro w' y hw'; simp only [hcl] at hw'; exact h.cur w' y hw'
  · intro w' y hw' hx; simp only [hcl] at hw'; exact h.link w' y hw' ((hholds w' y).1 hx)
  · intro w' y n' hw' hx; simp only [hcl] at hw'; exact (hholds w' y).2 (h.fate w' y n' hw' hx)
  · intro n' w' y hx
    obtain ⟨k', h1, h2⟩ := h.got n' w' y hx
    exact ⟨k', h1, by simp only [hn]; simp [h2]⟩

/-- What was returned to the queue has been received again. -/
def Ret (n : Broker κ T O ε) (ids : List Nat) (dels : List (Del κ T)) : Prop := ∀ (i m : Nat) (d : Del κ T), ids[i]? = some m → dels[i]? = some d → d.fate = .returned → Redelivered n m

theorem Redelivered.mono {n n' : Broker κ T O ε} {m : Nat} (h : Redelivered n m) (hy : ∀ x ∈ n.yielded, x ∈ n'.yielded) : Redelivered n' m := by
  obtain ⟨k, k', h1, h2, h3⟩ := h
  exact ⟨k, k', h1, hy _ h2, hy _ h3⟩

theorem Ret.mono {n n' : Broker κ T O ε} {dels : List (Del κ T)} (h : Ret n ids dels) (hy : ∀ x ∈ n.yielded, x ∈ n'.yielded) : Ret n' ids dels :=
  fun i m d h1 h2 h3 => (h i m d h1 h2 h3).mono hy

theorem Ret.modify {n : Broker κ T O ε} {dels : List (Del κ T)} (h : Ret n ids dels) (f : Del κ T → Del κ T) (hf : ∀ d, (f d).fate = .returned → d.fate = .returned) (c : Nat) :
    Ret n ids (dels.modify c f) := by
  intro i m d h1 h2 h3
  rw [List.getElem?_modify] at h2
  cases hd : dels[i]? with
  | none => simp [hd] at h2
  | some d' =>
    by_cases hc : c = i
    · simp [hd, hc] at h2; subst h2; exact h i m d' h1 hd (hf _ h3)
    · simp [hd, hc] at h2; subst h2; exact h i m d' h1 hd h3

theorem Ret.back {n : Broker κ T O ε} {dels : List (Del κ T)} (h : Ret n ids dels) {c x : Nat} (hx : ids[c]? = some x) (hr : Redelivered n x) : Ret n ids (giveBack dels c) := by
  intro i m d h1 h2 h3
  by_cases hc : c = i
  · subst hc; rw [hx] at h1; cases h1; exact hr
  · unfold giveBack at h2
    rw [List.getElem?_modify] at h2
    cases hd : dels[i]? with
    | none => simp [hd] at h2
    | some d' => simp [hd, hc] at h2; subst h2; exact h i m d' h1 hd h3

theorem Ret.snoc {n : Broker κ T O ε} {dels : List (Del κ T)} (h : Ret n ids dels) (hl : ids.length = dels.length) (x : Nat) (d : Del κ T) (hd : d.fate = .held) : Ret n (ids ++ [x]) (dels ++ [d]) := by
  intro i m e h1 h2 h3
  rcases Nat.lt_or_ge i dels.length with hi | hi
  · rw [List.getElem?_append_left (by omega)] at h1
    rw [List.getElem?_append_left hi] at h2
    exact h i m e h1 h2 h3
  · rw [List.getElem?_append_right hi] at h2
    have : e = d := by
      have := List.mem_of_getElem? h2
      simpa using this
    subst this
    rw [hd] at h3; cases h3

/-! ## Simulation -/

/-- The steps `as` of `System` stand for step `l` here. -/
structure Acts (nt : Net κ) (any : (j : κ) → ℓ j → ℓ j) (n : Broker κ T O ε) (l : Label κ ℓ T O ε χ ω) (as : List (System.Label κ ℓ O χ ω)) : Prop where
  leads : ∀ j, (System.Label.leads j as).map (any j) = Label.leads j [l]
  requeues : ∀ x ∈ as, x.requeues = true → ∃ w, nt.wconn w ∈ n.closed
  steady : ∀ W, l.steady W = true → (∀ w, nt.wconn w ∉ n.closed) → ∀ x ∈ as, x.steady W = true
  finishes : ∀ w x, .finish w x ∈ as → l = .finish w x
  works : ∀ w x, l = .work w x → nt.wconn w ∉ n.closed → as = [.work w x]

theorem acts_nil {n : Broker κ T O ε} {l : Label κ ℓ T O ε χ ω} (h : ∀ j, Label.leads j [l] = []) (hw : ∀ w x, l = .work w x → nt.wconn w ∈ n.closed := by exact fun _ _ h => nomatch h) :
    Acts nt any n l ([] : List (System.Label κ ℓ O χ ω)) :=
  ⟨fun j => by rw [h j]; rfl, by simp, by simp, by simp, fun w x hl ho => absurd (hw w x hl) ho⟩

theorem acts_lead {n : Broker κ T O ε} {j : κ} {l l' : ℓ j} (h : any j l' = l) : Acts nt any n (.lead j l : Label κ ℓ T O ε χ ω) [.lead j l'] := by
  refine ⟨fun j' => ?_, by simp [System.Label.requeues], by simp [System.Label.steady], by simp, nofun⟩
  simp only [System.Label.leads, Label.leads]
  by_cases hj : j = j'
  · subst hj; simp [h]
  · simp [hj]

theorem acts_recv {n : Broker κ T O ε} {j : κ} {l l' : ℓ j} (h : any j l' = l) : Acts nt any n (.recv j l : Label κ ℓ T O ε χ ω) [.lead j l'] := by
  refine ⟨fun j' => ?_, by simp [System.Label.requeues], by simp [System.Label.steady], by simp, nofun⟩
  simp only [System.Label.leads, Label.leads]
  by_cases hj : j = j'
  · subst hj; simp [h]
  · simp [hj]

theorem Rel.setLead (h : Rel nt s a ids Q R) {j : κ} (x : σ j) : Rel nt { s with lead := Function.update s.lead j x } { a with lead := Function.update a.lead j x } ids Q R :=
  ⟨by rw [h.lead], h.worker, h.queue, h.dels, h.results, h.rmem, h.rnodup, h.live, h.qnodup, h.apart, h.uniq, h.cur, h.link, h.fate, h.got⟩

/-- Holding depends on consumers' messages only. -/
theorem holds_quiet {w m : Nat} (ht : s'.ties = s.ties) (hq : Amqp.Quiet s.net s'.net) (hw : Wired nt s) : Holds s' w m ↔ Holds s w m := by
  unfold Holds
  rw [ht]
  constructor
  · rintro ⟨k, c, h1, h2, h3⟩
    rcases hq.bwd k c h2 with ⟨c', h4, h5⟩ | h4
    · exact ⟨k, c', h1, h4, by rw [h5]; exact h3⟩
    · rw [h4] at h3; cases h3
  · rintro ⟨k, c, h1, h2, h3⟩
    obtain ⟨c', h4, h5⟩ := hq.fwd k c h2
    exact ⟨k, c', h1, h4, by rw [h5]; exact h3⟩

theorem Rel.quiet (hw : Wired nt s) (h : Rel nt s a ids Q R) (hl : s'.lead = s.lead) (hwk : s'.worker = s.worker) (hcu : s'.cur = s.cur) (ht : s'.ties = s.ties) (hq : Amqp.Quiet s.net s'.net) :
    Rel nt s' a ids Q R := by
  refine h.frame hl hq.msgs (fun m _ => ?_) hq.closed (fun w m _ => holds_quiet ht hq hw) (fun j m => ?_) (fun w k hk => by rw [ht]; exact hk) (fun x hx => by rw [hq.yielded]; exact hx)
    (fun w _ => by rw [hcu]) a.worker fun w hw => ?_
  · unfold Done; rw [hq.acked, hq.nacked]
  · rw [ht, hq.yielded]
  · rw [hwk]; exact h.worker w fun hx => hw (hq.closed _ hx)

theorem sim_step (hc : ∀ j, Indexed (cl j) (any j)) {l : Label κ ℓ T O ε χ ω} (hw : Wired nt s) (h : Rel nt s a ids Q R) (hret : Ret s.net ids a.dels)
    (hs : step cl listens nt cfg exec text s l = some s') :
    ∃ as a' ids' Q' R', System.run cl cfg exec text a as = some a' ∧ Rel nt s' a' ids' Q' R' ∧ Ret s'.net ids' a'.dels ∧ Acts nt any s.net l as := by
  have hs0 := hs
  cases l with
  | lead j l =>
    simp only [step] at hs
    split at hs
    · rename_i x ts rs hst
      split at hs <;> simp only [Option.some.injEq, reduceCtorEq] at hs
      rename_i n hn
      subst hs
      have hp := publishAll_posts hn
      have hr := (h.setLead x).tasks (pf := nt.prefetch) (s := { s with lead := Function.update s.lead j x }) hw.sound hp
      refine ⟨[.lead j l], _, _, _, _, Lts.run_one.2 ?_, hr, hret.mono fun x hx => by rw [hp.yielded]; exact hx, acts_lead ((hc j).fix0 hst)⟩
      obtain ⟨rfl, hz⟩ := (hc j).lcl.none hst
      simp only [System.step, h.lead, hz, Function.update_eq_self]
    · cases hs
  | recv j l =>
    simp only [step] at hs
    split at hs
    · rename_i m r n hnx
      split at hs
      · rename_i x ts hst
        split at hs <;> simp only [Option.some.injEq, reduceCtorEq] at hs
        rename_i n' hn
        subst hs
        obtain ⟨k, c, g, rest, h1, h2, h3, h4, h5, h6, h7, h8⟩ := next_spec hnx
        have hp := publishAll_posts hn
        obtain ⟨c0, q, hc0, hconn, hq, hname⟩ := hw.tie _ _ h1
        rw [h2] at hc0; cases hc0
        obtain ⟨g', hg', hgn⟩ := hw.sound.name_of h2 hq (.inl (by rw [h3]; simp) : m ∈ c.buffer ∨ _)
        rw [h4] at hg'; cases hg'
        have hres : resOf s.net j m = some r := by
          obtain ⟨gn, gb⟩ := g
          simp only at h5 hgn
          rw [hname] at hgn
          subst h5 hgn
          simp [resOf, h4, Owner.queue]
        have hmem : m ∈ R j := (h.rmem j m).2 ⟨by rw [hres]; rfl, fun k' hk' => by
          rw [h1] at hk'; cases hk'; exact hw.sound.buffer_new h2 (by rw [h3]; simp)⟩
        obtain ⟨i, hi⟩ := List.getElem?_of_mem hmem
        obtain ⟨r', hr', hri⟩ := map_at (h.results j) hi
        rw [hres] at hr'; cases hr'
        obtain ⟨-, hmv⟩ := (hc j).move hst
        obtain ⟨l', hl', hst'⟩ := hmv hri
        have hrel := h.recv hw (x := x) h1 h2 (by rfl) h8 hi (Function.update s.asleep (.job j) false)
        have hsn := Amqp.sound_step hw.sound h7
        refine ⟨[.lead j l'], _, _, _, _, Lts.run_one.2 ?_, hrel.tasks hsn hp, (hret.mono fun x hx => by rw [hp.yielded, h8]; simp [hx]), acts_recv hl'⟩
        simp only [System.step, h.lead, hst']
      · cases hs
    · cases hs
  | sleep o =>
    simp only [step] at hs
    split at hs
    · rename_i k c hco
      obtain ⟨h1, h2⟩ := consumer_spec.1 hco
      split at hs
      · rename_i hcond
        simp only [Option.map_eq_some_iff] at hs
        obtain ⟨n, hn, rfl⟩ := hs
        simp only [Bool.and_eq_true, List.isEmpty_iff] at hcond
        have hq := (Amqp.quiet_step hw.nopub (by simp) (by
          intro k' c' he hc'
          injection he with he
          subst he
          rw [h2] at hc'; cases hc'
          exact hcond.2) (by simp) (by simp) hn).1
        exact ⟨[], a, ids, Q, R, rfl, h.quiet hw rfl rfl rfl rfl hq, hret.mono fun x hx => by rw [hq.yielded]; exact hx, acts_nil fun _ => rfl⟩
      · cases hs
    · cases hs
  | ackRes j =>
    simp only [step] at hs
    split at hs
    · rename_i k c hco
      obtain ⟨h1, h2⟩ := consumer_spec.1 hco
      split at hs
      · cases hs
      · rename_i m rest hheld
        simp only [Option.map_eq_some_iff] at hs
        obtain ⟨n, hn, rfl⟩ := hs
        have hst := settles_ack hn
        obtain ⟨c1, g1, g2, g3, g4⟩ := hst.ex
        rw [h2] at g1; cases g1
        obtain ⟨c0, q, hc0, hconn, hq, hname⟩ := hw.tie _ _ h1
        rw [h2] at hc0; cases hc0
        obtain ⟨g', hg', hgn⟩ := hw.sound.name_of h2 hq (.inr ⟨g3, g2⟩ : m ∈ c.buffer ∨ _)
        have hnt : taskOf s.net m = none := by
          obtain ⟨gn, gb⟩ := g'
          simp only at hgn
          rw [hname] at hgn
          subst hgn
          simp [taskOf, hg', Owner.queue]
        refine ⟨[], a, ids, Q, R, rfl, ?_, hret.mono fun x hx => by simp only [hst.yielded]; exact hx, acts_nil fun _ => rfl⟩
        refine h.frame (s' := { s with net := n }) rfl hst.msgs (fun m' hm' => ?_) (fun x hx => by simp only [hst.closed]; exact hx) (fun w m' _ => ?_) (fun j m => by simp only [hst.yielded])
          (fun w k hk => hk) (fun x hx => by simp only [hst.yielded]; exact hx) (fun _ _ => rfl) a.worker fun w hw => h.worker w (by simpa only [hst.closed] using hw)
        · have := hst.done m'
          unfold Done
          rw [this]
          constructor
          · rintro (rfl | hd)
            · simp [hnt] at hm'
            · exact hd
          · exact .inr
        · have hne : ∀ k', s.ties.lookup (.worker w) = some k' → k' ≠ k := by
            rintro k' hk' rfl
            exact absurd (hw.inj _ _ _ h1 hk') (by simp)
          unfold Holds
          simp only [g4]
          constructor
          · rintro ⟨k', c', a1, a2, a3⟩
            rw [List.getElem?_set_ne (Ne.symm (hne k' a1))] at a2
            exact ⟨k', c', a1, a2, a3⟩
          · rintro ⟨k', c', a1, a2, a3⟩
            exact ⟨k', c', a1, by rw [List.getElem?_set_ne (Ne.symm (hne k' a1))]; exact a2, a3⟩
    · cases hs
  | deliver w =>
    simp only [step] at hs
    split at hs
    · rename_i m t n hnx
      split at hs <;> simp only [Option.some.injEq, reduceCtorEq] at hs
      rename_i v hv
      subst hs
      obtain ⟨k, c, g, rest, h1, h2, h3, h4, h5, h6, h7, h8⟩ := next_spec hnx
      have hclosed : n.closed = s.net.closed := by rw [h8]
      have hyl : ∀ x ∈ s.net.yielded, x ∈ n.yielded := fun x hx => by rw [h8]; simp [hx]
      by_cases ho : nt.wconn w ∈ s.net.closed
      · refine ⟨[], a, ids, Q, R, rfl, ?_, hret.mono hyl, acts_nil fun _ => rfl⟩
        refine h.frame (s' := { s with worker := Function.update s.worker w v, cur := Function.update s.cur w (some m), net := n, asleep := Function.update s.asleep (.worker w) false })
          rfl (by rw [h8]) (fun m' _ => by rw [h8]; exact Iff.rfl) (fun x hx => by simp only [hclosed]; exact hx) (fun w' m' ho' => ?_) (fun j m' => ?_)
          (fun w k hk => hk) hyl (fun w' ho' => ?_) a.worker fun w' ho' => ?_
        · have := holds_poll (n := n) hw h1 h2 (m := m) (c' := { c with buffer := rest, held := c.held ++ [m], parked := true, woken := false }) rfl (by rw [h8]) w' m'
          rw [show ((Owner.worker w : Owner κ) = .worker w' ∧ m' = m) ↔ False from ⟨fun hh => by
            have : w = w' := by simpa using hh.1
            subst this; exact ho' (by simp only [hclosed]; exact ho), False.elim⟩, or_false] at this
          exact this
        · simp only [h8, List.mem_append, List.mem_singleton, Prod.mk.injEq, not_or]
          refine ⟨fun hx k' hk' => (hx k' hk').1, fun hx k' hk' => ⟨hx k' hk', ?_⟩⟩
          rintro ⟨rfl, rfl⟩
          exact absurd (hw.inj _ _ _ h1 hk') (by simp)
        · have : w' ≠ w := by rintro rfl; exact ho' (by simp only [hclosed]; exact ho)
          simp only [Function.update_of_ne this]
        · have : w' ≠ w := by rintro rfl; exact ho' (by simp only [hclosed]; exact ho)
          simp only [Function.update_of_ne this]
          exact h.worker w' (by simpa only [hclosed] using ho')
      · obtain ⟨c0, q, hc0, hconn, hq, hname⟩ := hw.tie _ _ h1
        rw [h2] at hc0; cases hc0
        have hopen : c.conn ∉ s.net.closed := by rw [hconn]; exact ho
        obtain ⟨g', hg', hgn⟩ := hw.sound.name_of h2 hq (.inl (by rw [h3]; simp) : m ∈ c.buffer ∨ _)
        rw [h4] at hg'; cases hg'
        have htask : taskOf s.net m = some t := by
          obtain ⟨gn, gb⟩ := g
          simp only at h5 hgn
          rw [hname] at hgn
          subst h5 hgn
          simp [taskOf, h4, Owner.queue]
        have hndone : ¬ Done s.net m := by
          have := hw.sound.inv.data.unacked_only h2 (m := m) ((hw.sound.inv.client.agree k c h2 hopen).mem_iff.2 (by simp [h3]))
          exact fun hd => hd.elim this.1 this.2.1
        have hwk := h.worker w ho
        rcases (h.live m).2 ⟨by rw [htask]; rfl, hndone⟩ with hQ | ⟨x, w', hx⟩
        · obtain ⟨i, hi⟩ := List.getElem?_of_mem hQ
          obtain ⟨t', ht', hti⟩ := map_at h.queue hi
          rw [htask] at ht'; cases ht'
          refine ⟨[.deliver w i], _, _, _, _, Lts.run_one.2 ?_, h.deliver hw ho h1 h2 h3 (by rfl) h8 hi htask v _, (hret.mono hyl).snoc h.len m _ rfl,
            ⟨fun j => rfl, by simp [System.Label.requeues], fun W hW _ x hx => ?_, by simp, nofun⟩⟩
          · simp only [System.step, Fold.takeAt, hti, hwk, hv]
          · simp only [List.mem_singleton] at hx; subst hx; exact hW
        · have hcl' : nt.wconn w' ∈ s.net.closed := by
            refine Decidable.byContradiction fun ho' => ?_
            obtain ⟨k', c', a1, a2, a3⟩ := h.fate w' m x ho' hx
            obtain ⟨c2, q2, b1, b2, -⟩ := hw.tie _ _ a1
            rw [a2] at b1; cases b1
            exact hw.sound.held_once h2 a2 hopen (by rw [b2]; exact ho') (by rw [h3]; simp) a3
          have hb := h.back hx hcl' htask
          obtain ⟨k', e1, e2⟩ := h.got _ _ _ hx
          have hrd : Redelivered n m := by
            refine ⟨k', k, ?_, hyl _ e2, by rw [h8]; simp⟩
            rintro rfl
            have := hw.inj _ _ _ e1 h1
            simp only [Owner.worker.injEq] at this
            subst this
            exact ho hcl'
          refine ⟨[.requeue x, .deliver w 0], _, _, _, _, Lts.run_cons.2 ⟨{ a with dels := giveBack a.dels x, queue := t :: a.queue }, ?_, Lts.run_one.2 ?_⟩,
            hb.deliver hw ho h1 h2 h3 (by rfl) h8 (i := 0) rfl htask v _, ?_, ⟨fun j => rfl, fun _ _ _ => ⟨w', hcl'⟩, fun W hW hno => absurd hcl' (hno w'), by simp, nofun⟩⟩
          · obtain ⟨f1, d, f2, f3, f4⟩ := hx
            have := congrArg (fun z => z[x]?) h.dels
            simp only [List.getElem?_map, f1, f2, Option.map_some, htask, Option.some.injEq] at this
            simp only [System.step, f2, f3, if_true, ← this]
          · simp only [System.step, Fold.takeAt, List.getElem?_cons_zero, hwk, hv]
          · exact ((hret.mono hyl).back hx.1 hrd).snoc hb.len m _ rfl
    · cases hs
  | finish w x =>
    simp only [step] at hs
    split at hs
    · rename_i nm t hmt
      split at hs <;> simp only [Option.some.injEq, reduceCtorEq] at hs
      rename_i v hv
      subst hs
      by_cases ho : nt.wconn w ∈ s.net.closed
      · refine ⟨[], a, ids, Q, R, rfl, ?_, hret, acts_nil fun _ => rfl⟩
        refine h.frame (s' := { s with worker := Function.update s.worker w v }) rfl rfl (fun _ _ => Iff.rfl) (fun _ hx => hx) (fun _ _ _ => Iff.rfl) (fun _ _ => Iff.rfl) (fun _ _ hk => hk) (fun _ hx => hx)
          (fun _ _ => rfl) a.worker fun w' ho' => ?_
        have : w' ≠ w := by rintro rfl; exact ho' ho
        simp only [Function.update_of_ne this]
        exact h.worker w' ho'
      · have hfr := h.frame (s' := { s with worker := Function.update s.worker w v }) rfl rfl (fun _ _ => Iff.rfl) (fun _ hx => hx) (fun _ _ _ => Iff.rfl) (fun _ _ => Iff.rfl) (fun _ _ hk => hk) (fun _ hx => hx)
          (fun _ _ => rfl) (Function.update a.worker w v) (fun w' ho' => by
            by_cases hww : w' = w
            · subst hww; simp
            · simp only [Function.update_of_ne hww]; exact h.worker w' ho')
        refine ⟨[.finish w x], _, ids, Q, R, Lts.run_one.2 ?_, hfr, hret, ⟨fun j => rfl, by simp [System.Label.requeues], fun W hW _ y hy => ?_, by simp, nofun⟩⟩
        · cases hcu : s.cur w with
          | none => simp [hcu] at hmt
          | some m =>
            simp only [hcu, Option.bind_some] at hmt
            have hg := h.cur w m ho hcu
            have := congrArg (fun z => z[a.cur w]?) h.dels
            simp only [List.getElem?_map, hg, Option.map_some] at this
            have hfit := hw.fits _ (List.mem_of_getElem? hmt)
            have hta : taskOf s.net m = some t := by
              cases nm with
              | bus => simp [taskOf, hmt]
              | job j => simp [Fits] at hfit
            cases hd : a.dels[a.cur w]? with
            | none => simp [hd] at this
            | some d =>
              simp only [hd, Option.map_some, hta, Option.some.injEq] at this
              simp only [System.step, hd, ← this, h.worker w ho, hv]
        · simp only [List.mem_singleton] at hy; subst hy; exact hW
    · cases hs
  | work w l =>
    have key : ∀ v n, Worker.step cfg (s.worker w) l = some v → effect nt text s w l = some n → (∀ k, l ≠ .deliver k) → (∀ r, l ≠ .finish r) →
        ∃ as a' ids' Q' R', System.run cl cfg exec text a as = some a' ∧ Rel nt { s with worker := Function.update s.worker w v, net := n } a' ids' Q' R' ∧ Ret n ids' a'.dels ∧
          Acts nt any s.net (.work w l) as := by
      intro v n hv he hd hfi
      by_cases ho : nt.wconn w ∈ s.net.closed
      · rcases effect_cases he with ⟨k, m, h1, h2, h3, ⟨l', h4⟩, h5⟩ | ⟨j, r, h1, h2⟩ | ⟨rfl, h2⟩
        · obtain ⟨c, e1, e2, e3, e4⟩ := h3.ex
          obtain ⟨c0, q, hc0, hconn, -⟩ := hw.tie _ _ h1
          rw [e1] at hc0; cases hc0
          exact absurd (by rw [hconn]; exact ho) e3
        · exact absurd ho (publish_posts h1).1
        · refine ⟨[], a, ids, Q, R, rfl, ?_, hret, acts_nil (fun _ => rfl) fun _ _ he => by cases he; exact ho⟩
          refine h.frame (s' := { s with worker := Function.update s.worker w v }) rfl rfl (fun _ _ => Iff.rfl) (fun _ hx => hx) (fun _ _ _ => Iff.rfl) (fun _ _ => Iff.rfl) (fun _ _ hk => hk) (fun _ hx => hx)
            (fun _ _ => rfl) a.worker fun w' ho' => ?_
          have : w' ≠ w := by rintro rfl; exact ho' ho
          simp only [Function.update_of_ne this]
          exact h.worker w' ho'
      · have hwk := h.worker w ho
        have hsys : System.step (ω := ω) cl cfg exec text a (.work w l) = some { System.effect text a w l with worker := Function.update a.worker w v } := by
          cases l <;> first | exact absurd rfl (hd _) | exact absurd rfl (hfi _) | simp only [System.step, hwk, hv]
        have hact : Acts nt any s.net (.work w l : Label κ ℓ T O ε χ ω) [.work w l] :=
          ⟨fun j => rfl, by simp [System.Label.requeues], fun W hW _ y hy => by simp only [List.mem_singleton] at hy; subst hy; exact hW, by simp, fun _ _ he _ => by cases he; rfl⟩
        have fr : ∀ {n' : Broker κ T O ε} {b : System.St κ σ T O ε χ} {ids' Q' : List Nat} {R' : κ → List Nat}, Rel nt { s with net := n' } b ids' Q' R' → n'.closed = s.net.closed → b.worker = a.worker →
            Rel nt { s with worker := Function.update s.worker w v, net := n' } { b with worker := Function.update a.worker w v } ids' Q' R' := by
          intro n' b ids' Q' R' hb hcl hbw
          refine hb.frame (s' := { s with worker := Function.update s.worker w v, net := n' }) rfl rfl (fun _ _ => Iff.rfl) (fun _ hx => hx) (fun _ _ _ => Iff.rfl) (fun _ _ => Iff.rfl) (fun _ _ hk => hk)
            (fun _ hx => hx) (fun _ _ => rfl) _ fun w' ho' => ?_
          by_cases hww : w' = w
          · subst hww; simp
          · simp only [Function.update_of_ne hww]; exact h.worker w' (by simpa only [hcl] using ho')
        rcases effect_cases he with ⟨k, m, h1, h2, h3, ⟨l', h4⟩, h5⟩ | ⟨j, r, h1, h2⟩ | ⟨rfl, h2⟩
        · have hr := h.settles hw ho h1 h2 h3
          have hf := fr hr h3.closed rfl
          refine ⟨[.work w l], _, _, _, _, Lts.run_one.2 (by rw [hsys, h5 a hwk]), hf, ?_, hact⟩
          exact (hret.mono fun x hx => by rw [h3.yielded]; exact hx).modify _ (fun d hd => by cases hf : d.fate <;> simp [hf, Fate.settle] at hd ⊢) _
        · obtain ⟨-, hp⟩ := publish_posts h1
          have hr := h.result hw.sound (a.cur w) hp
          have hf := fr hr hp.closed rfl
          refine ⟨[.work w l], _, _, _, _, Lts.run_one.2 (by rw [hsys, h2 a hwk]), hf, ?_, hact⟩
          exact (hret.mono fun x hx => by rw [hp.yielded]; exact hx).modify (fun d => { d with answered := true }) (fun d hd => hd) _
        · exact ⟨[.work w l], _, _, _, _, Lts.run_one.2 (by rw [hsys, h2 a hwk]), fr h rfl rfl, hret, hact⟩
    simp only [step] at hs
    split at hs
    · cases hs
    · cases hs
    · rename_i hd hfi
      split at hs <;> simp only [Option.some.injEq, reduceCtorEq] at hs
      rename_i v n hv he
      subst hs
      exact key v n hv he (fun k => hd k) (fun r => hfi r)
  | attach o k =>
    have hw' := wired_step hw hs0
    simp only [step] at hs
    split at hs
    · rename_i c hcon
      split at hs <;> simp only [Option.some.injEq, reduceCtorEq] at hs
      rename_i hcond
      obtain ⟨h1, h2, h3, h4⟩ := hcond
      subst hs
      have hk : ∀ o', s.ties.lookup o' ≠ some k := by
        intro o' ho
        rw [List.lookup_eq_some_iff] at ho
        obtain ⟨l1, l2, he, -⟩ := ho
        exact h2 (by rw [he]; simp)
      have hl : ∀ o', (s.ties ++ [(o, k)]).lookup o' = if o' = o then some k else s.ties.lookup o' := by
        intro o'
        rw [List.lookup_append]
        by_cases ho : o' = o
        · subst ho; simp [h1, List.lookup]
        · have : (o' == o) = false := by simpa using ho
          simp [List.lookup, this, ho]
      refine ⟨[], a, ids, Q, R, rfl, ?_, hret, acts_nil fun _ => rfl⟩
      refine h.frame (s' := { s with ties := s.ties ++ [(o, k)] }) rfl rfl (fun _ _ => Iff.rfl) (fun _ hx => hx) (fun w m _ => ?_) (fun j m => ?_) (fun w k' hk' => ?_) (fun _ hx => hx) (fun _ _ => rfl)
        a.worker h.worker
      · unfold Holds
        simp only [hl]
        constructor
        · rintro ⟨k', c', a1, a2, a3⟩
          split at a1
          · cases a1
            obtain ⟨o', ho'⟩ := hw.held _ _ a2 (by rintro h0; simp [h0] at a3)
            exact absurd ho' (hk o')
          · exact ⟨k', c', a1, a2, a3⟩
        · rintro ⟨k', c', a1, a2, a3⟩
          refine ⟨k', c', ?_, a2, a3⟩
          split
          · rename_i he; rw [he, h1] at a1; cases a1
          · exact a1
      · simp only [hl]
        split
        · rename_i he
          rw [he, h1]
          simp only [Option.some.injEq, forall_eq', reduceCtorEq, false_implies, implies_true, iff_true]
          intro hy
          obtain ⟨o', ho'⟩ := hw.yielded _ _ hy
          exact hk o' ho'
        · exact Iff.rfl
      · simp only [hl]
        split
        · rename_i he; rw [he, h1] at hk'; cases hk'
        · exact hk'
    · cases hs
  | net l =>
    simp only [step] at hs
    split at hs
    · rename_i ho
      simp only [Option.map_eq_some_iff] at hs
      obtain ⟨n, hn, rfl⟩ := hs
      have hq := others_quiet hw ho hn
      exact ⟨[], a, ids, Q, R, rfl, h.quiet hw rfl rfl rfl rfl hq.1, hret.mono fun x hx => by simp only [hq.1.yielded]; exact hx, acts_nil fun _ => rfl⟩
    · cases hs

theorem Label.leads_append (j : κ) (a b : List (Label κ ℓ T O ε χ ω)) : Label.leads j (a ++ b) = Label.leads j a ++ Label.leads j b := by
  induction a with
  | nil => rfl
  | cons x a ih =>
    cases x <;> simp only [List.cons_append, Label.leads, ih]
    all_goals (split <;> rfl)

theorem closed_step {l : Label κ ℓ T O ε χ ω} (hw : Wired nt s) (h : step cl listens nt cfg exec text s l = some s') : ∀ x ∈ s.net.closed, x ∈ s'.net.closed := by
  intro x hx
  cases l with
  | lead j l =>
    simp only [step] at h
    split at h
    · split at h <;> simp only [Option.some.injEq, reduceCtorEq] at h
      rename_i n hn
      subst h
      rw [(publishAll_posts hn).closed]; exact hx
    · cases h
  | recv j l =>
    simp only [step] at h
    split at h
    · rename_i hnx
      split at h
      · split at h <;> simp only [Option.some.injEq, reduceCtorEq] at h
        rename_i n hn
        subst h
        obtain ⟨k, c, g, rest, h1, h2, h3, h4, h5, h6, h7, h8⟩ := next_spec hnx
        rw [(publishAll_posts hn).closed, h8]; exact hx
      · cases h
    · cases h
  | sleep o =>
    simp only [step] at h
    split at h
    · split at h
      · simp only [Option.map_eq_some_iff] at h
        obtain ⟨n, hn, rfl⟩ := h
        exact Amqp.closed_mono hn x hx
      · cases h
    · cases h
  | ackRes j =>
    simp only [step] at h
    split at h
    · split at h
      · cases h
      · simp only [Option.map_eq_some_iff] at h
        obtain ⟨n, hn, rfl⟩ := h
        exact Amqp.closed_mono hn x hx
    · cases h
  | deliver w =>
    simp only [step] at h
    split at h
    · rename_i hnx
      split at h <;> simp only [Option.some.injEq, reduceCtorEq] at h
      subst h
      obtain ⟨k, c, g, rest, h1, h2, h3, h4, h5, h6, h7, h8⟩ := next_spec hnx
      simp only [h8]; exact hx
    · cases h
  | finish w y =>
    simp only [step] at h
    split at h
    · split at h <;> simp only [Option.some.injEq, reduceCtorEq] at h
      subst h; exact hx
    · cases h
  | work w l =>
    simp only [step] at h
    split at h
    · cases h
    · cases h
    · split at h <;> simp only [Option.some.injEq, reduceCtorEq] at h
      rename_i v n _ he
      subst h
      rcases effect_cases he with ⟨k, m, h1, h2, h3, -⟩ | ⟨j, r, h1, h2⟩ | ⟨rfl, h2⟩
      · simp only [h3.closed]; exact hx
      · simp only [(publish_posts h1).2.closed]; exact hx
      · exact hx
  | attach o k =>
    simp only [step] at h
    split at h
    · split at h <;> simp only [Option.some.injEq, reduceCtorEq] at h
      subst h; exact hx
    · cases h
  | net l =>
    simp only [step] at h
    split at h
    · simp only [Option.map_eq_some_iff] at h
      obtain ⟨n, hn, rfl⟩ := h
      exact Amqp.closed_mono hn x hx
    · cases h

theorem ret_redelivered {a : System.St κ σ T O ε χ} {ids Q : List Nat} {R : κ → List Nat} (h3 : Rel nt s a ids Q R) (h4 : Ret s.net ids a.dels) {d : Del κ T} (hd : d ∈ a.dels) (hf : d.fate = .returned) :
    ∃ m, s.net.msgs[m]? = some ⟨.bus, .task d.msg⟩ ∧ Redelivered s.net m := by
  obtain ⟨n, hn⟩ := List.getElem?_of_mem hd
  have hlt : n < ids.length := by rw [h3.len]; rw [List.getElem?_eq_some_iff] at hn; exact hn.1
  have hid : ids[n]? = some ids[n] := List.getElem?_eq_getElem hlt
  refine ⟨ids[n], ?_, h4 n _ d hid hn hf⟩
  have := congrArg (fun x => x[n]?) h3.dels
  simp only [List.getElem?_map, hid, hn, Option.map_some, Option.some.injEq] at this
  unfold taskOf at this
  split at this
  · rename_i ht; cases this; exact ht
  · cases this

/-- Every execution on a broker is one of `System`, from related states on. -/
theorem sim_from (hc : ∀ j, Indexed (cl j) (any j)) (hw : Wired nt s) {a : System.St κ σ T O ε χ} {ids Q : List Nat} {R : κ → List Nat} (hr : Rel nt s a ids Q R) (hret : Ret s.net ids a.dels)
    {ls : List (Label κ ℓ T O ε χ ω)} (h : run cl listens nt cfg exec text s ls = some s') :
    ∃ as a' ids' Q' R', System.run cl cfg exec text a as = some a' ∧ Wired nt s' ∧ Rel nt s' a' ids' Q' R' ∧ Ret s'.net ids' a'.dels ∧
      (∀ j, (System.Label.leads j as).map (any j) = Label.leads j ls) ∧ (∀ x ∈ as, x.requeues = true → ∃ w, nt.wconn w ∈ s'.net.closed) ∧
      (∀ W, (∀ l ∈ ls, l.steady W = true) → (∀ w, nt.wconn w ∉ s'.net.closed) → ∀ x ∈ as, x.steady W = true) ∧ ∀ w x, .finish w x ∈ as → .finish w x ∈ ls := by
  refine Lts.run_induction (P := fun ls s' => ∃ as a' ids' Q' R', System.run cl cfg exec text a as = some a' ∧ Wired nt s' ∧ Rel nt s' a' ids' Q' R' ∧ Ret s'.net ids' a'.dels ∧
      (∀ j, (System.Label.leads j as).map (any j) = Label.leads j ls) ∧ (∀ x ∈ as, x.requeues = true → ∃ w, nt.wconn w ∈ s'.net.closed) ∧
      (∀ W, (∀ l ∈ ls, l.steady W = true) → (∀ w, nt.wconn w ∉ s'.net.closed) → ∀ x ∈ as, x.steady W = true) ∧ ∀ w x, .finish w x ∈ as → .finish w x ∈ ls) ?_ ?_ _ _ h
  · exact ⟨[], a, ids, Q, R, rfl, hw, hr, hret, fun j => rfl, by simp, by simp, by simp⟩
  · rintro ls l s s' - ⟨as, a, ids, Q, R, h1, h2, h3, h4, h5, h6, h7, h8⟩ hs
    obtain ⟨bs, a', ids', Q', R', g1, g2, g3, g4⟩ := sim_step hc h2 h3 h4 hs
    have hcl := closed_step h2 hs
    refine ⟨as ++ bs, a', ids', Q', R', Lts.run_append.2 ⟨a, h1, g1⟩, wired_step h2 hs, g2, g3, fun j => ?_, fun x hx hr => ?_, fun W hl hw x hx => ?_, fun w x hx => ?_⟩
    · rw [System.Label.leads_append, List.map_append, h5 j, g4.leads j, Label.leads_append]
    · rcases List.mem_append.1 hx with hx | hx
      · obtain ⟨w, hw⟩ := h6 x hx hr
        exact ⟨w, hcl _ hw⟩
      · obtain ⟨w, hw⟩ := g4.requeues x hx hr
        exact ⟨w, hcl _ hw⟩
    · have hw' : ∀ w, nt.wconn w ∉ s.net.closed := fun w hx => hw w (hcl _ hx)
      rcases List.mem_append.1 hx with hx | hx
      · exact h7 W (fun l hl' => hl l (by simp [hl'])) hw' x hx
      · exact g4.steady W (hl l (by simp)) hw' x hx
    · rcases List.mem_append.1 hx with hx | hx
      · exact List.mem_append_left _ (h8 w x hx)
      · exact List.mem_append_right _ (by simp [g4.finishes w x hx])

/-- Every execution on a broker is one of `System`. -/
theorem sim_run (hc : ∀ j, Indexed (cl j) (any j)) {ls : List (Label κ ℓ T O ε χ ω)} (h : run cl listens nt cfg exec text (init cl) ls = some s) :
    ∃ as a ids Q R, System.run cl cfg exec text (System.init cl) as = some a ∧ Wired nt s ∧ Rel nt s a ids Q R ∧ Ret s.net ids a.dels ∧
      (∀ j, (System.Label.leads j as).map (any j) = Label.leads j ls) ∧ (∀ x ∈ as, x.requeues = true → ∃ w, nt.wconn w ∈ s.net.closed) ∧
      (∀ W, (∀ l ∈ ls, l.steady W = true) → (∀ w, nt.wconn w ∉ s.net.closed) → ∀ x ∈ as, x.steady W = true) ∧ ∀ w x, .finish w x ∈ as → .finish w x ∈ ls :=
  sim_from hc wired_init rel_init (by intro i m d h; simp at h) h

/-- A worker that settles or publishes here does so in `System`, at the same place in the execution. -/
theorem sim_at (hc : ∀ j, Indexed (cl j) (any j)) {pre post : List (Label κ ℓ T O ε χ ω)} {s1 : St κ σ T O ε χ} {w : Nat} {l : Worker.Label κ O χ}
    (h1 : run cl listens nt cfg exec text (init cl) pre = some s1) (ho : nt.wconn w ∉ s1.net.closed) (h : run cl listens nt cfg exec text s1 (.work w l :: post) = some s) :
    ∃ bs1 bs2 a1 a ids Q R, System.run cl cfg exec text (System.init cl) bs1 = some a1 ∧ a1.worker w = s1.worker w ∧ System.run cl cfg exec text a1 (.work w l :: bs2) = some a ∧ Wired nt s ∧
      Rel nt s a ids Q R ∧ Ret s.net ids a.dels ∧ (∀ j, (System.Label.leads j (bs1 ++ .work w l :: bs2)).map (any j) = Label.leads j (pre ++ .work w l :: post)) ∧
      ∀ w' x, .finish w' x ∈ bs1 ++ .work w l :: bs2 → .finish w' x ∈ pre ++ .work w l :: post := by
  obtain ⟨bs1, a1, ids, Q, R, g1, g2, g3, g4, g5, -, -, g8⟩ := sim_run (any := any) hc h1
  obtain ⟨s2, hs, h2⟩ := Lts.run_cons.1 h
  obtain ⟨bs, a2, ids2, Q2, R2, f1, f2, f3, f4⟩ := sim_step hc g2 g3 g4 hs
  obtain rfl := f4.works w l rfl ho
  obtain ⟨bs2, a, ids3, Q3, R3, e1, e2, e3, e4, e5, -, -, e8⟩ := sim_from hc (wired_step g2 hs) f2 f3 h2
  refine ⟨bs1, bs2, a1, a, ids3, Q3, R3, g1, g3.worker w ho, Lts.run_cons.2 ⟨a2, Lts.run_one.1 f1, e1⟩, e2, e3, e4, fun j => ?_, fun w' x hx => ?_⟩
  · rw [System.Label.leads_append, List.map_append, g5 j, Label.leads_append]
    congr 1
    exact e5 j
  · rcases List.mem_append.1 hx with hx | hx
    · exact List.mem_append_left _ (g8 w' x hx)
    · exact List.mem_append_right _ (List.mem_cons_of_mem _ (e8 w' x (by simpa using hx)))

end

end SystemAmqp
end Paladin
