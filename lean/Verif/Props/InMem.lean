import Verif.Proofs.BroadcastEnd
/-! # In-memory queues (C26–C30, C61, C62) -/
namespace Paladin
namespace InMem

/-! ## One queue, any number of publishers and consumers -/

/-- **C26**: whatever the publishers and consumers of an exactly-once queue do, the messages received so far (each by one consumer), in the order in which they were
taken, followed by the messages still queued, are the messages published, in order. -/
theorem C26_exactly_once {os : List (Op M)} {c : Chan M} (h : (Chan.fresh [] 0).run os = some c) :
    c.received.map Prod.snd ++ c.msgs = os.filterMap Op.published := by
  have := Chan.log_run h
  simpa [Chan.log, Chan.fresh] using this

/-- Three messages, two consumers, one of which waits first and one is dropped while a message was reserved for it. -/
example : ∃ c, (Chan.fresh [] 0).run [.poll 0, .push 'a', .push 'b', .release, .drop 0, .release, .push 'c', .poll 1, .poll 2, .pop 2, .pop 1, .poll 1, .release, .poll 1, .pop 1] = some c ∧
    c.received = [(2, 'a'), (1, 'b'), (1, 'c')] := ⟨_, rfl, by decide⟩

/-- **C27**, first half: a consumer that got a permit finds a message. -/
theorem C27_no_panic {os : List (Op M)} {c : Chan M} (h : (Chan.fresh [] 0).run os = some c) :
    c.panicked = false ∧ ∀ k c', c.pop k = some c' → ∃ m, c'.received = c.received ++ [(k, m)] := by
  have hi := Chan.inv_run (Chan.inv_fresh []) h
  refine ⟨hi.ok, ?_⟩
  intro k c' hp
  obtain ⟨_, m, _, hm⟩ := Chan.inv_pop hi hp
  exact ⟨m, hm⟩

/-- A queue at rest: no publisher between push and permit, no consumer between permit and pop. -/
def Chan.Rest (c : Chan M) : Prop := c.owed = 0 ∧ c.holding = []

theorem Chan.Inv.poll_gets {c : Chan M} (hi : c.Inv) (hr : c.Rest) (k : Nat) (hm : c.granted.length < c.msgs.length ∨ k ∈ c.granted) :
    ∃ c' c'' m, c.poll k = some c' ∧ c'.pop k = some c'' ∧ c''.received = c.received ++ [(k, m)] := by
  obtain ⟨hr1, hr2⟩ := hr
  have hc := hi.count
  rw [hr1, hr2] at hc
  simp at hc
  have pop : ∀ {c' : Chan M}, c.poll k = some c' → k ∈ c'.holding → ∃ c' c'' m, c.poll k = some c' ∧ c'.pop k = some c'' ∧ c''.received = c.received ++ [(k, m)] := by
    intro c' hp hh
    have hi' := inv_poll hi hp
    have hl := hi'.count
    have : 0 < c'.holding.length := List.length_pos_of_mem hh
    cases hms : c'.msgs with
    | nil => simp [hms] at hl; omega
    | cons m ms =>
      refine ⟨c', { c' with msgs := ms, holding := c'.holding.erase k, received := c'.received ++ [(k, m)] }, m, hp, ?_, ?_⟩
      · simp only [Chan.pop, hh, if_true, hms]
      · simp [(log_poll hp).2]
  by_cases hg : k ∈ c.granted
  · refine pop (c' := { c with granted := c.granted.erase k, holding := k :: c.holding }) ?_ (by simp)
    simp [Chan.poll, hr2, hg]
  · have hlt : c.granted.length < c.msgs.length := hm.resolve_right hg
    have hpos : c.permits ≠ 0 := by omega
    have hw : c.waiters = [] := hi.free.resolve_left hpos
    refine pop (c' := { c with permits := c.permits - 1, holding := k :: c.holding }) ?_ (by simp)
    simp [Chan.poll, hr2, hg, hw, hpos]

/-- **C27**, second half: when no operation is half done, every queued message has a permit, which is free or was given to a consumer that waited and has been woken;
nobody waits while a permit is free. -/
theorem C27_permits {os : List (Op M)} {c : Chan M} (h : (Chan.fresh [] 0).run os = some c) (hr : c.Rest) :
    c.msgs.length = c.permits + c.granted.length ∧ (c.permits ≠ 0 → c.waiters = []) := by
  have hi := Chan.inv_run (Chan.inv_fresh []) h
  have hc := hi.count
  rw [hr.1, hr.2] at hc
  exact ⟨by simpa using hc, fun hp => hi.free.resolve_left hp⟩

/-- **C62**, what holds (partial: if not every queued message is spoken for by a consumer that was woken): when no operation is half done, a consumer that polls
receives a message if one is queued, unless every queued message is spoken for by a consumer that was waiting and has been woken; and a woken consumer that polls
receives one. -/
theorem C62_gets_partial {os : List (Op M)} {c : Chan M} (h : (Chan.fresh [] 0).run os = some c) (hr : c.Rest) (k : Nat)
    (hm : c.granted.length < c.msgs.length ∨ k ∈ c.granted) : ∃ c' c'' m, c.poll k = some c' ∧ c'.pop k = some c'' ∧ c''.received = c.received ++ [(k, m)] :=
  (Chan.inv_run (Chan.inv_fresh []) h).poll_gets hr k hm

/-- **C62**, who a message can be reserved for: a consumer that waits or has been given a permit is one that polled and has neither received a message nor been dropped
since, and each is in the books once. -/
theorem C62_reserved {os : List (Op M)} {c : Chan M} (h : (Chan.fresh [] 0).run os = some c) :
    (c.waiters ++ c.granted).Nodup ∧ ∀ k, k ∈ c.waiters ∨ k ∈ c.granted → Wants os k := by
  obtain ⟨hn, hw⟩ := Chan.live_run h
  rw [← List.append_assoc] at hn
  refine ⟨(List.nodup_append.1 hn).1, fun k hk => hw k ?_⟩
  rcases hk with hk | hk <;> simp [hk]

/-- So a consumer that polls a queue at rest receives a message if there is one and no other consumer wants a message. -/
theorem C62_alone_partial {os : List (Op M)} {c : Chan M} (h : (Chan.fresh [] 0).run os = some c) (hr : c.Rest) (k : Nat) (hm : c.msgs ≠ [])
    (ha : ∀ k', Wants os k' → k' = k) : ∃ c' c'' m, c.poll k = some c' ∧ c'.pop k = some c'' ∧ c''.received = c.received ++ [(k, m)] := by
  refine C62_gets_partial h hr k ?_
  cases hg : c.granted with
  | nil => exact .inl (by simpa [List.length_pos_iff] using hm)
  | cons g gs =>
    have := ha g ((C62_reserved h).2 g (.inr (by simp [hg])))
    exact .inr (by simp [this])

/-- Consumer 0 waits, a message is reserved for it, and it is dropped; consumer 2 waits and is dropped before a second message arrives: consumer 1, the only one left, gets both. -/
example : ∃ c, (Chan.fresh [] 0).run [.poll 0, .poll 2, .push 'a', .release, .drop 0, .drop 2, .push 'b', .release, .poll 1, .pop 1] = some c ∧ c.Rest ∧ c.msgs = ['b'] ∧
    c.waiters = [] ∧ c.granted = [] := ⟨_, rfl, ⟨rfl, rfl⟩, by decide⟩

/-- **C62** is false: a message is reserved for a consumer that waited and is not polled again; another consumer polling gets nothing until the first is polled or dropped. -/
theorem C62_reserved_witness : ∃ c c', (Chan.fresh [] 0).run [.poll 0, .push 'a', .release] = some c ∧ c.Rest ∧ c.msgs = ['a'] ∧ c.granted = [0] ∧
    c.poll 1 = some c' ∧ c'.waiters = [1] := ⟨_, _, rfl, ⟨rfl, rfl⟩, rfl, rfl, rfl, rfl⟩

/-- The hypotheses are met with two queued messages, one of them reserved. -/
example : ∃ c, (Chan.fresh [] 0).run [.poll 0, .push 'a', .release, .push 'b', .release] = some c ∧ c.Rest ∧ c.granted.length < c.msgs.length :=
  ⟨_, rfl, ⟨rfl, rfl⟩, by decide⟩

/-! ## Broadcast -/

/-- **C27** for broadcast queues: no consumer panics; when no `publish` is between push and permit at this consumer (in particular when none is running) and no
handle is between permit and pop, every queued message has a permit, nobody waits while one is free, and a poll is served as above. -/
theorem C27_broadcast {cfg : Cfg} {os : List (BOp M)} {s : BSt M} (h : BSt.init.run cfg os = some s) (name : Nat) (c : Cons M) (hc : s.find name = some c) :
    c.chan.panicked = false ∧ ((∀ p ∈ s.pubs, ∀ k todo, p.pc ≠ .permit k name todo) → c.chan.holding = [] →
      c.chan.msgs.length = c.chan.permits + c.chan.granted.length ∧ (c.chan.permits ≠ 0 → c.chan.waiters = []) ∧
      ∀ k, (c.chan.granted.length < c.chan.msgs.length ∨ k ∈ c.chan.granted) →
        ∃ c' c'' m, c.chan.poll k = some c' ∧ c'.pop k = some c'' ∧ c''.received = c.chan.received ++ [(k, m)]) := by
  obtain ⟨hmem, hname⟩ := find_some hc
  have hk := consOk_run h c hmem
  have hi := hk.inv
  refine ⟨hi.ok, fun hp hh => ?_⟩
  have ho : c.chan.owed = 0 := by
    rw [hk.owed, List.countP_eq_zero]
    intro p hpm hperm
    cases hpc : p.pc with
    | permit k n todo =>
      have : n = name := by rw [hpc, hname] at hperm; exact eq_of_beq hperm
      subst this; exact hp p hpm k todo hpc
    | _ => simp [PubPc.isPermit, hpc] at hperm
  have hcnt := hi.count
  rw [ho, hh] at hcnt
  exact ⟨by simpa using hcnt, fun hp => hi.free.resolve_left hp, fun k hm => hi.poll_gets ⟨ho, hh⟩ k hm⟩

/-- A broadcast to two consumers in two shards, one of which waited: no call is running and both messages can be received. -/
example : ∃ s, BSt.init.run ⟨false, 1, id⟩ [.declare 0, .decl 0, .declare 1, .decl 0, .poll 1 7, .publish 'x', .pub 0 0, .pub 0 0, .pub 0 0, .pub 0 0, .pub 0 0, .pub 0 0, .pub 0 0, .pub 0 0,
    .pub 0 0] = some s ∧ s.pubs = [] ∧ (s.find 0).map (fun c => (c.chan.msgs, c.chan.permits)) = some ([(0, 'x')], 1) ∧
    (s.find 1).map (fun c => (c.chan.msgs, c.chan.granted)) = some ([(0, 'x')], [7]) := ⟨_, rfl, by decide⟩

theorem received_queued {s : BSt M} {name : Nat} : s.receivedBy name ++ s.queuedFor name = match s.find name with
    | some c => c.chan.log
    | none => [] := by
  unfold BSt.receivedBy BSt.queuedFor
  split <;> simp_all [Chan.log]

/-- **C28**, at most once: no message is received twice by a consumer, and every message received was published. Also in every interleaving of publishers and declarations. -/
theorem C28_at_most_once {cfg : Cfg} {os : List (BOp M)} {s : BSt M} (h : BSt.init.run cfg os = some s) (name : Nat) :
    ((s.receivedBy name ++ s.queuedFor name).map Prod.fst).Nodup ∧ ∀ x ∈ s.receivedBy name ++ s.queuedFor name, (publishedBy os)[x.1]? = some x.2 := by
  rw [received_queued]
  cases hf : s.find name with
  | none => simp
  | some c =>
    have hk := consOk_run h c (find_some hf).1
    exact ⟨hk.nodup, hk.pay⟩

/-- **C28**, at least once: a message whose publication began after `declare_consumer` had returned the consumer, and has returned, was put in the consumer's queue: it
has been received or is waiting there. With `C28_at_most_once` and `C27_broadcast`, exactly once. -/
theorem C28_delivered {cfg : Cfg} {os1 os2 : List (BOp M)} {m : M} {s1 s2 : BSt M} {name : Nat} (h1 : BSt.init.run cfg os1 = some s1) (hd : name ∈ s1.declared)
    (h2 : s1.run cfg (.publish m :: os2) = some s2) (hret : (publishedBy os1).length ∈ s2.returned) :
    ((publishedBy os1).length, m) ∈ s2.receivedBy name ++ s2.queuedFor name := by
  obtain ⟨s', hs, h3⟩ := Lts.run_cons.1 h2
  have hrun : BSt.init.run cfg (os1 ++ .publish m :: os2) = some s2 := Lts.run_append.2 ⟨s1, h1, h2⟩
  have hid1 := idInv_run h1
  have hn1 := nameInv_run h1
  have how : Owed cfg s1.ctr name s' := by
    simp [BSt.step] at hs
    subst hs
    obtain ⟨c, hc, hcn⟩ := List.mem_map.1 (hn1.declared name hd)
    refine ⟨c, hc, hcn, .inr ⟨⟨s1.ctr, m, if cfg.persistent then .count 0 0 else .enter⟩, by simp [BSt.publish], rfl, .inl ?_⟩⟩
    simp only; split <;> trivial
  have key : Owed cfg s1.ctr name s2 := by
    have h1' : BSt.init.run cfg (os1 ++ [.publish m]) = some s' := Lts.run_snoc.2 ⟨s1, h1, hs⟩
    refine Lts.run_induction (step := BSt.step cfg) (P := fun _ s => Owed cfg s1.ctr name s) how ?_ os2 s2 h3
    intro os o s s'' hr ih hst
    have hr' : BSt.init.run cfg (os1 ++ [.publish m] ++ os) = some s := Lts.run_append.2 ⟨s', h1', hr⟩
    exact owed_step (idInv_run hr') (nameInv_run hr') (consOk_run hr') ih hst
  have hctr : s1.ctr = (publishedBy os1).length := hid1.ctr
  have hid2 := idInv_run hrun
  have hn2 := nameInv_run hrun
  obtain ⟨c, hc, hcn, hin⟩ := key
  rw [hctr] at hin
  have hmem : (publishedBy os1).length ∈ c.ids := by
    rcases hin with hin | ⟨p, hp, hpn, _⟩
    · exact hin
    · exact absurd (List.mem_map.2 ⟨p, hp, hpn⟩) (hid2.ret _ hret).2
  obtain ⟨c', hc'⟩ := find_of_name (s := s2) (n := name) (List.mem_map.2 ⟨c, hc, hcn⟩)
  have hcc : c = c' := eq_of_name (List.nodup_append.1 hn2.nodup).1 hc (find_some hc').1 (hcn.trans (find_some hc').2.symm)
  subst hcc
  rw [received_queued, hc']
  obtain ⟨x, hx, hxe⟩ := List.mem_map.1 hmem
  have hpay := (consOk_run hrun c hc).pay x hx
  rw [hxe] at hpay
  have hm : (payloads (os1 ++ .publish m :: os2))[(publishedBy os1).length]? = some m := by
    have : payloads (os1 ++ .publish m :: os2) = publishedBy os1 ++ m :: payloads os2 := by simp [payloads, publishedBy, BOp.published]
    rw [this]; simp
  rw [hm] at hpay
  simp at hpay
  have : x = ((publishedBy os1).length, m) := by rw [← hxe, hpay]
  rw [← this]; exact hx

/-- Two shards (even and odd names). -/
def two (persistent : Bool) : Cfg := { persistent := persistent, lastShard := 1, hash := fun n => n }

/-- Consumer 0 is declared, a message is published while consumer 1 is being declared: consumer 0 gets it, consumer 1 too. -/
example : ∃ s, BSt.init.run (two true) ([.declare 0, .decl 0, .decl 0] ++ .publish 'x' :: [.pub 0 0, .declare 1, .decl 0, .decl 0, .pub 0 0, .pub 0 0, .pub 0 0, .pub 0 0, .pub 0 0, .pub 0 0, .pub 0 0,
    .pub 0 0, .pub 0 0, .pub 0 0, .poll 0 5, .pop 0 5]) = some s ∧ 0 ∈ s.returned ∧ s.receivedBy 0 = [(0, 'x')] ∧ s.queuedFor 1 = [(0, 'x')] := ⟨_, rfl, by decide⟩

/-- **C29**: with persistent delivery, a message whose `publish` has returned is in the history, in the hands of a declaration that has not returned, or was put in the queue of
some consumer. -/
theorem C29_kept {cfg : Cfg} {os : List (BOp M)} {s : BSt M} (hper : cfg.persistent = true) (h : BSt.init.run cfg os = some s) {n : Nat} (hn : n ∈ s.returned) :
    ∃ m, (publishedBy os)[n]? = some m ∧
      ((n, m) ∈ s.hist ∨ (n, m) ∈ s.inDeclarations ∨ ∃ name, (n, m) ∈ s.receivedBy name ++ s.queuedFor name) := by
  have hid := idInv_run h
  have hlt := (hid.ret n hn).1
  refine ⟨(publishedBy os)[n]'hlt, List.getElem?_eq_getElem hlt, ?_⟩
  have hval : ∀ m, (payloads os)[n]? = some m → m = (publishedBy os)[n]'hlt := by
    intro m hm
    have h2 : (payloads os)[n]? = some ((publishedBy os)[n]'hlt) := List.getElem?_eq_getElem hlt
    rw [h2] at hm; simp at hm; exact hm.symm
  rcases (keptInv_run hper h).ret n hn with hp | ⟨c, hc, hp⟩
  · obtain ⟨x, hx, rfl⟩ := List.mem_map.1 hp
    have := hval _ ((histInv_run h).pay x hx)
    rw [← this]
    simp only [BSt.kept, List.mem_append] at hx
    rcases hx with hx | hx
    · exact .inl hx
    · refine .inr (.inl ?_)
      exact hx
  · obtain ⟨x, hx, rfl⟩ := List.mem_map.1 hp
    have := hval _ ((consOk_run h c hc).pay x hx)
    rw [← this]
    refine .inr (.inr ⟨c.name, ?_⟩)
    obtain ⟨c', hc'⟩ := find_of_name (s := s) (n := c.name) (List.mem_map_of_mem hc)
    have hcc : c = c' := eq_of_name (List.nodup_append.1 (nameInv_run h).nodup).1 hc (find_some hc').1 (find_some hc').2.symm
    subst hcc
    rw [received_queued, hc']; exact hx

/-- When no declaration is under way: in the history, waiting for the next consumer, or in the queue of some consumer. -/
theorem C29_at_rest {cfg : Cfg} {os : List (BOp M)} {s : BSt M} (hper : cfg.persistent = true) (h : BSt.init.run cfg os = some s) (hd : s.decls = []) {n : Nat} (hn : n ∈ s.returned) :
    ∃ m, (publishedBy os)[n]? = some m ∧ ((n, m) ∈ s.hist ∨ ∃ name, (n, m) ∈ s.receivedBy name ++ s.queuedFor name) := by
  obtain ⟨m, h1, h2⟩ := C29_kept hper h hn
  refine ⟨m, h1, ?_⟩
  rcases h2 with h2 | h2 | h2
  · exact .inl h2
  · simp [BSt.inDeclarations, hd] at h2
  · exact .inr h2

/-- A message is published while a consumer is being declared, in the order in which neither the count nor the drain sees the other; it still reaches the consumer. -/
example : ∃ s, BSt.init.run (two true) [.publish 'x', .pub 0 0, .pub 0 0, .declare 0, .decl 0, .decl 0, .pub 0 0, .pub 0 0, .pub 0 0, .pub 0 0, .pub 0 0, .pub 0 0, .pub 0 0] = some s ∧
    s.returned = [0] ∧ s.decls = [] ∧ s.queuedFor 0 = [(0, 'x')] := ⟨_, rfl, by decide⟩

/-- **C30** is false: two consumers declared at the same time share the backlog out between them, and neither receives all of it. -/
theorem C30_split_witness : ∃ s, BSt.init.run (two true) ([.publish 'x', .pub 0 0, .pub 0 0, .pub 0 0, .pub 0 0, .pub 0 0, .pub 0 0] ++
      [.publish 'y', .pub 0 0, .pub 0 0, .pub 0 0, .pub 0 0, .pub 0 0, .pub 0 0] ++
      [.declare 0, .declare 1, .decl 0, .decl 1, .decl 0, .decl 1, .decl 0, .decl 1, .decl 0, .decl 0]) = some s ∧
    s.returned = [0, 1] ∧ s.declared = [0, 1] ∧ s.decls = [] ∧ s.hist = [] ∧ s.queuedFor 0 = [(0, 'x')] ∧ s.queuedFor 1 = [(1, 'y')] := ⟨_, rfl, by decide⟩

/-- **C30**, what holds (partial: declarations must not overlap, and the messages were published one after the other before the first declaration): the first consumer
receives the whole backlog, in the order of publication. -/
theorem C30_replay_partial {cfg : Cfg} {os1 os2 : List (BOp M)} {name : Nat} {s1 s2 : BSt M} (hper : cfg.persistent = true)
    (h1 : Lts.run (BSt.stepAlone cfg) BSt.init os1 = some s1) (hno1 : ∀ o ∈ os1, o.isDeclare = false) (hret : s1.pubs = [])
    (h2 : Lts.run (BSt.stepAlone cfg) s1 (.declare name :: os2) = some s2) (hno2 : ∀ o ∈ os2, o.isPublish = false) (hd : name ∈ s2.declared) :
    (s2.receivedBy name ++ s2.queuedFor name).map Prod.snd = publishedBy os1 := by
  obtain ⟨hc, hdl, hb⟩ := backlog_run hper hno1 h1
  have hh : s1.hist.map Prod.snd = publishedBy os1 := by
    rcases hb with ⟨_, hb⟩ | ⟨p, hp, _⟩
    · exact hb
    · rw [hret] at hp; simp at hp
  obtain ⟨s', hs, h3⟩ := Lts.run_cons.1 h2
  have hrun1 := runAlone_run h1
  have hdecl : s1.declared = [] := by
    have := (nameInv_run hrun1).declared
    cases hdd : s1.declared with
    | nil => rfl
    | cons n ns => have := this n (by simp [hdd]); simp [BSt.names, hc] at this
  have hstart : Replay name s1.hist s' := by
    have hst := br_of_step (stepAlone_step hs)
    cases hst with
    | declOld _ hw hr hf => simp [BSt.find, hc] at hf
    | declNew _ hw hr hf => exact ⟨hret, .inl ⟨hc, hdecl, ⟨name, .check⟩, by simp [hdl, hper], rfl, rfl, by simp⟩⟩
    | chan _ nm c ch k ho => rcases ho with ho | ho | ho <;> simp at ho
  have hfin : Replay name s1.hist s2 := by
    have h1' : BSt.init.run cfg (os1 ++ [.declare name]) = some s' := Lts.run_snoc.2 ⟨s1, hrun1, stepAlone_step hs⟩
    revert hno2
    refine Lts.run_induction (step := BSt.stepAlone cfg) (P := fun os s => (∀ o ∈ os, o.isPublish = false) → Replay name s1.hist s) (fun _ => hstart) ?_ os2 s2 h3
    intro os o s s'' hr ih hst hno
    have hr' : BSt.init.run cfg (os1 ++ [.declare name] ++ os) = some s := Lts.run_append.2 ⟨s', h1', runAlone_run hr⟩
    exact replay_step (nameInv_run hr') (histInv_run hr') (consOk_run hr') (hno o (by simp)) (ih (fun x hx => hno x (by simp [hx]))) hst
  have hrun : BSt.init.run cfg (os1 ++ .declare name :: os2) = some s2 := Lts.run_append.2 ⟨s1, hrun1, runAlone_run h2⟩
  rcases hfin.2 with ⟨_, hdn, _⟩ | ⟨c, hcm, hcn, hcl⟩
  · rw [hdn] at hd; simp at hd
  · obtain ⟨c', hc'⟩ := find_of_name (s := s2) (n := name) (List.mem_map.2 ⟨c, hcm, hcn⟩)
    have hcc : c = c' := eq_of_name (List.nodup_append.1 (nameInv_run hrun).nodup).1 hcm (find_some hc').1 (hcn.trans (find_some hc').2.symm)
    subst hcc
    rw [received_queued, hc', ← hh, ← hcl]

/-- Two messages, then two declarations one after the other; some have been received. -/
example : ∃ s1 s2, Lts.run (BSt.stepAlone (two true)) BSt.init ([.publish 'x', .pub 0 0, .pub 0 0, .pub 0 0, .pub 0 0, .pub 0 0, .pub 0 0] ++
      [.publish 'y', .pub 0 0, .pub 0 0, .pub 0 0, .pub 0 0, .pub 0 0, .pub 0 0]) = some s1 ∧ s1.pubs = [] ∧
    Lts.run (BSt.stepAlone (two true)) s1 (.declare 0 :: [.decl 0, .decl 0, .decl 0, .decl 0, .decl 0, .declare 1, .poll 0 3, .pop 0 3, .decl 0, .decl 0]) = some s2 ∧
    s2.declared = [0, 1] ∧ s2.receivedBy 0 = [(0, 'x')] ∧ s2.queuedFor 0 = [(1, 'y')] := ⟨_, _, rfl, by decide, rfl, by decide⟩

/-- **C61**: calls of `publish` and `declare_consumer` always return. In every reachable state with a running call some running call can take a step (no deadlock on the
shard locks), and from every state the running calls can take only finitely many steps together, whatever consumers do meanwhile. -/
theorem C61_no_deadlock {cfg : Cfg} {os : List (BOp M)} {s : BSt M} (h : BSt.init.run cfg os = some s) (hne : s.pubs ≠ [] ∨ s.decls ≠ []) :
    ∃ o s', o.isCallStep = true ∧ s.step cfg o = some s' := call_enabled (nameInv_run h) hne

theorem left_other {cfg : Cfg} {s s' : BSt M} {o : BOp M} (hp : o.isPublish = false) (hd : o.isDeclare = false) (h : s.step cfg o = some s') :
    s'.left cfg + (if o.isCallStep then 1 else 0) ≤ s.left cfg := by
  by_cases hc : o.isCallStep = true
  · have := left_step hc h; simp [hc]; omega
  · cases br_of_step h with
    | publish => simp [BOp.isPublish] at hp
    | declOld => simp [BOp.isDeclare] at hd
    | declNew => simp [BOp.isDeclare] at hd
    | chan o nm c ch k ho => simp [hc, BSt.left, BSt.onCons]
    | _ => simp [BOp.isCallStep] at hc

/-- The second half of **C61**: the number of steps of running calls in any execution without new calls is bounded by a number depending on the first state only. -/
theorem C61_finite (cfg : Cfg) (s : BSt M) : ∃ bound, ∀ os s', (∀ o ∈ os, o.isPublish = false ∧ o.isDeclare = false) → s.run cfg os = some s' →
    os.countP BOp.isCallStep ≤ bound := by
  refine ⟨s.left cfg, ?_⟩
  intro os
  induction os generalizing s with
  | nil => intro s' _ _; simp
  | cons o os ih =>
    intro s' hno h
    obtain ⟨s1, h1, h2⟩ := Lts.run_cons.1 h
    have hl := left_other (hno o (by simp)).1 (hno o (by simp)).2 h1
    have := ih s1 s' (fun x hx => hno x (by simp [hx])) h2
    rw [List.countP_cons]
    omega

end InMem
end Paladin
