import Verif.Proofs.BroadcastCons
/-! # Broadcast queue: a published message reaches the consumers it is owed to -/
namespace Paladin
namespace InMem

/-- Consumer `name` has been given message `n`, or the call publishing `n` has yet to come to it. -/
def Owed (cfg : Cfg) (n name : Nat) (s : BSt M) : Prop :=
  ∃ c ∈ s.cons, c.name = name ∧ (n ∈ c.ids ∨ ∃ p ∈ s.pubs, p.id = n ∧ (p.pc.ahead cfg name ∨ p.pc.isPush name = true))

theorem Owed.goto {cfg : Cfg} {n name : Nat} {s s' : BSt M} {i : Nat} {p p' : Pub M} (h : Owed cfg n name s) (hp : s.pubs[i]? = some p) (hs : s'.pubs = s.pubs.set i p')
    (hc : ∀ c ∈ s.cons, c.name = name → ∃ c' ∈ s'.cons, c'.name = name ∧ (n ∈ c.ids → n ∈ c'.ids)) (h1 : p'.id = p.id)
    (hpc : p.id = n → (p.pc.ahead cfg name ∨ p.pc.isPush name = true) → (p'.pc.ahead cfg name ∨ p'.pc.isPush name = true) ∨ ∀ c ∈ s'.cons, c.name = name → n ∈ c.ids) :
    Owed cfg n name s' := by
  obtain ⟨c, hcm, hcn, h⟩ := h
  obtain ⟨c', hc'm, hc'n, hids⟩ := hc c hcm hcn
  refine ⟨c', hc'm, hc'n, ?_⟩
  rcases h with h | ⟨q, hq, hqn, hqa⟩
  · exact .inl (hids h)
  · rcases mem_set_of_mem (x := p') hp hq with rfl | hq'
    · rcases hpc hqn hqa with h2 | h2
      · exact .inr ⟨p', by rw [hs]; exact mem_set_self hp, by rw [h1]; exact hqn, h2⟩
      · exact .inl (h2 c' hc'm hc'n)
    · exact .inr ⟨q, by rw [hs]; exact hq', hqn, hqa⟩

theorem owed_step {cfg : Cfg} {pd : List M} {n name : Nat} {s s' : BSt M} {o : BOp M} (hid : IdInv pd s) (hn : NameInv cfg s) (hk : ∀ c ∈ s.cons, ConsOk cfg pd s.pubs c)
    (hi : Owed cfg n name s) (h : s.step cfg o = some s') : Owed cfg n name s' := by
  have hst := br_of_step h
  clear h
  have hnn : s.names.Nodup := (List.nodup_append.1 hn.nodup).1
  have same : ∀ {t : BSt M}, t.cons = s.cons → ∀ c ∈ s.cons, c.name = name → ∃ c' ∈ t.cons, c'.name = name ∧ (n ∈ c.ids → n ∈ c'.ids) := by
    intro t ht c hc hcn; exact ⟨c, by rw [ht]; exact hc, hcn, fun h => h⟩
  have mono : ∀ {t : BSt M}, (∀ p ∈ s.pubs, p ∈ t.pubs) → (∀ c ∈ s.cons, c.name = name → ∃ c' ∈ t.cons, c'.name = name ∧ (n ∈ c.ids → n ∈ c'.ids)) → Owed cfg n name t := by
    intro t h1 h2
    obtain ⟨c, hcm, hcn, h⟩ := hi
    obtain ⟨c', hc'm, hc'n, hids⟩ := h2 c hcm hcn
    refine ⟨c', hc'm, hc'n, h.imp hids ?_⟩
    rintro ⟨p, hp, hpp⟩; exact ⟨p, h1 p hp, hpp⟩
  cases hst with
  | publish m => exact mono (by simp [BSt.publish]; exact fun p hp => .inl hp) (same rfl)
  | count i j k acc p hp hpc => exact hi.goto hp rfl (same rfl) rfl (fun _ _ => .inl (.inl trivial))
  | countHist i j k acc p hp hpc => exact hi.goto hp rfl (same rfl) rfl (fun _ _ => .inl (.inl trivial))
  | countEnter i j k acc p hp hpc => exact hi.goto hp rfl (same rfl) rfl (fun _ _ => .inl (.inl trivial))
  | hist i j p hp hpc => exact hi.goto hp rfl (same rfl) rfl (fun _ _ => .inl (.inl trivial))
  | enter i j p hp hpc hw =>
    refine hi.goto hp rfl (same rfl) rfl (fun _ _ => .inl (.inl ?_))
    obtain ⟨c, hcm, hcn, _⟩ := hi
    simp only [PubPc.ahead]
    by_cases h0 : cfg.shard name = 0
    · left; simp only [BSt.inShard, List.mem_filter, List.mem_map]; exact ⟨⟨c, hcm, hcn⟩, by simp [h0]⟩
    · right; omega
  | next i j k p hp hpc hkl hw =>
    refine hi.goto hp rfl (same rfl) rfl (fun _ ha => .inl (.inl ?_))
    obtain ⟨c, hcm, hcn, _⟩ := hi
    simp [hpc, PubPc.ahead, PubPc.isPush] at ha
    simp only [PubPc.ahead]
    by_cases h0 : cfg.shard name = k + 1
    · left; simp only [BSt.inShard, List.mem_filter, List.mem_map]; exact ⟨⟨c, hcm, hcn⟩, by simp [h0]⟩
    · right; omega
  | ret i j k p hp hpc hkl =>
    obtain ⟨c, hcm, hcn, h⟩ := hi
    refine ⟨c, hcm, hcn, ?_⟩
    rcases h with h | ⟨q, hq, hqn, hqa⟩
    · exact .inl h
    · rcases mem_eraseIdx_of_mem hp hq with rfl | hq'
      · simp [hpc, PubPc.ahead, PubPc.isPush] at hqa
        have : cfg.shard name < cfg.lastShard + 1 := Nat.mod_lt _ (by omega)
        omega
      · exact .inr ⟨q, hq', hqn, hqa⟩
  | skip i j k nm todo p c' hp hpc hj hf hper hs =>
    refine hi.goto hp rfl (same rfl) rfl (fun hpn ha => ?_)
    by_cases hnm : nm = name
    · right
      intro c hc hcn
      obtain ⟨hf1, hf2⟩ := find_some hf
      have hcc : c = c' := eq_of_name hnn hc hf1 (hcn.trans (hnm.symm.trans hf2.symm))
      subst hcc
      rcases (hk c hc).sup hper _ hs with h2 | ⟨q, hq, hqn, hqp⟩
      · rw [← hpn]; exact h2
      · have := hid.eq_of_id hq (List.mem_of_getElem? hp) hqn
        subst this
        simp [hpc, PubPc.isPush] at hqp
    · left; left
      simp only [hpc, PubPc.ahead, PubPc.isPush] at ha ⊢
      rcases ha with (ha | ha) | ha
      · left
        rcases mem_eraseIdx_of_mem hj ha with h | h
        · exact absurd h.symm hnm
        · exact h
      · exact .inr ha
      · simp at ha
  | mark i j k nm todo p c' hp hpc hj hf hper hs =>
    refine hi.goto hp rfl ?_ rfl (fun hpn ha => .inl ?_)
    · intro c hc hcn
      refine ⟨_, mem_onCons.2 ⟨c, hc, rfl⟩, ?_, ?_⟩ <;> split <;> first | exact hcn | exact fun h => h
    · simp only [hpc, PubPc.ahead, PubPc.isPush] at ha ⊢
      rcases ha with (ha | ha) | ha
      · rcases mem_eraseIdx_of_mem hj ha with h | h
        · exact .inr (by simp [h])
        · exact .inl (.inl h)
      · exact .inl (.inr ha)
      · simp at ha
  | visit i j k nm todo p c' hp hpc hj hf hper =>
    refine hi.goto hp rfl (same rfl) rfl (fun hpn ha => .inl ?_)
    simp only [hpc, PubPc.ahead, PubPc.isPush] at ha ⊢
    rcases ha with (ha | ha) | ha
    · rcases mem_eraseIdx_of_mem hj ha with h | h
      · exact .inr (by simp [h])
      · exact .inl (.inl h)
    · exact .inl (.inr ha)
    · simp at ha
  | push i j k nm todo p hp hpc =>
    have hids : ∀ c : Cons M, Cons.ids { c with chan := c.chan.push (p.id, p.msg) } = c.ids ++ [p.id] := by
      intro c; simp [Cons.ids, Chan.push, Chan.log]
    refine hi.goto hp rfl ?_ rfl (fun hpn ha => ?_)
    · intro c hc hcn
      refine ⟨_, mem_onCons.2 ⟨c, hc, rfl⟩, ?_, ?_⟩
      · split <;> exact hcn
      · split
        · intro h; rw [hids]; simp [h]
        · exact fun h => h
    · simp only [hpc, PubPc.ahead, PubPc.isPush] at ha
      rcases ha with ha | ha
      · exact .inl (.inl ha)
      · right
        simp at ha; subst ha
        intro c hc hcn
        obtain ⟨c0, hc0, rfl⟩ := mem_onCons.1 hc
        split
        · rw [hids, hpn]; simp
        · rename_i hne
          rw [if_neg hne] at hcn
          exact absurd hcn hne
  | permit i j k nm todo p hp hpc =>
    have hids : ∀ c : Cons M, Cons.ids { c with chan := c.chan.releaseOne } = c.ids := by
      intro c; simp [Cons.ids, Chan.releaseOne_log]
    refine hi.goto hp rfl ?_ rfl (fun hpn ha => .inl (.inl ?_))
    · intro c hc hcn
      refine ⟨_, mem_onCons.2 ⟨c, hc, rfl⟩, ?_, ?_⟩
      · split <;> exact hcn
      · split
        · intro h; rw [hids]; exact h
        · exact fun h => h
    · simp [hpc, PubPc.ahead, PubPc.isPush] at ha ⊢
      exact ha
  | insert i d buf seen hd hpc =>
    refine mono (fun p hp => hp) (fun c hc hcn => ⟨c, by simp [hc], hcn, fun h => h⟩)
  | chan o nm c0 ch h ho hf hc =>
    refine mono (fun p hp => hp) ?_
    intro c hcm hcn
    refine ⟨_, mem_onCons.2 ⟨c, hcm, rfl⟩, ?_, ?_⟩
    · split <;> exact hcn
    · split
      · rename_i hnm
        obtain ⟨hf1, hf2⟩ := find_some hf
        have hcc : c = c0 := eq_of_name hnn hcm hf1 (hnm.trans hf2.symm)
        subst hcc
        have h1 := (Chan.handle_step (hk c hcm).inv hc).1
        intro h; simp only [Cons.ids, h1]; exact h
      · exact fun h => h
  | _ => exact mono (fun p hp => hp) (same rfl)

/-- Message `n` is in the history, in the hands of a declaration, or was given to a consumer. -/
def Placed (n : Nat) (s : BSt M) : Prop := n ∈ s.kept.map Prod.fst ∨ ∃ c ∈ s.cons, n ∈ c.ids

theorem placed_step {cfg : Cfg} {pd : List M} {n : Nat} {s s' : BSt M} {o : BOp M} (hid : IdInv pd s) (hn : NameInv cfg s) (hh : HistInv cfg pd s)
    (hk : ∀ c ∈ s.cons, ConsOk cfg pd s.pubs c)
    (hi : Placed n s) (h : s.step cfg o = some s') : Placed n s' := by
  rcases hi with hi | ⟨c, hc, hcn⟩
  · -- in the history or taken from it
    have hst := br_of_step h
    clear h
    have keep : ∀ {t : BSt M}, t.kept = s.kept → Placed n t := fun ht => .inl (by rw [ht]; exact hi)
    have perm : ∀ {t : BSt M}, t.kept.Perm s.kept → Placed n t := fun ht => .inl ((ht.map _).mem_iff.2 hi)
    cases hst with
    | hist i j p hp hpc =>
      left
      simp only [BSt.kept, List.map_append, List.mem_append] at hi ⊢
      rcases hi with hi | hi
      · exact .inl (.inl hi)
      · exact .inr hi
    | declNew name hw hr hf =>
      left
      simp only [BSt.kept, List.map_append, List.mem_append, List.flatMap_append] at hi ⊢
      rcases hi with hi | hi
      · exact .inl hi
      · exact .inr (.inl hi)
    | check i d hd hpc =>
      have hb : d.buf = [] := by simp [Decl.buf, hpc]
      have h1 : Decl.buf ({ d with pc := if s.hist = [] then .insert [] [] else .drain [] [] } : Decl M) = [] := by
        unfold Decl.buf; by_cases hh : s.hist = [] <;> simp [hh]
      have := flatMap_set (f := Decl.buf) (x := { d with pc := if s.hist = [] then .insert [] [] else .drain [] [] }) hd
      rw [hb, h1] at this
      simp only [List.append_nil] at this
      exact perm (this.append_left s.hist)
    | drained i d buf seen hd hpc hhh =>
      have hb : d.buf = buf := by simp [Decl.buf, hpc]
      have := flatMap_set (f := Decl.buf) (x := { d with pc := .insert buf seen }) hd
      rw [hb] at this
      exact perm (((List.perm_append_right_iff buf).1 this).append_left s.hist)
    | drainDup i d buf seen x rest hd hpc hhh hx =>
      exfalso
      have hb : d.buf = buf := by simp [Decl.buf, hpc]
      have hsn : d.seen = seen := by simp [Decl.seen, hpc]
      have h1 := hh.seen d (List.mem_of_getElem? hd)
      rw [hb, hsn] at h1
      rw [h1] at hx
      simp only [List.mem_reverse] at hx
      have hnd := hh.nodup
      simp only [BSt.kept, hhh, List.map_append, List.cons_append, List.map_cons, List.nodup_cons] at hnd
      apply hnd.1
      refine List.mem_append_right _ ?_
      obtain ⟨y, hy, hye⟩ := List.mem_map.1 hx
      rw [List.mem_map]
      exact ⟨y, List.mem_flatMap.2 ⟨d, List.mem_of_getElem? hd, by rw [hb]; exact hy⟩, hye⟩
    | drain i d buf seen x rest hd hpc hhh hx =>
      have hb : d.buf = buf := by simp [Decl.buf, hpc]
      have := flatMap_set (f := Decl.buf) (x := { d with pc := .drain (buf ++ [x]) (x.1 :: seen) }) hd
      rw [hb] at this
      have h2 : ((s.decls.set i { d with pc := .drain (buf ++ [x]) (x.1 :: seen) }).flatMap Decl.buf).Perm ([x] ++ s.decls.flatMap Decl.buf) := by
        apply (List.perm_append_right_iff buf).1
        refine this.trans ?_
        show (s.decls.flatMap Decl.buf ++ (buf ++ [x])).Perm _
        rw [← List.append_assoc]
        refine List.perm_append_comm.trans ?_
        rw [List.append_assoc]
      apply perm
      simp only [BSt.kept, hhh]
      refine (h2.append_left rest).trans ?_
      refine (List.perm_append_comm_assoc rest [x] _).trans ?_
      simp
    | insert i d buf seen hd hpc =>
      have hb : d.buf = buf := by simp [Decl.buf, hpc]
      have hp := flatMap_eraseIdx (f := Decl.buf) hd
      rw [hb] at hp
      simp only [BSt.kept, List.map_append, List.mem_append] at hi
      rw [← (hp.map _).mem_iff] at hi
      simp only [List.map_append, List.mem_append] at hi
      rcases hi with hi | hi | hi
      · left; simp only [BSt.kept, List.map_append, List.mem_append]; exact .inl hi
      · left; simp only [BSt.kept, List.map_append, List.mem_append]; exact .inr hi
      · right
        refine ⟨⟨d.name, Chan.fresh buf seen.length, seen⟩, by simp, ?_⟩
        simpa [Cons.ids, Chan.fresh, Chan.log] using hi
    | _ => exact keep rfl
  · obtain ⟨c', hc', _, h'⟩ := owed_step hid hn hk (⟨c, hc, rfl, .inl hcn⟩ : Owed cfg n c.name s) h
    rcases h' with h' | ⟨p, hp, hpn, hpa⟩
    · exact .inr ⟨c', hc', h'⟩
    · -- the queues only grow
      have hst := br_of_step h
      clear h
      have hnn : s.names.Nodup := (List.nodup_append.1 hn.nodup).1
      have grow : ∀ {nm : Nat} {f : Cons M → Cons M} {t : BSt M}, t.cons = (s.onCons nm f).cons → (∀ d ∈ s.cons, n ∈ d.ids → d.name = nm → n ∈ (f d).ids) → Placed n t := by
        intro nm f t ht hf
        right
        refine ⟨_, by rw [ht]; exact mem_onCons.2 ⟨c, hc, rfl⟩, ?_⟩
        split
        · exact hf c hc hcn ‹_›
        · exact hcn
      cases hst with
      | mark i j k nm todo p c' hp hpc hj hf hper hs => exact grow (nm := nm) (f := fun c => { c with seen := p.id :: c.seen }) rfl (fun d _ h _ => h)
      | push i j k nm todo p hp hpc =>
        refine grow (nm := nm) (f := fun c => { c with chan := c.chan.push (p.id, p.msg) }) rfl (fun d _ h _ => ?_)
        have : Cons.ids { d with chan := d.chan.push (p.id, p.msg) } = d.ids ++ [p.id] := by simp [Cons.ids, Chan.push, Chan.log]
        rw [this]; simp [h]
      | permit i j k nm todo p hp hpc =>
        refine grow (nm := nm) (f := fun c => { c with chan := c.chan.releaseOne }) rfl (fun d _ h _ => ?_)
        simp only [Cons.ids, Chan.releaseOne_log]; exact h
      | insert i d buf seen hd hpc => exact .inr ⟨c, by simp [hc], hcn⟩
      | chan o nm c0 ch h ho hf hcc =>
        refine grow (nm := nm) (f := fun c => { c with chan := ch }) rfl (fun d hd hdn hdm => ?_)
        obtain ⟨hf1, hf2⟩ := find_some hf
        have : d = c0 := eq_of_name hnn hd hf1 (hdm.trans hf2.symm)
        subst this
        have h1 := (Chan.handle_step (hk d hd).inv hcc).1
        simp only [Cons.ids, h1]; exact hdn
      | _ => exact .inr ⟨c, hc, hcn⟩

/-- Persistent mode: nothing published is forgotten. -/
structure KeptInv (cfg : Cfg) (s : BSt M) : Prop where
  counted : ∀ p ∈ s.pubs, ∀ k acc, p.pc = .count k acc → acc ≠ 0 → s.cons ≠ []
  late : ∀ p ∈ s.pubs, p.pc.early = false → Placed p.id s ∨ ∃ name, Owed cfg p.id name s
  ret : ∀ n ∈ s.returned, Placed n s

theorem keptInv_step {cfg : Cfg} {pd : List M} {s s' : BSt M} {o : BOp M} (hper : cfg.persistent = true) (hid : IdInv pd s) (hn : NameInv cfg s) (hh : HistInv cfg pd s)
    (hk : ∀ c ∈ s.cons, ConsOk cfg pd s.pubs c) (hi : KeptInv cfg s) (h : s.step cfg o = some s') : KeptInv cfg s' := by
  have hpl : ∀ {n : Nat}, Placed n s → Placed n s' := fun hp => placed_step hid hn hh hk hp h
  have how : ∀ {n name : Nat}, Owed cfg n name s → Owed cfg n name s' := fun ho => owed_step hid hn hk ho h
  have hlate : ∀ {n : Nat}, (Placed n s ∨ ∃ name, Owed cfg n name s) → (Placed n s' ∨ ∃ name, Owed cfg n name s') :=
    fun h => h.imp hpl (fun ⟨m, hm⟩ => ⟨m, how hm⟩)
  have hcons : s.cons ≠ [] → s'.cons ≠ [] := by
    intro hne
    obtain ⟨c, hc⟩ := List.exists_mem_of_ne_nil _ hne
    have := how (n := s.ctr) (name := c.name)
    have hst := br_of_step h
    cases hst with
    | mark | push | permit | chan => simp [BSt.onCons]; exact hne
    | insert => simp
    | _ => exact hne
  have hst := br_of_step h
  have step : ∀ {i : Nat} {p p' : Pub M}, s.pubs[i]? = some p → s'.pubs = s.pubs.set i p' → s'.returned = s.returned → p'.id = p.id →
      (∀ k acc, p'.pc = .count k acc → acc ≠ 0 → s'.cons ≠ []) → (p'.pc.early = false → p.pc.early = false ∨ Placed p.id s' ∨ ∃ name, Owed cfg p.id name s') → KeptInv cfg s' := by
    intro i p p' hp hs hr h1 hc hl
    refine ⟨?_, ?_, by rw [hr]; exact fun n hn => hpl (hi.ret n hn)⟩
    · intro q hq k acc hqc ha
      rw [hs] at hq
      rcases List.mem_or_eq_of_mem_set hq with hq | rfl
      · exact hcons (hi.counted q hq k acc hqc ha)
      · exact hc k acc hqc ha
    · intro q hq hqe
      rw [hs] at hq
      rcases List.mem_or_eq_of_mem_set hq with hq | rfl
      · exact hlate (hi.late q hq hqe)
      · rw [h1]
        rcases hl hqe with h2 | h2
        · exact hlate (hi.late p (List.mem_of_getElem? hp) h2)
        · exact h2
  have same : s'.pubs = s.pubs → s'.returned = s.returned → KeptInv cfg s' := by
    intro h1 h2
    refine ⟨?_, ?_, by rw [h2]; exact fun n hn => hpl (hi.ret n hn)⟩
    · rw [h1]; exact fun q hq k acc hqc ha => hcons (hi.counted q hq k acc hqc ha)
    · rw [h1]; exact fun q hq hqe => hlate (hi.late q hq hqe)
  cases hst with
  | publish m =>
    refine ⟨?_, ?_, fun n hn => hpl (hi.ret n hn)⟩
    · intro q hq k acc hqc ha
      simp [BSt.publish] at hq
      rcases hq with hq | rfl
      · exact hcons (hi.counted q hq k acc hqc ha)
      · simp [hper] at hqc; omega
    · intro q hq hqe
      simp [BSt.publish] at hq
      rcases hq with hq | rfl
      · exact hlate (hi.late q hq hqe)
      · simp [hper, PubPc.early] at hqe
  | count i j k acc p hp hpc hkl hw =>
    refine step hp rfl rfl rfl ?_ (by simp [PubPc.early])
    intro k' acc' he ha
    simp at he
    by_cases hz : acc = 0
    · intro hnil
      simp only [goto_cons] at hnil
      apply ha
      rw [← he.2, hz]
      simp [BSt.inShard, hnil]
    · exact hi.counted p (List.mem_of_getElem? hp) k acc hpc hz
  | countHist i j k acc p hp hpc hkl hw h0 => exact step hp rfl rfl rfl (by simp) (by simp [PubPc.early])
  | countEnter i j k acc p hp hpc hkl hw h0 =>
    refine step hp rfl rfl rfl (by simp) (fun _ => .inr (.inr ?_))
    have hne : s.cons ≠ [] := by
      by_cases hz : acc = 0
      · intro hnil
        apply h0
        simp [BSt.inShard, hnil, hz]
      · exact hi.counted p (List.mem_of_getElem? hp) k acc hpc hz
    obtain ⟨c, hc⟩ := List.exists_mem_of_ne_nil _ hne
    exact ⟨c.name, c, hc, rfl, .inr ⟨_, mem_set_self hp, rfl, .inl trivial⟩⟩
  | hist i j p hp hpc =>
    refine step hp rfl rfl rfl (by simp) (fun _ => .inr (.inl (.inl ?_)))
    simp [BSt.kept]
  | enter i j p hp hpc hw => exact step hp rfl rfl rfl (by simp) (fun _ => .inl (by simp [hpc, PubPc.early]))
  | next i j k p hp hpc hkl hw => exact step hp rfl rfl rfl (by simp) (fun _ => .inl (by simp [hpc, PubPc.early]))
  | skip i j k nm todo p c' hp hpc hj hf hper hs => exact step hp rfl rfl rfl (by simp) (fun _ => .inl (by simp [hpc, PubPc.early]))
  | mark i j k nm todo p c' hp hpc hj hf hper hs => exact step hp rfl rfl rfl (by simp) (fun _ => .inl (by simp [hpc, PubPc.early]))
  | visit i j k nm todo p c' hp hpc hj hf hper => exact step hp rfl rfl rfl (by simp) (fun _ => .inl (by simp [hpc, PubPc.early]))
  | push i j k nm todo p hp hpc => exact step hp rfl rfl rfl (by simp) (fun _ => .inl (by simp [hpc, PubPc.early]))
  | permit i j k nm todo p hp hpc => exact step hp rfl rfl rfl (by simp) (fun _ => .inl (by simp [hpc, PubPc.early]))
  | ret i j k p hp hpc hkl =>
    have hsub : ∀ q ∈ s.pubs.eraseIdx i, q ∈ s.pubs := fun q hq => List.mem_of_mem_eraseIdx hq
    refine ⟨fun q hq k acc hqc ha => hcons (hi.counted q (hsub q hq) k acc hqc ha), fun q hq hqe => hlate (hi.late q (hsub q hq) hqe), ?_⟩
    intro n hn'
    simp at hn'
    rcases hn' with hn' | rfl
    · exact hpl (hi.ret n hn')
    · rcases hlate (hi.late p (List.mem_of_getElem? hp) (by simp [hpc, PubPc.early])) with h1 | ⟨name, c, hc, hcn, h1⟩
      · exact h1
      · rcases h1 with h1 | ⟨q, hq, hqn, _⟩
        · exact .inr ⟨c, hc, h1⟩
        · exact absurd hqn (eraseIdx_ne hid.nodup hp hq)
  | _ => exact same rfl rfl

theorem keptInv_run {cfg : Cfg} {os : List (BOp M)} {s : BSt M} (hper : cfg.persistent = true) (h : BSt.init.run cfg os = some s) : KeptInv cfg s := by
  refine Lts.run_induction (step := BSt.step cfg) (P := fun _ s => KeptInv cfg s) ?_ ?_ os s h
  · exact ⟨by simp [BSt.init], by simp [BSt.init], by simp [BSt.init]⟩
  · intro os o s s' hr ih hs
    exact keptInv_step hper (idInv_run hr) (nameInv_run hr) (histInv_run hr) (consOk_run hr) ih hs

end InMem
end Paladin
