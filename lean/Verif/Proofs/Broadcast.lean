import Verif.Model.Broadcast
import Verif.Proofs.InMem
/-! # Case analysis and invariants of the broadcast queue: threads, ids, names, history -/
namespace Paladin
namespace InMem

/-- What a step of the broadcast queue does. -/
inductive BR (cfg : Cfg) (s : BSt M) : BOp M → BSt M → Prop
  | publish (m : M) : BR cfg s (.publish m) (s.publish cfg m)
  | count (i j k acc : Nat) (p : Pub M) (hp : s.pubs[i]? = some p) (hpc : p.pc = .count k acc) (hk : k < cfg.lastShard) (hw : s.writeLocked cfg k = false) :
      BR cfg s (.pub i j) (s.goto i p (.count (k + 1) (acc + (s.inShard cfg k).length)))
  | countHist (i j k acc : Nat) (p : Pub M) (hp : s.pubs[i]? = some p) (hpc : p.pc = .count k acc) (hk : ¬ k < cfg.lastShard) (hw : s.writeLocked cfg k = false)
      (h0 : acc + (s.inShard cfg k).length = 0) : BR cfg s (.pub i j) (s.goto i p .hist)
  | countEnter (i j k acc : Nat) (p : Pub M) (hp : s.pubs[i]? = some p) (hpc : p.pc = .count k acc) (hk : ¬ k < cfg.lastShard) (hw : s.writeLocked cfg k = false)
      (h0 : acc + (s.inShard cfg k).length ≠ 0) : BR cfg s (.pub i j) (s.goto i p .enter)
  | hist (i j : Nat) (p : Pub M) (hp : s.pubs[i]? = some p) (hpc : p.pc = .hist) :
      BR cfg s (.pub i j) { s.goto i p .enter with hist := s.hist ++ [(p.id, p.msg)] }
  | enter (i j : Nat) (p : Pub M) (hp : s.pubs[i]? = some p) (hpc : p.pc = .enter) (hw : s.writeLocked cfg 0 = false) :
      BR cfg s (.pub i j) (s.goto i p (.iter 0 (s.inShard cfg 0)))
  | next (i j k : Nat) (p : Pub M) (hp : s.pubs[i]? = some p) (hpc : p.pc = .iter k []) (hk : k < cfg.lastShard) (hw : s.writeLocked cfg (k + 1) = false) :
      BR cfg s (.pub i j) (s.goto i p (.iter (k + 1) (s.inShard cfg (k + 1))))
  | ret (i j k : Nat) (p : Pub M) (hp : s.pubs[i]? = some p) (hpc : p.pc = .iter k []) (hk : ¬ k < cfg.lastShard) :
      BR cfg s (.pub i j) { s with pubs := s.pubs.eraseIdx i, returned := s.returned ++ [p.id] }
  | skip (i j k name : Nat) (todo : List Nat) (p : Pub M) (c : Cons M) (hp : s.pubs[i]? = some p) (hpc : p.pc = .iter k todo) (hj : todo[j]? = some name)
      (hf : s.find name = some c) (hper : cfg.persistent = true) (hs : p.id ∈ c.seen) : BR cfg s (.pub i j) (s.goto i p (.iter k (todo.eraseIdx j)))
  | mark (i j k name : Nat) (todo : List Nat) (p : Pub M) (c : Cons M) (hp : s.pubs[i]? = some p) (hpc : p.pc = .iter k todo) (hj : todo[j]? = some name)
      (hf : s.find name = some c) (hper : cfg.persistent = true) (hs : p.id ∉ c.seen) :
      BR cfg s (.pub i j) ((s.goto i p (.push k name (todo.eraseIdx j))).onCons name fun c => { c with seen := p.id :: c.seen })
  | visit (i j k name : Nat) (todo : List Nat) (p : Pub M) (c : Cons M) (hp : s.pubs[i]? = some p) (hpc : p.pc = .iter k todo) (hj : todo[j]? = some name)
      (hf : s.find name = some c) (hper : cfg.persistent = false) : BR cfg s (.pub i j) (s.goto i p (.push k name (todo.eraseIdx j)))
  | push (i j k name : Nat) (todo : List Nat) (p : Pub M) (hp : s.pubs[i]? = some p) (hpc : p.pc = .push k name todo) :
      BR cfg s (.pub i j) ((s.goto i p (.permit k name todo)).onCons name fun c => { c with chan := c.chan.push (p.id, p.msg) })
  | permit (i j k name : Nat) (todo : List Nat) (p : Pub M) (hp : s.pubs[i]? = some p) (hpc : p.pc = .permit k name todo) :
      BR cfg s (.pub i j) ((s.goto i p (.iter k todo)).onCons name fun c => { c with chan := c.chan.releaseOne })
  | declOld (name : Nat) (hw : s.writeLocked cfg (cfg.shard name) = false) (hr : s.readLocked (cfg.shard name) = false) (hf : (s.find name).isSome) :
      BR cfg s (.declare name) { s with declared := s.declared ++ [name] }
  | declNew (name : Nat) (hw : s.writeLocked cfg (cfg.shard name) = false) (hr : s.readLocked (cfg.shard name) = false) (hf : s.find name = none) :
      BR cfg s (.declare name) { s with decls := s.decls ++ [⟨name, if cfg.persistent then .check else .insert [] []⟩] }
  | check (i : Nat) (d : Decl M) (hd : s.decls[i]? = some d) (hpc : d.pc = .check) :
      BR cfg s (.decl i) { s with decls := s.decls.set i { d with pc := if s.hist = [] then .insert [] [] else .drain [] [] } }
  | drained (i : Nat) (d : Decl M) (buf : List (Nat × M)) (seen : List Nat) (hd : s.decls[i]? = some d) (hpc : d.pc = .drain buf seen) (hh : s.hist = []) :
      BR cfg s (.decl i) { s with decls := s.decls.set i { d with pc := .insert buf seen } }
  | drainDup (i : Nat) (d : Decl M) (buf : List (Nat × M)) (seen : List Nat) (x : Nat × M) (rest : List (Nat × M)) (hd : s.decls[i]? = some d)
      (hpc : d.pc = .drain buf seen) (hh : s.hist = x :: rest) (hx : x.1 ∈ seen) :
      BR cfg s (.decl i) { s with hist := rest, decls := s.decls.set i { d with pc := .drain buf seen } }
  | drain (i : Nat) (d : Decl M) (buf : List (Nat × M)) (seen : List Nat) (x : Nat × M) (rest : List (Nat × M)) (hd : s.decls[i]? = some d)
      (hpc : d.pc = .drain buf seen) (hh : s.hist = x :: rest) (hx : x.1 ∉ seen) :
      BR cfg s (.decl i) { s with hist := rest, decls := s.decls.set i { d with pc := .drain (buf ++ [x]) (x.1 :: seen) } }
  | insert (i : Nat) (d : Decl M) (buf : List (Nat × M)) (seen : List Nat) (hd : s.decls[i]? = some d) (hpc : d.pc = .insert buf seen) :
      BR cfg s (.decl i) { s with cons := s.cons ++ [⟨d.name, Chan.fresh buf seen.length, seen⟩], decls := s.decls.eraseIdx i, declared := s.declared ++ [d.name] }
  | chan (o : BOp M) (name : Nat) (c : Cons M) (ch : Chan (Nat × M)) (h : Nat) (ho : o = .poll name h ∨ o = .pop name h ∨ o = .drop name h) (hf : s.find name = some c)
      (hc : c.chan.poll h = some ch ∨ c.chan.pop h = some ch ∨ c.chan.drop h = some ch) :
      BR cfg s o (s.onCons name fun c => { c with chan := ch })

theorem onChan_some {s s' : BSt M} {name : Nat} {f : Chan (Nat × M) → Option (Chan (Nat × M))} (h : s.onChan name f = some s') :
    ∃ c ch, s.find name = some c ∧ f c.chan = some ch ∧ s' = s.onCons name fun c => { c with chan := ch } := by
  unfold BSt.onChan at h
  split at h
  · simp at h
  · split at h
    · simp at h
    · rename_i c hc _ ch hch
      simp at h
      exact ⟨c, ch, hc, hch, h.symm⟩

theorem br_of_step {cfg : Cfg} {s s' : BSt M} {o : BOp M} (h : s.step cfg o = some s') : BR cfg s o s' := by
  cases o with
  | publish m => simp [BSt.step] at h; subst h; exact .publish m
  | pub i j =>
    simp only [BSt.step] at h
    split at h
    · simp at h
    rename_i p hp
    unfold BSt.pubStep at h
    split at h
    · rename_i k acc hpc
      simp only [] at h
      split at h
      · simp at h
      · rename_i hw
        simp at hw
        split at h
        · simp at h; subst h; exact .count i j k acc p hp hpc ‹_› hw
        · split at h
          · simp at h; subst h; exact .countHist i j k acc p hp hpc ‹_› hw ‹_›
          · simp at h; subst h; exact .countEnter i j k acc p hp hpc ‹_› hw ‹_›
    · rename_i hpc
      simp at h; subst h; exact .hist i j p hp hpc
    · rename_i hpc
      unfold BSt.iterate at h
      split at h
      · simp at h
      · rename_i hw; simp at hw h; subst h; exact .enter i j p hp hpc hw
    · rename_i k hpc
      split at h
      · unfold BSt.iterate at h
        split at h
        · simp at h
        · rename_i hw; simp at hw h; subst h; exact .next i j k p hp hpc ‹_› hw
      · simp at h; subst h; exact .ret i j k p hp hpc ‹_›
    · rename_i k todo _ hpc
      split at h
      · simp at h
      rename_i name hj
      split at h
      · simp at h
      rename_i c hf
      split at h
      · rename_i hper
        split at h
        · simp at h; subst h; exact .skip i j k name todo p c hp hpc hj hf hper ‹_›
        · simp at h; subst h; exact .mark i j k name todo p c hp hpc hj hf hper ‹_›
      · rename_i hper
        simp at h hper; subst h; exact .visit i j k name todo p c hp hpc hj hf hper
    · rename_i k name todo hpc
      simp at h; subst h; exact .push i j k name todo p hp hpc
    · rename_i k name todo hpc
      simp at h; subst h; exact .permit i j k name todo p hp hpc
  | declare name =>
    simp only [BSt.step, BSt.declare] at h
    split at h
    · simp at h
    · rename_i hl
      simp at hl
      split at h
      · simp at h; subst h; exact .declOld name hl.1 hl.2 ‹_›
      · rename_i hf
        simp at h hf; subst h; exact .declNew name hl.1 hl.2 hf
  | decl i =>
    simp only [BSt.step] at h
    split at h
    · simp at h
    rename_i d hd
    simp at h; subst h
    unfold BSt.declStep
    split
    · exact .check i d hd ‹_›
    · rename_i buf seen hpc
      split
      · exact .drained i d buf seen hd hpc ‹_›
      · rename_i x rest hh
        by_cases hx : x.1 ∈ seen
        · simp only [hx, ite_true]; exact .drainDup i d buf seen x rest hd hpc hh hx
        · simp only [hx, ite_false]; exact .drain i d buf seen x rest hd hpc hh hx
    · exact .insert i d _ _ hd ‹_›
  | poll name h' =>
    simp only [BSt.step] at h
    obtain ⟨c, ch, h1, h2, rfl⟩ := onChan_some h
    exact .chan _ name c ch h' (.inl rfl) h1 (.inl h2)
  | pop name h' =>
    simp only [BSt.step] at h
    obtain ⟨c, ch, h1, h2, rfl⟩ := onChan_some h
    exact .chan _ name c ch h' (.inr (.inl rfl)) h1 (.inr (.inl h2))
  | drop name h' =>
    simp only [BSt.step] at h
    obtain ⟨c, ch, h1, h2, rfl⟩ := onChan_some h
    exact .chan _ name c ch h' (.inr (.inr rfl)) h1 (.inr (.inr h2))

/-! ## Lists -/

theorem map_set_same {f : α → β} {l : List α} {i : Nat} {p x : α} (hp : l[i]? = some p) (hx : f x = f p) : (l.set i x).map f = l.map f := by
  apply List.ext_getElem?
  intro n
  simp only [List.getElem?_map, List.getElem?_set]
  split
  · subst i
    split
    · simp [hp, hx]
    · rename_i h; simp at h; simp [h] at hp
  · rfl

theorem mem_set_of_mem {l : List α} {i : Nat} {p x q : α} (hp : l[i]? = some p) (hq : q ∈ l) : q = p ∨ q ∈ l.set i x := by
  obtain ⟨n, hn⟩ := List.getElem?_of_mem hq
  by_cases h : i = n
  · subst h; rw [hp] at hn; simp at hn; exact .inl hn.symm
  · right
    apply List.mem_of_getElem? (i := n)
    rw [List.getElem?_set_ne h]; exact hn

theorem mem_eraseIdx_of_mem {l : List α} {i : Nat} {p q : α} (hp : l[i]? = some p) (hq : q ∈ l) : q = p ∨ q ∈ l.eraseIdx i := by
  obtain ⟨n, hn⟩ := List.getElem?_of_mem hq
  by_cases h : i = n
  · subst h; rw [hp] at hn; simp at hn; exact .inl hn.symm
  · right
    rw [List.mem_eraseIdx_iff_getElem?]
    exact ⟨n, fun h' => h h'.symm, hn⟩

theorem mem_set_self {l : List α} {i : Nat} {p x : α} (hp : l[i]? = some p) : x ∈ l.set i x := by
  have : i < l.length := by
    have := List.getElem?_eq_some_iff.1 hp; exact this.1
  exact List.mem_set this x

theorem countP_set {f : α → Bool} {l : List α} {i : Nat} {p x : α} (hp : l[i]? = some p) :
    (l.set i x).countP f + (if f p then 1 else 0) = l.countP f + (if f x then 1 else 0) := by
  induction l generalizing i with
  | nil => simp at hp
  | cons a l ih =>
    cases i with
    | zero => simp at hp; subst hp; simp [List.countP_cons]; omega
    | succ i =>
      simp at hp
      have := ih hp
      simp [List.countP_cons]; omega

theorem countP_eraseIdx' {f : α → Bool} {l : List α} {i : Nat} {p : α} (hp : l[i]? = some p) :
    (l.eraseIdx i).countP f + (if f p then 1 else 0) = l.countP f := by
  induction l generalizing i with
  | nil => simp at hp
  | cons a l ih =>
    cases i with
    | zero => simp at hp; subst hp; simp [List.countP_cons]
    | succ i =>
      simp at hp
      have := ih hp
      simp [List.countP_cons]; omega

theorem eraseIdx_ne {f : α → β} {l : List α} {i : Nat} {p q : α} (hn : (l.map f).Nodup) (hp : l[i]? = some p) (hq : q ∈ l.eraseIdx i) : f q ≠ f p := by
  induction l generalizing i with
  | nil => simp at hp
  | cons a l ih =>
    simp at hn
    cases i with
    | zero => simp at hp hq; subst hp; exact hn.1 q hq
    | succ i =>
      simp at hp hq
      rcases hq with rfl | hq
      · exact fun h => hn.1 p (List.mem_of_getElem? hp) h.symm
      · exact ih hn.2 hp hq

/-! ## Reading a changed state -/

@[simp] theorem goto_ctr (s : BSt M) (i : Nat) (p : Pub M) (pc : PubPc) : (s.goto i p pc).ctr = s.ctr := rfl
@[simp] theorem goto_hist (s : BSt M) (i : Nat) (p : Pub M) (pc : PubPc) : (s.goto i p pc).hist = s.hist := rfl
@[simp] theorem goto_cons (s : BSt M) (i : Nat) (p : Pub M) (pc : PubPc) : (s.goto i p pc).cons = s.cons := rfl
@[simp] theorem goto_decls (s : BSt M) (i : Nat) (p : Pub M) (pc : PubPc) : (s.goto i p pc).decls = s.decls := rfl
@[simp] theorem goto_returned (s : BSt M) (i : Nat) (p : Pub M) (pc : PubPc) : (s.goto i p pc).returned = s.returned := rfl
@[simp] theorem goto_declared (s : BSt M) (i : Nat) (p : Pub M) (pc : PubPc) : (s.goto i p pc).declared = s.declared := rfl
@[simp] theorem goto_pubs (s : BSt M) (i : Nat) (p : Pub M) (pc : PubPc) : (s.goto i p pc).pubs = s.pubs.set i { p with pc := pc } := rfl
@[simp] theorem onCons_ctr (s : BSt M) (n : Nat) (f : Cons M → Cons M) : (s.onCons n f).ctr = s.ctr := rfl
@[simp] theorem onCons_hist (s : BSt M) (n : Nat) (f : Cons M → Cons M) : (s.onCons n f).hist = s.hist := rfl
@[simp] theorem onCons_pubs (s : BSt M) (n : Nat) (f : Cons M → Cons M) : (s.onCons n f).pubs = s.pubs := rfl
@[simp] theorem onCons_decls (s : BSt M) (n : Nat) (f : Cons M → Cons M) : (s.onCons n f).decls = s.decls := rfl
@[simp] theorem onCons_returned (s : BSt M) (n : Nat) (f : Cons M → Cons M) : (s.onCons n f).returned = s.returned := rfl
@[simp] theorem onCons_declared (s : BSt M) (n : Nat) (f : Cons M → Cons M) : (s.onCons n f).declared = s.declared := rfl

/-- The names of the consumers. -/
def BSt.names (s : BSt M) : List Nat := s.cons.map (·.name)

theorem onCons_names {s : BSt M} {n : Nat} {f : Cons M → Cons M} (hf : ∀ c, (f c).name = c.name) : (s.onCons n f).names = s.names := by
  simp only [BSt.names, BSt.onCons, List.map_map]
  apply List.map_congr_left
  intro c _
  simp only [Function.comp]
  split <;> simp [hf]

theorem mem_onCons {s : BSt M} {n : Nat} {f : Cons M → Cons M} {c : Cons M} : c ∈ (s.onCons n f).cons ↔ ∃ c0 ∈ s.cons, c = if c0.name = n then f c0 else c0 := by
  simp only [BSt.onCons, List.mem_map]
  constructor
  · rintro ⟨c0, h0, rfl⟩; exact ⟨c0, h0, rfl⟩
  · rintro ⟨c0, h0, rfl⟩; exact ⟨c0, h0, rfl⟩

theorem find_some {s : BSt M} {n : Nat} {c : Cons M} (h : s.find n = some c) : c ∈ s.cons ∧ c.name = n := by
  unfold BSt.find at h
  exact ⟨List.mem_of_find?_eq_some h, by have := List.find?_some h; simpa using this⟩

theorem find_none {s : BSt M} {n : Nat} (h : s.find n = none) : n ∉ s.names := by
  unfold BSt.find at h
  simp at h
  simp only [BSt.names, List.mem_map, not_exists, not_and]
  exact fun c hc => h c hc

theorem eq_of_name {s : BSt M} (hn : s.names.Nodup) {c d : Cons M} (hc : c ∈ s.cons) (hd : d ∈ s.cons) (h : c.name = d.name) : c = d := by
  have : ∀ (l : List (Cons M)), (l.map (·.name)).Nodup → c ∈ l → d ∈ l → c = d := by
    intro l
    induction l with
    | nil => simp
    | cons a l ih =>
      intro hn hc hd
      simp at hn hc hd
      rcases hc with rfl | hc <;> rcases hd with rfl | hd
      · rfl
      · exact absurd h.symm (hn.1 d hd)
      · exact absurd h (hn.1 c hc)
      · exact ih hn.2 hc hd
  exact this _ hn hc hd

/-! ## Ids and payloads of the running calls -/

/-- Ids of running publishers are distinct, below the counter, and paired with the payload given by the caller. -/
structure IdInv (pd : List M) (s : BSt M) : Prop where
  ctr : s.ctr = pd.length
  nodup : (s.pubs.map (·.id)).Nodup
  pay : ∀ p ∈ s.pubs, pd[p.id]? = some p.msg
  ret : ∀ n ∈ s.returned, n < pd.length ∧ n ∉ s.pubs.map (·.id)
  retNd : s.returned.Nodup

theorem IdInv.id_lt {pd : List M} {s : BSt M} (h : IdInv pd s) {p : Pub M} (hp : p ∈ s.pubs) : p.id < pd.length := by
  have := h.pay p hp
  exact (List.getElem?_eq_some_iff.1 this).1

theorem IdInv.goto {pd : List M} {s s' : BSt M} {i : Nat} {p p' : Pub M} (h : IdInv pd s) (hp : s.pubs[i]? = some p) (hs : s'.pubs = s.pubs.set i p')
    (h1 : p'.id = p.id) (h2 : p'.msg = p.msg) (hc : s'.ctr = s.ctr) (hr : s'.returned = s.returned) : IdInv pd s' := by
  have hids : s'.pubs.map (·.id) = s.pubs.map (·.id) := by rw [hs]; exact map_set_same hp h1
  refine ⟨by rw [hc]; exact h.ctr, by rw [hids]; exact h.nodup, ?_, ?_, by rw [hr]; exact h.retNd⟩
  · intro q hq
    rw [hs] at hq
    rcases List.mem_or_eq_of_mem_set hq with hq | rfl
    · exact h.pay q hq
    · rw [h1, h2]; exact h.pay p (List.mem_of_getElem? hp)
  · rw [hids, hr]; exact h.ret

theorem idInv_step {cfg : Cfg} {pd : List M} {s s' : BSt M} {o : BOp M} (hi : IdInv pd s) (h : s.step cfg o = some s') : IdInv (pd ++ o.published.toList) s' := by
  have hst := br_of_step h
  clear h
  cases hst with
  | publish m =>
    refine ⟨by simp [BSt.publish, BOp.published, hi.ctr], ?_, ?_, ?_, hi.retNd⟩
    · simp only [BSt.publish, List.map_append, List.map_cons, List.map_nil]
      rw [List.nodup_append]
      refine ⟨hi.nodup, by simp, ?_⟩
      intro a ha b hb
      simp at hb ha
      obtain ⟨p, hp, rfl⟩ := ha
      have := hi.id_lt hp
      rw [hb, hi.ctr]; omega
    · intro p hp
      simp [BSt.publish] at hp
      rcases hp with hp | rfl
      · simp [BOp.published]
        rw [List.getElem?_append_left (hi.id_lt hp)]
        exact hi.pay p hp
      · simp [BOp.published, hi.ctr]
    · intro n hn
      have := hi.ret n hn
      simp [BSt.publish, BOp.published, hi.ctr] at this ⊢
      exact ⟨by omega, this.2, by omega⟩
  | ret i j k p hp hpc hk =>
    simp only [BOp.published, Option.toList, List.append_nil]
    refine ⟨hi.ctr, ?_, ?_, ?_, ?_⟩
    · exact List.Nodup.sublist (List.Sublist.map _ (List.eraseIdx_sublist _ _)) hi.nodup
    · exact fun q hq => hi.pay q (List.mem_of_mem_eraseIdx hq)
    · intro n hn
      simp at hn
      rcases hn with hn | rfl
      · have := hi.ret n hn
        refine ⟨this.1, fun hm => this.2 ?_⟩
        exact (List.Sublist.map _ (List.eraseIdx_sublist _ _)).subset hm
      · refine ⟨hi.id_lt (List.mem_of_getElem? hp), ?_⟩
        intro hm
        obtain ⟨q, hq, he⟩ := List.mem_map.1 hm
        exact eraseIdx_ne hi.nodup hp hq he
    · rw [List.nodup_append]
      refine ⟨hi.retNd, by simp, ?_⟩
      intro a ha b hb
      simp at hb; subst hb
      rintro rfl
      exact (hi.ret _ ha).2 (List.mem_map_of_mem (List.mem_of_getElem? hp))
  | count i j k acc p hp hpc hk hw => simp only [BOp.published, Option.toList, List.append_nil]; exact hi.goto hp rfl rfl rfl rfl rfl
  | countHist i j k acc p hp hpc hk hw h0 => simp only [BOp.published, Option.toList, List.append_nil]; exact hi.goto hp rfl rfl rfl rfl rfl
  | countEnter i j k acc p hp hpc hk hw h0 => simp only [BOp.published, Option.toList, List.append_nil]; exact hi.goto hp rfl rfl rfl rfl rfl
  | hist i j p hp hpc => simp only [BOp.published, Option.toList, List.append_nil]; exact hi.goto hp rfl rfl rfl rfl rfl
  | enter i j p hp hpc hw => simp only [BOp.published, Option.toList, List.append_nil]; exact hi.goto hp rfl rfl rfl rfl rfl
  | next i j k p hp hpc hk hw => simp only [BOp.published, Option.toList, List.append_nil]; exact hi.goto hp rfl rfl rfl rfl rfl
  | skip i j k name todo p c hp => simp only [BOp.published, Option.toList, List.append_nil]; exact hi.goto hp rfl rfl rfl rfl rfl
  | mark i j k name todo p c hp => simp only [BOp.published, Option.toList, List.append_nil]; exact hi.goto hp rfl rfl rfl rfl rfl
  | visit i j k name todo p c hp => simp only [BOp.published, Option.toList, List.append_nil]; exact hi.goto hp rfl rfl rfl rfl rfl
  | push i j k name todo p hp => simp only [BOp.published, Option.toList, List.append_nil]; exact hi.goto hp rfl rfl rfl rfl rfl
  | permit i j k name todo p hp => simp only [BOp.published, Option.toList, List.append_nil]; exact hi.goto hp rfl rfl rfl rfl rfl
  | chan o name c ch h ho => rcases ho with rfl | rfl | rfl <;> (simp only [BOp.published, Option.toList, List.append_nil]; exact ⟨hi.ctr, hi.nodup, hi.pay, hi.ret, hi.retNd⟩)
  | _ => simp only [BOp.published, Option.toList, List.append_nil]; exact ⟨hi.ctr, hi.nodup, hi.pay, hi.ret, hi.retNd⟩

/-- The payloads published by an execution, by id. -/
def payloads (os : List (BOp M)) : List M := os.filterMap BOp.published

theorem payloads_snoc (os : List (BOp M)) (o : BOp M) : payloads (os ++ [o]) = payloads os ++ o.published.toList := by
  simp [payloads]; cases h : o.published <;> simp [h]

theorem idInv_run {cfg : Cfg} {os : List (BOp M)} {s : BSt M} (h : BSt.init.run cfg os = some s) : IdInv (payloads os) s := by
  refine Lts.run_induction (step := BSt.step cfg) (P := fun os s => IdInv (payloads os) s) ?_ ?_ os s h
  · exact ⟨rfl, by simp [BSt.init], by simp [BSt.init], by simp [BSt.init], by simp [BSt.init]⟩
  · intro os o s s' _ ih hs
    rw [payloads_snoc]
    exact idInv_step ih hs

theorem IdInv.eq_of_id {pd : List M} {s : BSt M} (h : IdInv pd s) {p q : Pub M} (hp : p ∈ s.pubs) (hq : q ∈ s.pubs) (he : p.id = q.id) : p = q := by
  have : ∀ (l : List (Pub M)), (l.map (·.id)).Nodup → p ∈ l → q ∈ l → p = q := by
    intro l
    induction l with
    | nil => simp
    | cons a l ih =>
      intro hn hc hd
      simp at hn hc hd
      rcases hc with rfl | hc <;> rcases hd with rfl | hd
      · rfl
      · exact absurd he.symm (hn.1 q hd)
      · exact absurd he (hn.1 p hc)
      · exact ih hn.2 hc hd
  exact this _ h.nodup hp hq

end InMem
end Paladin
