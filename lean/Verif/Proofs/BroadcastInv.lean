import Verif.Proofs.Broadcast
/-! # Invariants of the broadcast queue: names, history, consumers -/
namespace Paladin
namespace InMem

/-! ## Names -/

/-- What is known about a publisher from where it is. -/
def PcOk (cfg : Cfg) (names : List Nat) : PubPc → Prop
  | .count _ _ | .hist => cfg.persistent = true
  | .enter => True
  | .iter k todo => todo.Nodup ∧ ∀ n ∈ todo, n ∈ names ∧ cfg.shard n = k
  | .push k n todo | .permit k n todo => (n :: todo).Nodup ∧ ∀ x ∈ n :: todo, x ∈ names ∧ cfg.shard x = k

theorem PcOk.mono {cfg : Cfg} {a b : List Nat} {pc : PubPc} (hab : ∀ n ∈ a, n ∈ b) (h : PcOk cfg a pc) : PcOk cfg b pc := by
  cases pc with
  | count | hist | enter => exact h
  | iter k todo => exact ⟨h.1, fun n hn => ⟨hab n (h.2 n hn).1, (h.2 n hn).2⟩⟩
  | push k n todo => exact ⟨h.1, fun n hn => ⟨hab n (h.2 n hn).1, (h.2 n hn).2⟩⟩
  | permit k n todo => exact ⟨h.1, fun n hn => ⟨hab n (h.2 n hn).1, (h.2 n hn).2⟩⟩

structure NameInv (cfg : Cfg) (s : BSt M) : Prop where
  nodup : (s.names ++ s.decls.map (·.name)).Nodup
  pc : ∀ p ∈ s.pubs, PcOk cfg s.names p.pc
  declared : ∀ n ∈ s.declared, n ∈ s.names

theorem NameInv.goto {cfg : Cfg} {s s' : BSt M} {i : Nat} {p' : Pub M} (h : NameInv cfg s) (hs : s'.pubs = s.pubs.set i p')
    (hpc : PcOk cfg s.names p'.pc) (hn : s'.names = s.names) (hd : s'.decls = s.decls) (hdc : s'.declared = s.declared) : NameInv cfg s' := by
  refine ⟨by rw [hn, hd]; exact h.nodup, ?_, by rw [hn, hdc]; exact h.declared⟩
  intro q hq
  rw [hs] at hq
  rw [hn]
  rcases List.mem_or_eq_of_mem_set hq with hq | rfl
  · exact h.pc q hq
  · exact hpc

theorem inShard_ok {cfg : Cfg} {s : BSt M} (hn : s.names.Nodup) (k : Nat) : PcOk cfg s.names (.iter k (s.inShard cfg k)) := by
  refine ⟨List.Nodup.sublist List.filter_sublist hn, ?_⟩
  intro n hn
  simp [BSt.inShard] at hn
  simp only [BSt.names, List.mem_map]
  exact hn

theorem eraseIdx_cons_ok {cfg : Cfg} {names todo : List Nat} {j k name : Nat} (h : PcOk cfg names (.iter k todo)) (hj : todo[j]? = some name) :
    PcOk cfg names (.push k name (todo.eraseIdx j)) := by
  refine ⟨?_, ?_⟩
  · simp only [List.nodup_cons]
    refine ⟨?_, List.Nodup.sublist (List.eraseIdx_sublist _ _) h.1⟩
    intro hm
    exact eraseIdx_ne (f := fun x => x) (by simpa using h.1) hj hm rfl
  · intro x hx
    simp at hx
    rcases hx with rfl | hx
    · exact h.2 x (List.mem_of_getElem? hj)
    · exact h.2 x (List.mem_of_mem_eraseIdx hx)

theorem nameInv_step {cfg : Cfg} {s s' : BSt M} {o : BOp M} (hi : NameInv cfg s) (h : s.step cfg o = some s') : NameInv cfg s' := by
  have hst := br_of_step h
  clear h
  have hnn : s.names.Nodup := (List.nodup_append.1 hi.nodup).1
  have hpc' : ∀ {i : Nat} {p : Pub M}, s.pubs[i]? = some p → PcOk cfg s.names p.pc := fun hp => hi.pc _ (List.mem_of_getElem? hp)
  cases hst with
  | publish m =>
    refine ⟨hi.nodup, ?_, hi.declared⟩
    intro p hp
    simp [BSt.publish] at hp
    rcases hp with hp | rfl
    · exact hi.pc p hp
    · simp only
      split
      · assumption
      · trivial
  | count i j k acc p hp hpc => have := hpc' hp; rw [hpc] at this; exact hi.goto rfl this rfl rfl rfl
  | countHist i j k acc p hp hpc => have := hpc' hp; rw [hpc] at this; exact hi.goto rfl this rfl rfl rfl
  | countEnter i j k acc p hp hpc => exact hi.goto rfl trivial rfl rfl rfl
  | hist i j p hp hpc => exact hi.goto rfl trivial rfl rfl rfl
  | enter i j p hp hpc hw => exact hi.goto rfl (inShard_ok hnn 0) rfl rfl rfl
  | next i j k p hp hpc hk hw => exact hi.goto rfl (inShard_ok hnn (k + 1)) rfl rfl rfl
  | ret i j k p hp hpc hk => exact ⟨hi.nodup, fun q hq => hi.pc q (List.mem_of_mem_eraseIdx hq), hi.declared⟩
  | skip i j k name todo p c hp hpc hj =>
    have := hpc' hp; rw [hpc] at this
    have := eraseIdx_cons_ok this hj
    exact hi.goto (p' := { p with pc := .iter k (todo.eraseIdx j) }) rfl ⟨(List.nodup_cons.1 this.1).2, fun n hn => this.2 n (by simp [hn])⟩ rfl rfl rfl
  | mark i j k name todo p c hp hpc hj =>
    have := hpc' hp; rw [hpc] at this
    exact hi.goto rfl (eraseIdx_cons_ok this hj) (onCons_names (fun _ => rfl)) rfl rfl
  | visit i j k name todo p c hp hpc hj =>
    have := hpc' hp; rw [hpc] at this
    exact hi.goto rfl (eraseIdx_cons_ok this hj) rfl rfl rfl
  | push i j k name todo p hp hpc =>
    have := hpc' hp; rw [hpc] at this
    exact hi.goto (p' := { p with pc := .permit k name todo }) rfl this (onCons_names (fun _ => rfl)) rfl rfl
  | permit i j k name todo p hp hpc =>
    have := hpc' hp; rw [hpc] at this
    exact hi.goto (p' := { p with pc := .iter k todo }) rfl ⟨(List.nodup_cons.1 this.1).2, fun n hn => this.2 n (by simp [hn])⟩ (onCons_names (fun _ => rfl)) rfl rfl
  | declOld name hw hr hf =>
    refine ⟨hi.nodup, hi.pc, ?_⟩
    intro n hn
    simp at hn
    rcases hn with hn | rfl
    · exact hi.declared n hn
    · obtain ⟨c, hc⟩ := Option.isSome_iff_exists.1 hf
      obtain ⟨h1, h2⟩ := find_some hc
      exact List.mem_map.2 ⟨c, h1, h2⟩
  | declNew name hw hr hf =>
    refine ⟨?_, hi.pc, hi.declared⟩
    have h1 := find_none hf
    have h2 : name ∉ s.decls.map (·.name) := by
      intro hm
      obtain ⟨d, hd, rfl⟩ := List.mem_map.1 hm
      simp [BSt.writeLocked] at hw
      exact hw d hd rfl
    simp only [List.map_append, List.map_cons, List.map_nil]
    show (s.names ++ (s.decls.map (·.name) ++ [name])).Nodup
    rw [← List.append_assoc, List.nodup_append]
    refine ⟨hi.nodup, by simp, ?_⟩
    intro a ha b hb
    simp only [List.mem_singleton] at hb; subst hb
    rintro rfl
    rcases List.mem_append.1 ha with ha | ha
    · exact h1 ha
    · exact h2 ha
  | insert i d buf seen hd hpc =>
    have hnames : ∀ n, n ∈ s.names ++ [d.name] ↔ n ∈ ({ s with cons := s.cons ++ [⟨d.name, Chan.fresh buf seen.length, seen⟩], decls := s.decls.eraseIdx i, declared := s.declared ++ [d.name] } : BSt M).names := by
      intro n; simp [BSt.names]
    refine ⟨?_, ?_, ?_⟩
    · have hnd := hi.nodup
      rw [List.nodup_append] at hnd
      simp only [BSt.names, List.map_append, List.map_cons, List.map_nil, List.append_assoc]
      show (s.names ++ ([d.name] ++ (s.decls.eraseIdx i).map (·.name))).Nodup
      rw [List.nodup_append]
      refine ⟨hnn, ?_, ?_⟩
      · simp only [List.cons_append, List.nil_append, List.nodup_cons]
        refine ⟨?_, List.Nodup.sublist (List.Sublist.map _ (List.eraseIdx_sublist _ _)) hnd.2.1⟩
        intro hm
        obtain ⟨e, he, hen⟩ := List.mem_map.1 hm
        exact eraseIdx_ne hnd.2.1 hd he hen
      · intro a ha b hb
        apply hnd.2.2 a ha b
        simp only [List.cons_append, List.nil_append, List.mem_cons] at hb
        rcases hb with rfl | hb
        · exact List.mem_map_of_mem (List.mem_of_getElem? hd)
        · exact (List.Sublist.map _ (List.eraseIdx_sublist _ _)).subset hb
    · intro p hp
      exact (hi.pc p hp).mono (fun n hn => (hnames n).1 (by simp [hn]))
    · intro n hn
      apply (hnames n).1
      simp at hn ⊢
      exact hn.imp (hi.declared n) (fun h => h)
  | check i d hd hpc => exact ⟨by rw [map_set_same hd (by rfl)]; exact hi.nodup, hi.pc, hi.declared⟩
  | drained i d buf seen hd hpc hh => exact ⟨by rw [map_set_same hd (by rfl)]; exact hi.nodup, hi.pc, hi.declared⟩
  | drainDup i d buf seen x rest hd hpc hh hx => exact ⟨by rw [map_set_same hd (by rfl)]; exact hi.nodup, hi.pc, hi.declared⟩
  | drain i d buf seen x rest hd hpc hh hx => exact ⟨by rw [map_set_same hd (by rfl)]; exact hi.nodup, hi.pc, hi.declared⟩
  | chan o name c ch h ho hf hc =>
    have hn : (s.onCons name fun c => { c with chan := ch }).names = s.names := onCons_names (fun _ => rfl)
    exact ⟨by rw [hn]; exact hi.nodup, by rw [hn]; exact hi.pc, by rw [hn]; exact hi.declared⟩

theorem nameInv_run {cfg : Cfg} {os : List (BOp M)} {s : BSt M} (h : BSt.init.run cfg os = some s) : NameInv cfg s :=
  Lts.run_inv (step := BSt.step cfg) (P := NameInv cfg) ⟨by simp [BSt.init, BSt.names], by simp [BSt.init], by simp [BSt.init]⟩ (fun _ _ _ hi h => nameInv_step hi h) h

/-! ## The history -/

/-- What a declaring thread has taken from the history. -/
def Decl.buf (d : Decl M) : List (Nat × M) :=
  match d.pc with
  | .check => []
  | .drain b _ => b
  | .insert b _ => b

def Decl.seen (d : Decl M) : List Nat :=
  match d.pc with
  | .check => []
  | .drain _ b => b
  | .insert _ b => b

/-- Messages in the history or taken from it by a declaration under way. -/
def BSt.kept (s : BSt M) : List (Nat × M) := s.hist ++ s.decls.flatMap Decl.buf

theorem flatMap_set {f : α → List β} {l : List α} {i : Nat} {p x : α} (hp : l[i]? = some p) : ((l.set i x).flatMap f ++ f p).Perm (l.flatMap f ++ f x) := by
  induction l generalizing i with
  | nil => simp at hp
  | cons a l ih =>
    cases i with
    | zero =>
      simp at hp; subst hp
      simp only [List.set_cons_zero, List.flatMap_cons]
      exact ((List.perm_append_comm (l₁ := f x)).append_right (f a)).trans (by
        rw [List.append_assoc]
        refine (List.perm_append_comm (l₁ := List.flatMap f l)).trans ?_
        rw [List.append_assoc, List.append_assoc]
        refine (List.perm_append_comm (l₁ := f x)).trans ?_
        rw [List.append_assoc]
        skip)
    | succ i =>
      simp at hp
      simp only [List.set_cons_succ, List.flatMap_cons, List.append_assoc]
      exact (ih hp).append_left (f a)

theorem flatMap_eraseIdx {f : α → List β} {l : List α} {i : Nat} {p : α} (hp : l[i]? = some p) : ((l.eraseIdx i).flatMap f ++ f p).Perm (l.flatMap f) := by
  induction l generalizing i with
  | nil => simp at hp
  | cons a l ih =>
    cases i with
    | zero => simp at hp; subst hp; simp only [List.eraseIdx_cons_zero, List.flatMap_cons]; exact List.perm_append_comm
    | succ i =>
      simp at hp
      simp only [List.eraseIdx_cons_succ, List.flatMap_cons, List.append_assoc]
      exact (ih hp).append_left (f a)

theorem sublist_flatMap {f : α → List β} {a b : List α} (h : a.Sublist b) : (a.flatMap f).Sublist (b.flatMap f) := by
  induction h with
  | slnil => simp
  | cons x _ ih => simp only [List.flatMap_cons]; exact ih.trans (List.sublist_append_right _ _)
  | cons_cons x _ ih => simp only [List.flatMap_cons]; exact (List.Sublist.refl _).append ih

/-- A publisher that has not reached the push to the history. -/
def PubPc.early : PubPc → Bool
  | .count _ _ | .hist => true
  | _ => false

structure HistInv (cfg : Cfg) (pd : List M) (s : BSt M) : Prop where
  nodup : (s.kept.map Prod.fst).Nodup
  pay : ∀ x ∈ s.kept, pd[x.1]? = some x.2
  early : ∀ p ∈ s.pubs, p.pc.early = true → p.id ∉ s.kept.map Prod.fst
  seen : ∀ d ∈ s.decls, d.seen = (d.buf.map Prod.fst).reverse
  volatile : cfg.persistent = false → s.kept = []

theorem HistInv.of_perm {cfg : Cfg} {pd : List M} {s s' : BSt M} (h : HistInv cfg pd s) (hk : s'.kept.Perm s.kept) (hp : s'.pubs = s.pubs)
    (hd : ∀ d ∈ s'.decls, d.seen = (d.buf.map Prod.fst).reverse) : HistInv cfg pd s' := by
  refine ⟨(hk.map _).nodup_iff.2 h.nodup, fun x hx => h.pay x (hk.mem_iff.1 hx), ?_, hd, fun hv => by have := h.volatile hv; rw [this] at hk; exact hk.eq_nil⟩
  intro p hpp he hm
  rw [hp] at hpp
  exact h.early p hpp he ((hk.map _).mem_iff.1 hm)

theorem HistInv.goto {cfg : Cfg} {pd : List M} {s s' : BSt M} {i : Nat} {p p' : Pub M} (h : HistInv cfg pd s) (hp : s.pubs[i]? = some p) (hs : s'.pubs = s.pubs.set i p')
    (h1 : p'.id = p.id) (hpc : p'.pc.early = true → p.pc.early = true) (hh : s'.hist = s.hist) (hd : s'.decls = s.decls) : HistInv cfg pd s' := by
  have hk : s'.kept = s.kept := by simp [BSt.kept, hh, hd]
  refine ⟨by rw [hk]; exact h.nodup, by rw [hk]; exact h.pay, ?_, by rw [hd]; exact h.seen, by rw [hk]; exact h.volatile⟩
  rw [hk]
  intro q hq he
  rw [hs] at hq
  rcases List.mem_or_eq_of_mem_set hq with hq | rfl
  · exact h.early q hq he
  · rw [h1]; exact h.early p (List.mem_of_getElem? hp) (hpc he)

theorem HistInv.decl_set {cfg : Cfg} {pd : List M} {s : BSt M} {i : Nat} {d d' : Decl M} (h : HistInv cfg pd s) (hd' : d'.seen = (d'.buf.map Prod.fst).reverse) :
    ∀ e ∈ s.decls.set i d', e.seen = (e.buf.map Prod.fst).reverse := by
  intro e he
  rcases List.mem_or_eq_of_mem_set he with he | rfl
  · exact h.seen e he
  · exact hd'

theorem histInv_step {cfg : Cfg} {pd : List M} {s s' : BSt M} {o : BOp M} (hid : IdInv pd s) (hn : NameInv cfg s) (hi : HistInv cfg pd s)
    (h : s.step cfg o = some s') : HistInv cfg (pd ++ o.published.toList) s' := by
  have hst := br_of_step h
  clear h
  have hpc' : ∀ {i : Nat} {p : Pub M}, s.pubs[i]? = some p → PcOk cfg s.names p.pc := fun hp => hn.pc _ (List.mem_of_getElem? hp)
  cases hst with
  | publish m =>
    refine ⟨hi.nodup, ?_, ?_, hi.seen, hi.volatile⟩
    · intro x hx
      have := hi.pay x hx
      rw [List.getElem?_append_left (List.getElem?_eq_some_iff.1 this).1]; exact this
    · intro p hp he
      simp [BSt.publish] at hp
      rcases hp with hp | rfl
      · exact hi.early p hp he
      · intro hm
        obtain ⟨x, hx, hxe⟩ := List.mem_map.1 hm
        have := (List.getElem?_eq_some_iff.1 (hi.pay x hx)).1
        simp only at hxe
        rw [hxe, hid.ctr] at this; omega
  | hist i j p hp hpc =>
    simp only [BOp.published, Option.toList, List.append_nil]
    have hpm := List.mem_of_getElem? hp
    have he := hi.early p hpm (by simp [hpc, PubPc.early])
    have hk : (BSt.kept { s.goto i p .enter with hist := s.hist ++ [(p.id, p.msg)] }).Perm ((p.id, p.msg) :: s.kept) := by
      simp only [BSt.kept, goto_decls, List.append_assoc]
      exact (List.perm_append_comm_assoc _ _ _).trans (by simp)
    refine ⟨?_, ?_, ?_, hi.seen, ?_⟩
    · rw [(hk.map _).nodup_iff]
      simp only [List.map_cons, List.nodup_cons]
      exact ⟨he, hi.nodup⟩
    · intro x hx
      rw [hk.mem_iff] at hx
      rcases List.mem_cons.1 hx with rfl | hx
      · exact hid.pay p hpm
      · exact hi.pay x hx
    · intro q hq hqe
      simp only [goto_pubs] at hq
      rcases List.mem_or_eq_of_mem_set hq with hq | rfl
      · intro hm
        rw [(hk.map _).mem_iff] at hm
        simp only [List.map_cons] at hm
        rcases List.mem_cons.1 hm with hm | hm
        · have := hid.eq_of_id hq hpm hm
          subst this
          -- `q` is `p` and is still in the list only at index `i`
          have hq' : q ∈ s.pubs.set i { q with pc := .enter } := by assumption
          obtain ⟨n, hnn⟩ := List.getElem?_of_mem hq'
          rw [List.getElem?_set] at hnn
          split at hnn
          · split at hnn
            · simp at hnn; rw [← hnn] at hqe; simp [PubPc.early] at hqe
            · simp at hnn
          · rename_i hne
            obtain ⟨hl1, he1⟩ := List.getElem?_eq_some_iff.1 hp
            obtain ⟨hl2, he2⟩ := List.getElem?_eq_some_iff.1 hnn
            exact hne ((List.getElem_inj (h₀ := by simpa using hl1) (h₁ := by simpa using hl2) hid.nodup).1 (by simp [he1, he2]))
        · exact hi.early q hq hqe hm
      · simp [PubPc.early] at hqe
    · intro hv
      have := hpc' hp
      rw [hpc] at this
      simp [PcOk, hv] at this
  | count i j k acc p hp hpc hk hw =>
    simp only [BOp.published, Option.toList, List.append_nil]; exact hi.goto hp rfl rfl (fun _ => by simp [hpc, PubPc.early]) rfl rfl
  | countHist i j k acc p hp hpc hk hw h0 =>
    simp only [BOp.published, Option.toList, List.append_nil]; exact hi.goto hp rfl rfl (fun _ => by simp [hpc, PubPc.early]) rfl rfl
  | countEnter i j k acc p hp hpc hk hw h0 =>
    simp only [BOp.published, Option.toList, List.append_nil]; exact hi.goto hp rfl rfl (fun h => by simp [PubPc.early] at h) rfl rfl
  | enter i j p hp hpc hw => simp only [BOp.published, Option.toList, List.append_nil]; exact hi.goto hp rfl rfl (fun h => by simp [PubPc.early] at h) rfl rfl
  | next i j k p hp hpc hk hw => simp only [BOp.published, Option.toList, List.append_nil]; exact hi.goto hp rfl rfl (fun h => by simp [PubPc.early] at h) rfl rfl
  | skip i j k name todo p c hp => simp only [BOp.published, Option.toList, List.append_nil]; exact hi.goto hp rfl rfl (fun h => by simp [PubPc.early] at h) rfl rfl
  | mark i j k name todo p c hp => simp only [BOp.published, Option.toList, List.append_nil]; exact hi.goto hp rfl rfl (fun h => by simp [PubPc.early] at h) rfl rfl
  | visit i j k name todo p c hp => simp only [BOp.published, Option.toList, List.append_nil]; exact hi.goto hp rfl rfl (fun h => by simp [PubPc.early] at h) rfl rfl
  | push i j k name todo p hp => simp only [BOp.published, Option.toList, List.append_nil]; exact hi.goto hp rfl rfl (fun h => by simp [PubPc.early] at h) rfl rfl
  | permit i j k name todo p hp => simp only [BOp.published, Option.toList, List.append_nil]; exact hi.goto hp rfl rfl (fun h => by simp [PubPc.early] at h) rfl rfl
  | ret i j k p hp hpc hk =>
    simp only [BOp.published, Option.toList, List.append_nil]
    exact ⟨hi.nodup, hi.pay, fun q hq => hi.early q (List.mem_of_mem_eraseIdx hq), hi.seen, hi.volatile⟩
  | declOld name hw hr hf =>
    simp only [BOp.published, Option.toList, List.append_nil]
    exact ⟨hi.nodup, hi.pay, hi.early, hi.seen, hi.volatile⟩
  | declNew name hw hr hf =>
    simp only [BOp.published, Option.toList, List.append_nil]
    refine hi.of_perm ?_ rfl ?_
    · have : Decl.buf (⟨name, if cfg.persistent then .check else .insert [] []⟩ : Decl M) = [] := by
        unfold Decl.buf; cases cfg.persistent <;> rfl
      simp [BSt.kept, this]
    · intro d hd
      simp at hd
      rcases hd with hd | rfl
      · exact hi.seen d hd
      · unfold Decl.buf Decl.seen; cases cfg.persistent <;> rfl
  | check i d hd hpc =>
    simp only [BOp.published, Option.toList, List.append_nil]
    have hb : d.buf = [] := by simp [Decl.buf, hpc]
    have hb' : ∀ pc' : DeclPc M, pc' = (if s.hist = [] then .insert [] [] else .drain [] []) → Decl.buf { d with pc := pc' } = [] ∧ Decl.seen { d with pc := pc' } = [] := by
      rintro pc' rfl; unfold Decl.buf Decl.seen; by_cases hh : s.hist = [] <;> simp [hh]
    obtain ⟨h1, h2⟩ := hb' _ rfl
    refine hi.of_perm ?_ rfl (hi.decl_set (d := d) (by rw [h1, h2]; rfl))
    have := flatMap_set (f := Decl.buf) (x := { d with pc := if s.hist = [] then .insert [] [] else .drain [] [] }) hd
    rw [hb, h1] at this
    simp only [List.append_nil] at this
    exact this.append_left s.hist
  | drained i d buf seen hd hpc hh =>
    simp only [BOp.published, Option.toList, List.append_nil]
    have hb : d.buf = buf := by simp [Decl.buf, hpc]
    have hsn : d.seen = seen := by simp [Decl.seen, hpc]
    refine hi.of_perm ?_ rfl (hi.decl_set (d := d) (by
      show seen = (buf.map Prod.fst).reverse
      have := hi.seen d (List.mem_of_getElem? hd)
      rw [hb, hsn] at this; exact this))
    have := flatMap_set (f := Decl.buf) (x := { d with pc := .insert buf seen }) hd
    rw [hb] at this
    exact ((List.perm_append_right_iff buf).1 this).append_left s.hist
  | drainDup i d buf seen x rest hd hpc hh hx =>
    exfalso
    have hb : d.buf = buf := by simp [Decl.buf, hpc]
    have hsn : d.seen = seen := by simp [Decl.seen, hpc]
    have h1 := hi.seen d (List.mem_of_getElem? hd)
    rw [hb, hsn] at h1
    rw [h1] at hx
    simp only [List.mem_reverse] at hx
    have hnd := hi.nodup
    simp only [BSt.kept, hh, List.map_append, List.cons_append, List.map_cons, List.nodup_cons] at hnd
    apply hnd.1
    refine List.mem_append_right _ ?_
    obtain ⟨y, hy, hye⟩ := List.mem_map.1 hx
    rw [List.mem_map]
    refine ⟨y, ?_, hye⟩
    rw [List.mem_flatMap]
    exact ⟨d, List.mem_of_getElem? hd, by rw [hb]; exact hy⟩
  | drain i d buf seen x rest hd hpc hh hx =>
    simp only [BOp.published, Option.toList, List.append_nil]
    have hb : d.buf = buf := by simp [Decl.buf, hpc]
    have hsn : d.seen = seen := by simp [Decl.seen, hpc]
    refine hi.of_perm ?_ rfl (hi.decl_set (d := d) (by
      show x.1 :: seen = ((buf ++ [x]).map Prod.fst).reverse
      have := hi.seen d (List.mem_of_getElem? hd)
      rw [hb, hsn] at this; simp [this]))
    have := flatMap_set (f := Decl.buf) (x := { d with pc := .drain (buf ++ [x]) (x.1 :: seen) }) hd
    rw [hb] at this
    have e : Decl.buf { d with pc := .drain (buf ++ [x]) (x.1 :: seen) } = [x] ++ buf ∨ True := .inr trivial
    have h2 : ((s.decls.set i { d with pc := .drain (buf ++ [x]) (x.1 :: seen) }).flatMap Decl.buf).Perm ([x] ++ s.decls.flatMap Decl.buf) := by
      apply (List.perm_append_right_iff buf).1
      refine this.trans ?_
      show (s.decls.flatMap Decl.buf ++ (buf ++ [x])).Perm _
      rw [← List.append_assoc]
      refine List.perm_append_comm.trans ?_
      rw [List.append_assoc]
    simp only [BSt.kept, hh]
    refine (h2.append_left rest).trans ?_
    refine (List.perm_append_comm_assoc rest [x] _).trans ?_
    simp
  | insert i d buf seen hd hpc =>
    simp only [BOp.published, Option.toList, List.append_nil]
    have hsub : ({ s with cons := s.cons ++ [⟨d.name, Chan.fresh buf seen.length, seen⟩], decls := s.decls.eraseIdx i, declared := s.declared ++ [d.name] } : BSt M).kept.Sublist s.kept := by
      simp only [BSt.kept]
      refine (List.Sublist.refl _).append ?_
      exact sublist_flatMap (List.eraseIdx_sublist _ _)
    refine ⟨List.Nodup.sublist (hsub.map _) hi.nodup, fun x hx => hi.pay x (hsub.subset hx), ?_, fun e he => hi.seen e (List.mem_of_mem_eraseIdx he), ?_⟩
    · exact fun p hp he hm => hi.early p hp he ((hsub.map _).subset hm)
    · intro hv
      have := hi.volatile hv
      rw [this] at hsub
      exact List.sublist_nil.1 hsub
  | chan o name c ch h ho hf hc =>
    have : o.published = none := by rcases ho with rfl | rfl | rfl <;> rfl
    simp only [this, Option.toList, List.append_nil]
    exact ⟨hi.nodup, hi.pay, hi.early, hi.seen, hi.volatile⟩

theorem histInv_run {cfg : Cfg} {os : List (BOp M)} {s : BSt M} (h : BSt.init.run cfg os = some s) : HistInv cfg (payloads os) s := by
  refine Lts.run_induction (step := BSt.step cfg) (P := fun os s => HistInv cfg (payloads os) s) ?_ ?_ os s h
  · exact ⟨by simp [BSt.init, BSt.kept], by simp [BSt.init, BSt.kept], by simp [BSt.init], by simp [BSt.init], by simp [BSt.init, BSt.kept]⟩
  · intro os o s s' hr ih hs
    rw [payloads_snoc]
    exact histInv_step (idInv_run hr) (nameInv_run hr) ih hs

end InMem
end Paladin
