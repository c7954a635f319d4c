import Verif.Spec.Gone
import Verif.Proofs.BroadcastEnd
/-! # Consumers are never forgotten -/
namespace Paladin
namespace InMem

theorem shard_le (cfg : Cfg) (n : Nat) : cfg.shard n ≤ cfg.lastShard := by
  exact Nat.le_of_lt_succ (Nat.mod_lt (cfg.hash n) (Nat.succ_pos cfg.lastShard))

theorem inShard_pos {cfg : Cfg} {s : BSt M} {name : Nat} (h : name ∈ s.names) : 0 < (s.inShard cfg (cfg.shard name)).length := by
  apply List.length_pos_of_mem (a := name)
  simp only [BSt.inShard, List.mem_filter]
  exact ⟨h, by simp⟩

theorem newDecl_buf (cfg : Cfg) (nm : Nat) : Decl.buf (⟨nm, if cfg.persistent then .check else .insert [] []⟩ : Decl M) = [] := by
  cases cfg.persistent <;> rfl

/-- Consumers stay in the map. -/
theorem names_step {cfg : Cfg} {s s' : BSt M} {o : BOp M} {name : Nat} (hm : name ∈ s.names) (h : s.step cfg o = some s') : name ∈ s'.names := by
  cases br_of_step h with
  | mark => rw [onCons_names (by intro c; rfl)]; exact hm
  | push => rw [onCons_names (by intro c; rfl)]; exact hm
  | permit => rw [onCons_names (by intro c; rfl)]; exact hm
  | chan => rw [onCons_names (by intro c; rfl)]; exact hm
  | insert => simp only [BSt.names, List.map_append, List.mem_append]; exact .inl hm
  | _ => exact hm

theorem names_run {cfg : Cfg} {s s' : BSt M} {os : List (BOp M)} {name : Nat} (hm : name ∈ s.names) (h : s.run cfg os = some s') : name ∈ s'.names :=
  Lts.run_inv (step := BSt.step cfg) (P := fun s => name ∈ s.names) hm (fun _ _ _ hi hs => names_step hi hs) h

/-- No message from number `N` on comes into the history. -/
structure NoHist (cfg : Cfg) (name N : Nat) (s : BSt M) : Prop where
  ctr : N ≤ s.ctr
  known : name ∈ s.names
  pc : ∀ p ∈ s.pubs, N ≤ p.id → p.pc ≠ .hist ∧ ∀ k acc, p.pc = .count k acc → cfg.shard name < k → 0 < acc
  hist : ∀ x ∈ s.hist, x.1 < N
  buf : ∀ d ∈ s.decls, ∀ x ∈ d.buf, x.1 < N

theorem NoHist.goto {cfg : Cfg} {name N : Nat} {s s' : BSt M} {i : Nat} {p p' : Pub M} (hi : NoHist cfg name N s) (_ : s.pubs[i]? = some p) (hs : s'.pubs = s.pubs.set i p')
    (h1 : p'.id = p.id) (hc : s'.ctr = s.ctr) (hn : s'.names = s.names) (hh : s'.hist = s.hist) (hd : s'.decls = s.decls)
    (hpc : N ≤ p.id → p'.pc ≠ .hist ∧ ∀ k acc, p'.pc = .count k acc → cfg.shard name < k → 0 < acc) : NoHist cfg name N s' := by
  refine ⟨by rw [hc]; exact hi.ctr, by rw [hn]; exact hi.known, ?_, by rw [hh]; exact hi.hist, by rw [hd]; exact hi.buf⟩
  intro q hq hq2
  rw [hs] at hq
  rcases List.mem_or_eq_of_mem_set hq with hq | rfl
  · exact hi.pc q hq hq2
  · exact hpc (by rw [← h1]; exact hq2)

theorem NoHist.decl {cfg : Cfg} {name N : Nat} {s s' : BSt M} {i : Nat} {d' : Decl M} (hi : NoHist cfg name N s) (hs : s'.decls = s.decls.set i d')
    (hb : ∀ x ∈ d'.buf, x.1 < N) (hh : ∀ x ∈ s'.hist, x.1 < N) (hc : s'.ctr = s.ctr) (hn : s'.names = s.names) (hp : s'.pubs = s.pubs) : NoHist cfg name N s' := by
  refine ⟨by rw [hc]; exact hi.ctr, by rw [hn]; exact hi.known, by rw [hp]; exact hi.pc, hh, ?_⟩
  intro d hd
  rw [hs] at hd
  rcases List.mem_or_eq_of_mem_set hd with hd | rfl
  · exact hi.buf d hd
  · exact hb

theorem noHist_step {cfg : Cfg} {name N : Nat} {s s' : BSt M} {o : BOp M} (hi : NoHist cfg name N s) (h : s.step cfg o = some s') : NoHist cfg name N s' := by
  have hst := br_of_step h
  have hkn := names_step hi.known h
  clear h
  cases hst with
  | publish m =>
    refine ⟨Nat.le_succ_of_le hi.ctr, hkn, ?_, hi.hist, hi.buf⟩
    intro q hq hq2
    simp [BSt.publish] at hq
    rcases hq with hq | rfl
    · exact hi.pc q hq hq2
    · refine ⟨?_, ?_⟩
      · simp only; split <;> simp
      · intro k acc hk
        simp only at hk
        split at hk
        · simp at hk; omega
        · simp at hk
  | count i j k acc p hp hpc hk hw =>
    refine hi.goto hp rfl rfl rfl rfl rfl rfl (fun hN => ⟨by simp, ?_⟩)
    intro k' acc' he hlt
    simp at he
    obtain ⟨rfl, rfl⟩ := he
    by_cases hz : cfg.shard name = k
    · have := inShard_pos (cfg := cfg) hi.known
      rw [hz] at this; omega
    · have := (hi.pc p (List.mem_of_getElem? hp) hN).2 k acc hpc (by omega)
      omega
  | countHist i j k acc p hp hpc hk hw h0 =>
    refine hi.goto hp rfl rfl rfl rfl rfl rfl (fun hN => ?_)
    exfalso
    by_cases hz : cfg.shard name = k
    · have := inShard_pos (cfg := cfg) hi.known
      rw [hz] at this; omega
    · have hle := shard_le cfg name
      have := (hi.pc p (List.mem_of_getElem? hp) hN).2 k acc hpc (by omega)
      omega
  | countEnter i j k acc p hp hpc hk hw h0 => exact hi.goto hp rfl rfl rfl rfl rfl rfl (fun _ => ⟨by simp, by simp⟩)
  | hist i j p hp hpc =>
    have hlt : p.id < N := by
      rcases Nat.lt_or_ge p.id N with hlt | hge
      · exact hlt
      · exact absurd hpc (hi.pc p (List.mem_of_getElem? hp) hge).1
    refine ⟨hi.ctr, hkn, ?_, ?_, hi.buf⟩
    · intro q hq hq2
      simp only [BSt.goto] at hq
      rcases List.mem_or_eq_of_mem_set hq with hq | rfl
      · exact hi.pc q hq hq2
      · exact ⟨by simp, by simp⟩
    · intro x hx
      simp only [List.mem_append, List.mem_singleton] at hx
      rcases hx with hx | rfl
      · exact hi.hist x hx
      · exact hlt
  | enter i j p hp hpc hw => exact hi.goto hp rfl rfl rfl rfl rfl rfl (fun _ => ⟨by simp, by simp⟩)
  | next i j k p hp hpc hkl hw => exact hi.goto hp rfl rfl rfl rfl rfl rfl (fun _ => ⟨by simp, by simp⟩)
  | ret i j k p hp hpc hkl => exact ⟨hi.ctr, hkn, fun q hq => hi.pc q (List.mem_of_mem_eraseIdx hq), hi.hist, hi.buf⟩
  | skip i j k nm todo p c' hp hpc hj hf hper hs => exact hi.goto hp rfl rfl rfl rfl rfl rfl (fun _ => ⟨by simp, by simp⟩)
  | mark i j k nm todo p c' hp hpc hj hf hper hs =>
    exact hi.goto hp rfl rfl rfl (onCons_names (by intro c; rfl)) rfl rfl (fun _ => ⟨by simp, by simp⟩)
  | visit i j k nm todo p c' hp hpc hj hf hper => exact hi.goto hp rfl rfl rfl rfl rfl rfl (fun _ => ⟨by simp, by simp⟩)
  | push i j k nm todo p hp hpc =>
    exact hi.goto hp rfl rfl rfl (onCons_names (by intro c; rfl)) rfl rfl (fun _ => ⟨by simp, by simp⟩)
  | permit i j k nm todo p hp hpc =>
    exact hi.goto hp rfl rfl rfl (onCons_names (by intro c; rfl)) rfl rfl (fun _ => ⟨by simp, by simp⟩)
  | declOld nm hw hr hf => exact ⟨hi.ctr, hkn, hi.pc, hi.hist, hi.buf⟩
  | declNew nm hw hr hf =>
    refine ⟨hi.ctr, hkn, hi.pc, hi.hist, ?_⟩
    intro d hd
    simp only [List.mem_append, List.mem_singleton] at hd
    rcases hd with hd | rfl
    · exact hi.buf d hd
    · rw [newDecl_buf]; simp
  | check i d hd hpc =>
    refine hi.decl rfl ?_ hi.hist rfl rfl rfl
    intro x hx
    simp only [Decl.buf] at hx
    split at hx <;> simp_all
    all_goals (split at * <;> simp_all)
  | drained i d buf seen hd hpc hh =>
    refine hi.decl rfl ?_ hi.hist rfl rfl rfl
    intro x hx
    exact hi.buf d (List.mem_of_getElem? hd) x (by simpa [Decl.buf, hpc] using hx)
  | drainDup i d buf seen x rest hd hpc hh hx =>
    refine hi.decl rfl ?_ (fun y hy => hi.hist y (by rw [hh]; exact List.mem_cons_of_mem _ hy)) rfl rfl rfl
    intro x hx
    exact hi.buf d (List.mem_of_getElem? hd) x (by simpa [Decl.buf, hpc] using hx)
  | drain i d buf seen x rest hd hpc hh hx =>
    refine hi.decl rfl ?_ (fun y hy => hi.hist y (by rw [hh]; exact List.mem_cons_of_mem _ hy)) rfl rfl rfl
    intro y hy
    simp only [Decl.buf, List.mem_append, List.mem_singleton] at hy
    rcases hy with hy | rfl
    · exact hi.buf d (List.mem_of_getElem? hd) y (by simpa [Decl.buf, hpc] using hy)
    · exact hi.hist y (by rw [hh]; simp)
  | insert i d buf seen hd hpc => exact ⟨hi.ctr, hkn, hi.pc, hi.hist, fun e he => hi.buf e (List.mem_of_mem_eraseIdx he)⟩
  | chan o nm c ch k ho hf hc => exact ⟨hi.ctr, hkn, hi.pc, hi.hist, hi.buf⟩

theorem noHist_run {cfg : Cfg} {name N : Nat} {s s' : BSt M} {os : List (BOp M)} (hi : NoHist cfg name N s) (h : s.run cfg os = some s') : NoHist cfg name N s' :=
  Lts.run_inv (step := BSt.step cfg) (P := NoHist cfg name N) hi (fun _ _ _ hi hs => noHist_step hi hs) h

/-- Message `n` is nowhere whence it could come to consumer `name`. -/
structure Out (n name : Nat) (s : BSt M) : Prop where
  ctr : n < s.ctr
  pubs : ∀ p ∈ s.pubs, p.id ≠ n
  hist : ∀ x ∈ s.hist, x.1 ≠ n
  buf : ∀ d ∈ s.decls, ∀ x ∈ d.buf, x.1 ≠ n
  cons : ∀ c ∈ s.cons, c.name = name → n ∉ c.ids

theorem Out.goto {n name : Nat} {s s' : BSt M} {i : Nat} {p p' : Pub M} (hi : Out n name s) (hp : s.pubs[i]? = some p) (hs : s'.pubs = s.pubs.set i p')
    (h1 : p'.id = p.id) (hc : s'.ctr = s.ctr) (hn : ∀ c ∈ s'.cons, c.name = name → n ∉ c.ids) (hh : s'.hist = s.hist) (hd : s'.decls = s.decls) : Out n name s' := by
  refine ⟨by rw [hc]; exact hi.ctr, ?_, by rw [hh]; exact hi.hist, by rw [hd]; exact hi.buf, hn⟩
  intro q hq
  rw [hs] at hq
  rcases List.mem_or_eq_of_mem_set hq with hq | rfl
  · exact hi.pubs q hq
  · rw [h1]; exact hi.pubs p (List.mem_of_getElem? hp)

theorem Out.decl {n name : Nat} {s s' : BSt M} {i : Nat} {d' : Decl M} (hi : Out n name s) (hs : s'.decls = s.decls.set i d')
    (hb : ∀ x ∈ d'.buf, x.1 ≠ n) (hh : ∀ x ∈ s'.hist, x.1 ≠ n) (hc : s'.ctr = s.ctr) (hn : s'.cons = s.cons) (hp : s'.pubs = s.pubs) : Out n name s' := by
  refine ⟨by rw [hc]; exact hi.ctr, by rw [hp]; exact hi.pubs, hh, ?_, by rw [hn]; exact hi.cons⟩
  intro d hd
  rw [hs] at hd
  rcases List.mem_or_eq_of_mem_set hd with hd | rfl
  · exact hi.buf d hd
  · exact hb

theorem out_step {cfg : Cfg} {pd : List M} {n name : Nat} {s s' : BSt M} {o : BOp M} (hk : ∀ c ∈ s.cons, ConsOk cfg pd s.pubs c) (hi : Out n name s)
    (h : s.step cfg o = some s') : Out n name s' := by
  have hst := br_of_step h
  clear h
  cases hst with
  | publish m =>
    refine ⟨Nat.lt_succ_of_lt hi.ctr, ?_, hi.hist, hi.buf, hi.cons⟩
    intro q hq
    simp [BSt.publish] at hq
    rcases hq with hq | rfl
    · exact hi.pubs q hq
    · have := hi.ctr; simp only; omega
  | count i j k acc p hp hpc hk hw => exact hi.goto hp rfl rfl rfl hi.cons rfl rfl
  | countHist i j k acc p hp hpc hk hw h0 => exact hi.goto hp rfl rfl rfl hi.cons rfl rfl
  | countEnter i j k acc p hp hpc hk hw h0 => exact hi.goto hp rfl rfl rfl hi.cons rfl rfl
  | hist i j p hp hpc =>
    refine ⟨hi.ctr, ?_, ?_, hi.buf, hi.cons⟩
    · intro q hq
      simp only [BSt.goto] at hq
      rcases List.mem_or_eq_of_mem_set hq with hq | rfl
      · exact hi.pubs q hq
      · exact hi.pubs p (List.mem_of_getElem? hp)
    · intro x hx
      simp only [List.mem_append, List.mem_singleton] at hx
      rcases hx with hx | rfl
      · exact hi.hist x hx
      · exact hi.pubs p (List.mem_of_getElem? hp)
  | enter i j p hp hpc hw => exact hi.goto hp rfl rfl rfl hi.cons rfl rfl
  | next i j k p hp hpc hkl hw => exact hi.goto hp rfl rfl rfl hi.cons rfl rfl
  | ret i j k p hp hpc hkl => exact ⟨hi.ctr, fun q hq => hi.pubs q (List.mem_of_mem_eraseIdx hq), hi.hist, hi.buf, hi.cons⟩
  | skip i j k nm todo p c' hp hpc hj hf hper hs => exact hi.goto hp rfl rfl rfl hi.cons rfl rfl
  | mark i j k nm todo p c' hp hpc hj hf hper hs =>
    refine hi.goto hp rfl rfl rfl ?_ rfl rfl
    intro c hc hcn
    obtain ⟨c0, hc0, rfl⟩ := mem_onCons.1 hc
    by_cases hx : c0.name = nm
    · rw [if_pos hx] at hcn ⊢
      exact hi.cons c0 hc0 hcn
    · rw [if_neg hx] at hcn ⊢; exact hi.cons c0 hc0 hcn
  | visit i j k nm todo p c' hp hpc hj hf hper => exact hi.goto hp rfl rfl rfl hi.cons rfl rfl
  | push i j k nm todo p hp hpc =>
    refine hi.goto hp rfl rfl rfl ?_ rfl rfl
    intro c hc hcn
    obtain ⟨c0, hc0, rfl⟩ := mem_onCons.1 hc
    have hpn := hi.pubs p (List.mem_of_getElem? hp)
    by_cases hx : c0.name = nm
    · rw [if_pos hx] at hcn ⊢
      intro hm
      have hm' : n ∈ c0.ids ∨ n = p.id := by simpa [Cons.ids, Chan.log, Chan.push, or_assoc] using hm
      exact hm'.elim (hi.cons c0 hc0 hcn) (fun he => hpn he.symm)
    · rw [if_neg hx] at hcn ⊢; exact hi.cons c0 hc0 hcn
  | permit i j k nm todo p hp hpc =>
    refine hi.goto hp rfl rfl rfl ?_ rfl rfl
    intro c hc hcn
    obtain ⟨c0, hc0, rfl⟩ := mem_onCons.1 hc
    by_cases hx : c0.name = nm
    · rw [if_pos hx] at hcn ⊢
      have := hi.cons c0 hc0 hcn
      simpa only [Cons.ids, Chan.releaseOne_log] using this
    · rw [if_neg hx] at hcn ⊢; exact hi.cons c0 hc0 hcn
  | declOld nm hw hr hf => exact ⟨hi.ctr, hi.pubs, hi.hist, hi.buf, hi.cons⟩
  | declNew nm hw hr hf =>
    refine ⟨hi.ctr, hi.pubs, hi.hist, ?_, hi.cons⟩
    intro d hd
    simp only [List.mem_append, List.mem_singleton] at hd
    rcases hd with hd | rfl
    · exact hi.buf d hd
    · rw [newDecl_buf]; simp
  | check i d hd hpc =>
    refine hi.decl rfl ?_ hi.hist rfl rfl rfl
    intro x hx
    simp only [Decl.buf] at hx
    split at hx <;> simp_all
    all_goals (split at * <;> simp_all)
  | drained i d buf seen hd hpc hh =>
    refine hi.decl rfl ?_ hi.hist rfl rfl rfl
    intro x hx
    exact hi.buf d (List.mem_of_getElem? hd) x (by simpa [Decl.buf, hpc] using hx)
  | drainDup i d buf seen x rest hd hpc hh hx =>
    refine hi.decl rfl ?_ (fun y hy => hi.hist y (by rw [hh]; exact List.mem_cons_of_mem _ hy)) rfl rfl rfl
    intro x hx
    exact hi.buf d (List.mem_of_getElem? hd) x (by simpa [Decl.buf, hpc] using hx)
  | drain i d buf seen x rest hd hpc hh hx =>
    refine hi.decl rfl ?_ (fun y hy => hi.hist y (by rw [hh]; exact List.mem_cons_of_mem _ hy)) rfl rfl rfl
    intro y hy
    simp only [Decl.buf, List.mem_append, List.mem_singleton] at hy
    rcases hy with hy | rfl
    · exact hi.buf d (List.mem_of_getElem? hd) y (by simpa [Decl.buf, hpc] using hy)
    · exact hi.hist y (by rw [hh]; simp)
  | insert i d buf seen hd hpc =>
    refine ⟨hi.ctr, hi.pubs, hi.hist, fun e he => hi.buf e (List.mem_of_mem_eraseIdx he), ?_⟩
    intro c hc hcn
    simp only [List.mem_append, List.mem_singleton] at hc
    rcases hc with hc | rfl
    · exact hi.cons c hc hcn
    · intro hm
      simp only [Cons.ids, Chan.log, Chan.fresh, List.map_nil, List.nil_append, List.mem_map] at hm
      obtain ⟨x, hx, hxn⟩ := hm
      exact hi.buf d (List.mem_of_getElem? hd) x (by simpa [Decl.buf, hpc] using hx) hxn
  | chan o nm c ch k ho hf hc =>
    refine ⟨hi.ctr, hi.pubs, hi.hist, hi.buf, ?_⟩
    intro e he hen
    obtain ⟨c0, hc0, rfl⟩ := mem_onCons.1 he
    by_cases hx : c0.name = nm
    · rw [if_pos hx] at hen ⊢
      have hnm := hx
      have hcm := find_some hf
      have hl : ch.log = c.chan.log := (Chan.handle_step (hk c hcm.1).inv hc).1
      have : n ∉ c.ids := hi.cons c hcm.1 (hcm.2.trans (hnm.symm.trans hen))
      simpa only [Cons.ids, hl] using this
    · rw [if_neg hx] at hen ⊢; exact hi.cons c0 hc0 hen

/-- Consumers come from calls of `declare_consumer`. -/
theorem called_run {cfg : Cfg} {os : List (BOp M)} {s : BSt M} (h : BSt.init.run cfg os = some s) :
    (∀ c ∈ s.cons, .declare c.name ∈ os) ∧ ∀ d ∈ s.decls, .declare d.name ∈ os := by
  refine Lts.run_induction (step := BSt.step cfg) (P := fun os s => (∀ c ∈ s.cons, BOp.declare c.name ∈ os) ∧ ∀ d ∈ s.decls, BOp.declare d.name ∈ os) ?_ ?_ os s h
  · exact ⟨by simp [BSt.init], by simp [BSt.init]⟩
  · intro os o s s' _ ih hs
    have keep : ∀ {x : BOp M}, x ∈ os → x ∈ os ++ [o] := fun hx => List.mem_append_left _ hx
    have onc : ∀ {t : BSt M} {nm : Nat} {f : Cons M → Cons M}, t.cons = s.cons → (∀ c, (f c).name = c.name) → ∀ c ∈ (t.onCons nm f).cons, BOp.declare c.name ∈ os ++ [o] := by
      intro t nm f ht hf c hc
      obtain ⟨c0, hc0, rfl⟩ := mem_onCons.1 hc
      rw [ht] at hc0
      have := keep (ih.1 c0 hc0)
      split
      · rw [hf]; exact this
      · exact this
    have dset : ∀ {i : Nat} {d d' : Decl M}, s.decls[i]? = some d → d'.name = d.name → ∀ e ∈ s.decls.set i d', BOp.declare e.name ∈ os ++ [o] := by
      intro i d d' hd hn e he
      rcases List.mem_or_eq_of_mem_set he with he | rfl
      · exact keep (ih.2 e he)
      · rw [hn]; exact keep (ih.2 d (List.mem_of_getElem? hd))
    have hd0 : ∀ d ∈ s.decls, BOp.declare d.name ∈ os ++ [o] := fun d hd => keep (ih.2 d hd)
    have hc0 : ∀ c ∈ s.cons, BOp.declare c.name ∈ os ++ [o] := fun c hc => keep (ih.1 c hc)
    cases br_of_step hs with
    | mark => exact ⟨onc rfl (fun _ => rfl), hd0⟩
    | push => exact ⟨onc rfl (fun _ => rfl), hd0⟩
    | permit => exact ⟨onc rfl (fun _ => rfl), hd0⟩
    | chan => exact ⟨onc rfl (fun _ => rfl), hd0⟩
    | declNew nm =>
      refine ⟨hc0, ?_⟩
      intro d hd
      simp only [List.mem_append, List.mem_singleton] at hd
      rcases hd with hd | rfl
      · exact hd0 d hd
      · simp
    | check i d hd => exact ⟨hc0, dset hd rfl⟩
    | drained i d buf seen hd => exact ⟨hc0, dset hd rfl⟩
    | drainDup i d buf seen x rest hd => exact ⟨hc0, dset hd rfl⟩
    | drain i d buf seen x rest hd => exact ⟨hc0, dset hd rfl⟩
    | insert i d buf seen hd =>
      refine ⟨?_, fun e he => hd0 e (List.mem_of_mem_eraseIdx he)⟩
      intro c hc
      simp only [List.mem_append, List.mem_singleton] at hc
      rcases hc with hc | rfl
      · exact hc0 c hc
      · exact hd0 d (List.mem_of_getElem? hd)
    | _ => exact ⟨hc0, hd0⟩

/-- What a deserted consumer has received stays what it is. -/
theorem received_step {cfg : Cfg} {s s' : BSt M} {o : BOp M} {name : Nat} {c : Cons M} (hf : s.find name = some c) (hno : ∀ h, o ≠ .pop name h) (h : s.step cfg o = some s') :
    ∃ c', s'.find name = some c' ∧ c'.chan.received = c.chan.received := by
  have onc : ∀ {t : BSt M} {nm : Nat} {f : Cons M → Cons M}, t.cons = s.cons → (∀ c, (f c).name = c.name) → (∀ c0 ∈ s.cons, c0.name = nm → (f c0).chan.received = c0.chan.received) →
      ∃ c', (t.onCons nm f).find name = some c' ∧ c'.chan.received = c.chan.received := by
    intro t nm f ht hfn hfr
    unfold BSt.find at hf ⊢
    simp only [BSt.onCons, ht, List.find?_map]
    have : ((fun c : Cons M => c.name == name) ∘ fun c => if c.name = nm then f c else c) = fun c => c.name == name := by
      funext c0; simp only [Function.comp]; split <;> simp [hfn]
    rw [this, hf]
    refine ⟨_, rfl, ?_⟩
    have hm := List.mem_of_find?_eq_some hf
    dsimp only
    split
    · rename_i he; exact hfr c hm he
    · rfl
  have chn : ∀ {nm : Nat} {f : Chan (Nat × M) → Option (Chan (Nat × M))}, (nm = name → ∀ ch ch', f ch = some ch' → ch'.received = ch.received) → s.onChan nm f = some s' →
      ∃ c', s'.find name = some c' ∧ c'.chan.received = c.chan.received := by
    intro nm f hfr hs
    obtain ⟨c1, ch, h1, h2, rfl⟩ := onChan_some hs
    by_cases hnm : nm = name
    · subst hnm
      have : c1 = c := by rw [hf] at h1; exact (Option.some.inj h1).symm
      subst this
      have hr := hfr rfl _ _ h2
      unfold BSt.find at hf ⊢
      simp only [BSt.onCons, List.find?_map]
      have he : ((fun c : Cons M => c.name == nm) ∘ fun c => if c.name = nm then { c with chan := ch } else c) = fun c => c.name == nm := by
        funext c0; simp only [Function.comp]; split <;> simp
      rw [he, hf]
      refine ⟨_, rfl, ?_⟩
      dsimp only
      rw [if_pos (find_some (by unfold BSt.find; exact hf)).2]
      exact hr
    · unfold BSt.find at hf ⊢
      simp only [BSt.onCons, List.find?_map]
      have he : ((fun c : Cons M => c.name == name) ∘ fun c => if c.name = nm then { c with chan := ch } else c) = fun c => c.name == name := by
        funext c0; simp only [Function.comp]; split <;> simp
      rw [he, hf]
      refine ⟨_, rfl, ?_⟩
      dsimp only
      rw [if_neg]
      intro hc
      exact hnm (hc.symm.trans (find_some (by unfold BSt.find; exact hf)).2)
  cases o with
  | poll nm k => exact chn (fun _ _ _ hc => (Chan.log_poll hc).2) h
  | drop nm k => exact chn (fun _ _ _ hc => (Chan.log_drop hc).2) h
  | pop nm k => exact chn (f := fun c => c.pop k) (fun he => absurd (congrArg (BOp.pop · k) he) (hno k)) h
  | publish m =>
    cases br_of_step h with
    | publish => exact ⟨c, hf, rfl⟩
    | chan o nm c1 ch k ho => simp at ho
  | declare nm =>
    cases br_of_step h with
    | declOld | declNew => exact ⟨c, hf, rfl⟩
    | chan o nm c1 ch k ho => simp at ho
  | decl i =>
    cases br_of_step h with
    | insert i d buf seen hd hpc =>
      refine ⟨c, ?_, rfl⟩
      unfold BSt.find at hf ⊢
      simp [List.find?_append, hf]
    | chan o nm c1 ch k ho => simp at ho
    | _ => exact ⟨c, hf, rfl⟩
  | pub i j =>
    cases br_of_step h with
    | mark => exact onc rfl (fun _ => rfl) (fun _ _ _ => rfl)
    | push => exact onc rfl (fun _ => rfl) (fun _ _ _ => rfl)
    | permit =>
      refine onc rfl (fun _ => rfl) (fun c0 _ _ => ?_)
      simp only [Chan.releaseOne, Chan.addPermit]; split <;> rfl
    | chan o nm c1 ch k ho => simp at ho
    | _ => exact ⟨c, hf, rfl⟩

theorem received_run {cfg : Cfg} {s s' : BSt M} {os : List (BOp M)} {name : Nat} (hm : name ∈ s.names) (hno : Deserted name os) (h : s.run cfg os = some s') :
    s'.receivedBy name = s.receivedBy name := by
  obtain ⟨c, hc⟩ := find_of_name hm
  have key : ∃ c', s'.find name = some c' ∧ c'.chan.received = c.chan.received := by
    refine Lts.run_induction (step := BSt.step cfg) (P := fun l t => (∀ o ∈ l, o ∈ os) → ∃ c', t.find name = some c' ∧ c'.chan.received = c.chan.received) ?_ ?_ os s' h (fun _ h => h)
    · exact fun _ => ⟨c, hc, rfl⟩
    · intro l o t t' _ ih hs hl
      obtain ⟨c1, h1, h2⟩ := ih (fun x hx => hl x (List.mem_append_left _ hx))
      obtain ⟨c2, h3, h4⟩ := received_step h1 (hno o (hl o (by simp))) hs
      exact ⟨c2, h3, h4.trans h2⟩
  obtain ⟨c', h1, h2⟩ := key
  simp only [BSt.receivedBy, h1, hc, h2]

/-- The step that starts publication number `n`. -/
theorem split_published {os : List (BOp M)} {n : Nat} (h : n < (publishedBy os).length) : ∃ pre m post, os = pre ++ .publish m :: post ∧ (publishedBy pre).length = n := by
  induction os generalizing n with
  | nil => simp [publishedBy] at h
  | cons o os ih =>
    cases o with
    | publish m =>
      cases n with
      | zero => exact ⟨[], m, os, rfl, rfl⟩
      | succ n =>
        obtain ⟨pre, m', post, rfl, h2⟩ := ih (n := n) (by simpa [publishedBy, BOp.published] using h)
        exact ⟨.publish m :: pre, m', post, rfl, by simpa [publishedBy, BOp.published] using h2⟩
    | pub i j | declare i | decl i | poll i j | pop i j | drop i j =>
      obtain ⟨pre, m', post, rfl, h2⟩ := ih (n := n) h
      exact ⟨_ :: pre, m', post, rfl, h2⟩

end InMem
end Paladin
