import Verif.Proofs.BroadcastDeliver
import Verif.Spec.Broadcast
/-! # Broadcast queue: replay of the history, progress and termination of calls -/
namespace Paladin
namespace InMem

theorem stepAlone_step {cfg : Cfg} {s s' : BSt M} {o : BOp M} (h : s.stepAlone cfg o = some s') : s.step cfg o = some s' := by
  unfold BSt.stepAlone at h
  split at h
  · split at h
    · exact h
    · simp at h
  · split at h
    · exact h
    · simp at h
  · exact h

theorem runAlone_run {cfg : Cfg} {s s' : BSt M} {os : List (BOp M)} (h : Lts.run (BSt.stepAlone cfg) s os = some s') : s.run cfg os = some s' := by
  induction os generalizing s with
  | nil => exact h
  | cons o os ih =>
    obtain ⟨s1, h1, h2⟩ := Lts.run_cons.1 h
    exact Lts.run_cons.2 ⟨s1, stepAlone_step h1, ih h2⟩

/-- No consumer yet, publishes one after the other: the history is what was published so far. -/
def Backlog (pd : List M) (s : BSt M) : Prop :=
  s.cons = [] ∧ s.decls = [] ∧
    ((s.pubs = [] ∧ s.hist.map Prod.snd = pd) ∨
     ∃ p, s.pubs = [p] ∧ ((((∃ k, p.pc = .count k 0) ∨ p.pc = .hist) ∧ s.hist.map Prod.snd ++ [p.msg] = pd) ∨
       ((p.pc = .enter ∨ ∃ k, p.pc = .iter k []) ∧ s.hist.map Prod.snd = pd)))

theorem backlog_step {cfg : Cfg} {pd : List M} {s s' : BSt M} {o : BOp M} (hper : cfg.persistent = true) (hno : o.isDeclare = false) (hi : Backlog pd s)
    (h : s.stepAlone cfg o = some s') : Backlog (pd ++ o.published.toList) s' := by
  obtain ⟨hc, hd, hp⟩ := hi
  have hst := br_of_step (stepAlone_step h)
  have hsh : ∀ k, s.inShard cfg k = [] := by intro k; simp [BSt.inShard, hc]
  have one : ∀ {i : Nat} {p : Pub M}, s.pubs[i]? = some p → i = 0 ∧ s.pubs = [p] ∧ ((((∃ k, p.pc = .count k 0) ∨ p.pc = .hist) ∧ s.hist.map Prod.snd ++ [p.msg] = pd) ∨
       ((p.pc = .enter ∨ ∃ k, p.pc = .iter k []) ∧ s.hist.map Prod.snd = pd)) := by
    intro i p hpi
    rcases hp with ⟨hp, _⟩ | ⟨q, hq, hq2⟩
    · simp [hp] at hpi
    · rw [hq] at hpi
      cases i with
      | zero => simp at hpi; subst hpi; exact ⟨rfl, hq, hq2⟩
      | succ i => simp at hpi
  cases hst with
  | publish m =>
    have hp0 : s.pubs = [] := by
      simp only [BSt.stepAlone] at h
      split at h
      · rename_i he; exact List.isEmpty_iff.1 he
      · simp at h
    rcases hp with ⟨_, hh⟩ | ⟨q, hq, _⟩
    · refine ⟨hc, hd, .inr ⟨⟨s.ctr, m, .count 0 0⟩, ?_, .inl ⟨.inl ⟨0, rfl⟩, ?_⟩⟩⟩
      · simp [BSt.publish, hp0, hper]
      · simp [BSt.publish, BOp.published, hh]
    · rw [hp0] at hq; simp at hq
  | count i j k acc p hp' hpc =>
    obtain ⟨rfl, h1, h2⟩ := one hp'
    refine ⟨hc, hd, .inr ⟨{ p with pc := .count (k + 1) 0 }, ?_, .inl ⟨.inl ⟨k + 1, rfl⟩, ?_⟩⟩⟩
    · rcases h2 with ⟨h2, _⟩ | ⟨h2, _⟩
      · simp [hpc] at h2; subst h2; simp [h1, hsh]
      · simp [hpc] at h2
    · rcases h2 with ⟨_, h2⟩ | ⟨h2, _⟩
      · simp [BOp.published]; exact h2
      · simp [hpc] at h2
  | countHist i j k acc p hp' hpc hk hw h0 =>
    obtain ⟨rfl, h1, h2⟩ := one hp'
    refine ⟨hc, hd, .inr ⟨{ p with pc := .hist }, by simp [h1], .inl ⟨.inr rfl, ?_⟩⟩⟩
    rcases h2 with ⟨_, h2⟩ | ⟨h2, _⟩
    · simp [BOp.published]; exact h2
    · simp [hpc] at h2
  | countEnter i j k acc p hp' hpc hk hw h0 =>
    obtain ⟨rfl, h1, h2⟩ := one hp'
    exfalso
    rcases h2 with ⟨h2, _⟩ | ⟨h2, _⟩
    · simp [hpc] at h2; subst h2; simp [hsh] at h0
    · simp [hpc] at h2
  | hist i j p hp' hpc =>
    obtain ⟨rfl, h1, h2⟩ := one hp'
    refine ⟨hc, hd, .inr ⟨{ p with pc := .enter }, by simp [h1], .inr ⟨.inl rfl, ?_⟩⟩⟩
    rcases h2 with ⟨_, h2⟩ | ⟨h2, _⟩
    · simp [BOp.published]; exact h2
    · simp [hpc] at h2
  | enter i j p hp' hpc hw =>
    obtain ⟨rfl, h1, h2⟩ := one hp'
    refine ⟨hc, hd, .inr ⟨{ p with pc := .iter 0 [] }, by simp [h1, hsh], .inr ⟨.inr ⟨0, rfl⟩, ?_⟩⟩⟩
    rcases h2 with ⟨h2, _⟩ | ⟨_, h2⟩
    · simp [hpc] at h2
    · simp [BOp.published]; exact h2
  | next i j k p hp' hpc hk hw =>
    obtain ⟨rfl, h1, h2⟩ := one hp'
    refine ⟨hc, hd, .inr ⟨{ p with pc := .iter (k + 1) [] }, by simp [h1, hsh], .inr ⟨.inr ⟨k + 1, rfl⟩, ?_⟩⟩⟩
    rcases h2 with ⟨h2, _⟩ | ⟨_, h2⟩
    · simp [hpc] at h2
    · simp [BOp.published]; exact h2
  | ret i j k p hp' hpc hk =>
    obtain ⟨rfl, h1, h2⟩ := one hp'
    refine ⟨hc, hd, .inl ⟨by simp [h1], ?_⟩⟩
    rcases h2 with ⟨h2, _⟩ | ⟨_, h2⟩
    · simp [hpc] at h2
    · simp [BOp.published]; exact h2
  | skip i j k nm todo p c hp' hpc hj hf => have := (find_some hf).1; simp [hc] at this
  | mark i j k nm todo p c hp' hpc hj hf => have := (find_some hf).1; simp [hc] at this
  | visit i j k nm todo p c hp' hpc hj hf => have := (find_some hf).1; simp [hc] at this
  | push i j k nm todo p hp' hpc => have h2 := (one hp').2.2; simp [hpc] at h2
  | permit i j k nm todo p hp' hpc => have h2 := (one hp').2.2; simp [hpc] at h2
  | declOld => simp [BOp.isDeclare] at hno
  | declNew => simp [BOp.isDeclare] at hno
  | check i d hd' => simp [hd] at hd'
  | drained i d _ _ hd' => simp [hd] at hd'
  | drainDup i d _ _ _ _ hd' => simp [hd] at hd'
  | drain i d _ _ _ _ hd' => simp [hd] at hd'
  | insert i d _ _ hd' => simp [hd] at hd'
  | chan o nm c ch h ho hf => have := (find_some hf).1; simp [hc] at this

theorem backlog_run {cfg : Cfg} {os : List (BOp M)} {s : BSt M} (hper : cfg.persistent = true) (hno : ∀ o ∈ os, o.isDeclare = false)
    (h : Lts.run (BSt.stepAlone cfg) BSt.init os = some s) : Backlog (payloads os) s := by
  revert hno
  refine Lts.run_induction (step := BSt.stepAlone cfg) (P := fun os s => (∀ o ∈ os, o.isDeclare = false) → Backlog (payloads os) s) ?_ ?_ os s h
  · intro _; exact ⟨rfl, rfl, .inl ⟨rfl, rfl⟩⟩
  · intro os o s s' _ ih hs hno
    rw [payloads_snoc]
    exact backlog_step hper (hno o (by simp)) (ih (fun x hx => hno x (by simp [hx]))) hs

/-- One declaration drains the whole of the history `H`. -/
def Replay (name : Nat) (H : List (Nat × M)) (s : BSt M) : Prop :=
  s.pubs = [] ∧ ((s.cons = [] ∧ s.declared = [] ∧ ∃ d, s.decls = [d] ∧ d.name = name ∧ d.buf ++ s.hist = H ∧ (∀ b sn, d.pc = .insert b sn → s.hist = [])) ∨
    ∃ c ∈ s.cons, c.name = name ∧ c.chan.log = H)

theorem replay_step {cfg : Cfg} {pd : List M} {name : Nat} {H : List (Nat × M)} {s s' : BSt M} {o : BOp M} (hn : NameInv cfg s) (hh : HistInv cfg pd s)
    (hk : ∀ c ∈ s.cons, ConsOk cfg pd s.pubs c) (hno : o.isPublish = false) (hi : Replay name H s) (h : s.stepAlone cfg o = some s') : Replay name H s' := by
  obtain ⟨hp, hi⟩ := hi
  have hst := br_of_step (stepAlone_step h)
  have hnn : s.names.Nodup := (List.nodup_append.1 hn.nodup).1
  have nop : ∀ {i : Nat} {p : Pub M}, s.pubs[i]? = some p → False := by intro i p h; simp [hp] at h
  rcases hi with ⟨hc, hdc, d, hd, hdn, hH, hins⟩ | ⟨c, hcm, hcn, hcl⟩
  · have one : ∀ {i : Nat} {e : Decl M}, s.decls[i]? = some e → i = 0 ∧ e = d := by
      intro i e he
      rw [hd] at he
      cases i with
      | zero => simp at he; exact ⟨rfl, he.symm⟩
      | succ i => simp at he
    have hal : s.decls.isEmpty = false := by simp [hd]
    cases hst with
    | publish => simp [BOp.isPublish] at hno
    | count i j k acc p hp' => exact (nop hp').elim
    | countHist i j k acc p hp' => exact (nop hp').elim
    | countEnter i j k acc p hp' => exact (nop hp').elim
    | hist i j p hp' => exact (nop hp').elim
    | enter i j p hp' => exact (nop hp').elim
    | next i j k p hp' => exact (nop hp').elim
    | ret i j k p hp' => exact (nop hp').elim
    | skip i j k nm todo p c hp' => exact (nop hp').elim
    | mark i j k nm todo p c hp' => exact (nop hp').elim
    | visit i j k nm todo p c hp' => exact (nop hp').elim
    | push i j k nm todo p hp' => exact (nop hp').elim
    | permit i j k nm todo p hp' => exact (nop hp').elim
    | declOld => simp [BSt.stepAlone, hal] at h
    | declNew => simp [BSt.stepAlone, hal] at h
    | check i e he hpc =>
      obtain ⟨rfl, rfl⟩ := one he
      have hb : e.buf = [] := by simp [Decl.buf, hpc]
      refine ⟨hp, .inl ⟨hc, hdc, { e with pc := if s.hist = [] then .insert [] [] else .drain [] [] }, by simp [hd], hdn, ?_, ?_⟩⟩
      · rw [← hH, hb]
        have h1 : Decl.buf ({ e with pc := if s.hist = [] then .insert [] [] else .drain [] [] } : Decl M) = [] := by
          unfold Decl.buf; by_cases hh : s.hist = [] <;> simp [hh]
        rw [h1]
      · intro b sn hb'
        simp only at hb'
        by_cases h0 : s.hist = []
        · exact h0
        · simp [h0] at hb'
    | drained i e buf seen he hpc h0 =>
      obtain ⟨rfl, rfl⟩ := one he
      have hb : e.buf = buf := by simp [Decl.buf, hpc]
      exact ⟨hp, .inl ⟨hc, hdc, { e with pc := .insert buf seen }, by simp [hd], hdn, by rw [← hH, hb]; rfl, fun _ _ _ => h0⟩⟩
    | drainDup i e buf seen x rest he hpc h0 hx =>
      obtain ⟨rfl, rfl⟩ := one he
      exfalso
      have hb : e.buf = buf := by simp [Decl.buf, hpc]
      have hsn : e.seen = seen := by simp [Decl.seen, hpc]
      have h1 := hh.seen e (List.mem_of_getElem? he)
      rw [hb, hsn] at h1
      rw [h1] at hx
      simp only [List.mem_reverse] at hx
      have hnd := hh.nodup
      simp only [BSt.kept, h0, hd, List.map_append, List.cons_append, List.map_cons, List.nodup_cons] at hnd
      apply hnd.1
      refine List.mem_append_right _ ?_
      simpa [hb] using hx
    | drain i e buf seen x rest he hpc h0 hx =>
      obtain ⟨rfl, rfl⟩ := one he
      have hb : e.buf = buf := by simp [Decl.buf, hpc]
      refine ⟨hp, .inl ⟨hc, hdc, { e with pc := .drain (buf ++ [x]) (x.1 :: seen) }, by simp [hd], hdn, ?_, by simp⟩⟩
      rw [← hH, hb, h0]
      simp [Decl.buf]
    | insert i e buf seen he hpc =>
      obtain ⟨rfl, rfl⟩ := one he
      have hb : e.buf = buf := by simp [Decl.buf, hpc]
      refine ⟨hp, .inr ⟨⟨e.name, Chan.fresh buf seen.length, seen⟩, by simp, hdn, ?_⟩⟩
      rw [← hH, hb, hins buf seen hpc]
      simp [Chan.fresh, Chan.log]
    | chan o nm c ch h ho hf => have := (find_some hf).1; simp [hc] at this
  · cases hst with
    | publish => simp [BOp.isPublish] at hno
    | count i j k acc p hp' => exact (nop hp').elim
    | countHist i j k acc p hp' => exact (nop hp').elim
    | countEnter i j k acc p hp' => exact (nop hp').elim
    | hist i j p hp' => exact (nop hp').elim
    | enter i j p hp' => exact (nop hp').elim
    | next i j k p hp' => exact (nop hp').elim
    | ret i j k p hp' => exact (nop hp').elim
    | skip i j k nm todo p c hp' => exact (nop hp').elim
    | mark i j k nm todo p c hp' => exact (nop hp').elim
    | visit i j k nm todo p c hp' => exact (nop hp').elim
    | push i j k nm todo p hp' => exact (nop hp').elim
    | permit i j k nm todo p hp' => exact (nop hp').elim
    | insert => exact ⟨hp, .inr ⟨c, by simp [hcm], hcn, hcl⟩⟩
    | chan o nm c0 ch h ho hf hc =>
      refine ⟨hp, .inr ⟨_, mem_onCons.2 ⟨c, hcm, rfl⟩, ?_, ?_⟩⟩
      · split <;> exact hcn
      · split
        · rename_i hnm
          obtain ⟨hf1, hf2⟩ := find_some hf
          have hcc : c = c0 := eq_of_name hnn hcm hf1 (hnm.trans hf2.symm)
          subst hcc
          exact (Chan.handle_step (hk c hcm).inv hc).1.trans hcl
        · exact hcl
    | _ => exact ⟨hp, .inr ⟨c, hcm, hcn, hcl⟩⟩

/-! ## Progress and termination of calls -/

theorem find_of_name {s : BSt M} {n : Nat} (h : n ∈ s.names) : ∃ c, s.find n = some c := by
  cases hf : s.find n with
  | none => exact absurd h (find_none hf)
  | some c => exact ⟨c, rfl⟩

/-- Bound on the steps the running calls can still take: `N` bounds the number of consumers. -/
def PubPc.left (cfg : Cfg) (N : Nat) : PubPc → Nat
  | .count k _ => (cfg.lastShard + 1 - k) + (cfg.lastShard + 1) * (3 * N + 1) + 5
  | .hist => (cfg.lastShard + 1) * (3 * N + 1) + 4
  | .enter => (cfg.lastShard + 1) * (3 * N + 1) + 2
  | .iter k todo => (cfg.lastShard - k) * (3 * N + 1) + 3 * todo.length + 1
  | .push k _ todo => (cfg.lastShard - k) * (3 * N + 1) + 3 * todo.length + 3
  | .permit k _ todo => (cfg.lastShard - k) * (3 * N + 1) + 3 * todo.length + 2

def DeclPc.left : DeclPc M → Nat
  | .check => 3
  | .drain _ _ => 2
  | .insert _ _ => 1

def BSt.left (cfg : Cfg) (s : BSt M) : Nat :=
  s.hist.length + (s.decls.map fun d => d.pc.left).sum + (s.pubs.map fun p => p.pc.left cfg (s.cons.length + s.decls.length)).sum

theorem sum_set {f : α → Nat} {l : List α} {i : Nat} {p x : α} (hp : l[i]? = some p) : ((l.set i x).map f).sum + f p = (l.map f).sum + f x := by
  induction l generalizing i with
  | nil => simp at hp
  | cons a l ih =>
    cases i with
    | zero => simp at hp; subst hp; simp; omega
    | succ i => simp at hp; have := ih hp; simp only [List.set_cons_succ, List.eraseIdx_cons_succ, List.map_cons, List.sum_cons]; omega

theorem sum_eraseIdx {f : α → Nat} {l : List α} {i : Nat} {p : α} (hp : l[i]? = some p) : ((l.eraseIdx i).map f).sum + f p = (l.map f).sum := by
  induction l generalizing i with
  | nil => simp at hp
  | cons a l ih =>
    cases i with
    | zero => simp at hp; subst hp; simp; omega
    | succ i => simp at hp; have := ih hp; simp only [List.set_cons_succ, List.eraseIdx_cons_succ, List.map_cons, List.sum_cons]; omega

theorem inShard_length (s : BSt M) (cfg : Cfg) (k : Nat) : (s.inShard cfg k).length ≤ s.cons.length := by
  unfold BSt.inShard
  exact Nat.le_trans (List.length_filter_le _ _) (by simp)

theorem left_step {cfg : Cfg} {s s' : BSt M} {o : BOp M} (ho : o.isCallStep = true) (h : s.step cfg o = some s') : s'.left cfg < s.left cfg := by
  have hst := br_of_step h
  clear h
  have gotoLt : ∀ {t : BSt M} {i : Nat} {p p' : Pub M} (_ : s.pubs[i]? = some p) (_ : t.pubs = s.pubs.set i p') (_ : t.hist = s.hist) (_ : t.decls = s.decls)
      (_ : t.cons.length = s.cons.length)
      (_ : p'.pc.left cfg (s.cons.length + s.decls.length) < p.pc.left cfg (s.cons.length + s.decls.length)), t.left cfg < s.left cfg := by
    intro t i p p' hp h1 h2 h3 h4 h5
    unfold BSt.left
    rw [h1, h2, h3, h4]
    have := sum_set (f := fun p => p.pc.left cfg (s.cons.length + s.decls.length)) (x := p') hp
    omega
  have lenOn : ∀ (t : BSt M) (n : Nat) (f : Cons M → Cons M), (t.onCons n f).cons.length = t.cons.length := by
    intro t n f; simp [BSt.onCons]
  have erl : ∀ {todo : List Nat} {j x : Nat}, todo[j]? = some x → (todo.eraseIdx j).length + 1 = todo.length := by
    intro todo j x hj
    have hl := (List.getElem?_eq_some_iff.1 hj).1
    rw [List.length_eraseIdx_of_lt hl]; omega
  cases hst with
  | publish => simp [BOp.isCallStep] at ho
  | declOld => simp [BOp.isCallStep] at ho
  | declNew => simp [BOp.isCallStep] at ho
  | chan o nm c ch h ho' => rcases ho' with rfl | rfl | rfl <;> simp [BOp.isCallStep] at ho
  | count i j k acc p hp hpc hk hw => exact gotoLt hp rfl rfl rfl rfl (by simp only [hpc, PubPc.left]; omega)
  | countHist i j k acc p hp hpc hk hw h0 => exact gotoLt hp rfl rfl rfl rfl (by simp only [hpc, PubPc.left]; omega)
  | countEnter i j k acc p hp hpc hk hw h0 => exact gotoLt hp rfl rfl rfl rfl (by simp only [hpc, PubPc.left]; omega)
  | hist i j p hp hpc =>
    unfold BSt.left
    have := sum_set (f := fun p => p.pc.left cfg (s.cons.length + s.decls.length)) (x := { p with pc := .enter }) hp
    simp only [hpc, PubPc.left] at this
    simp only [goto_pubs, goto_decls, goto_cons, List.length_append, List.length_singleton]
    simp only [PubPc.left]
    omega
  | enter i j p hp hpc hw =>
    refine gotoLt hp rfl rfl rfl rfl ?_
    have := inShard_length s cfg 0
    simp only [hpc, PubPc.left, Nat.sub_zero, Nat.succ_mul]
    omega
  | next i j k p hp hpc hk hw =>
    refine gotoLt hp rfl rfl rfl rfl ?_
    have := inShard_length s cfg (k + 1)
    simp only [hpc, PubPc.left]
    obtain ⟨r, hr⟩ : ∃ r, cfg.lastShard - k = r + 1 := ⟨cfg.lastShard - k - 1, by omega⟩
    have hr' : cfg.lastShard - (k + 1) = r := by omega
    rw [hr, hr', Nat.add_mul, Nat.one_mul]
    generalize r * _ = z
    simp only [List.length_nil]
    omega
  | ret i j k p hp hpc hk =>
    unfold BSt.left
    have := sum_eraseIdx (f := fun p => p.pc.left cfg (s.cons.length + s.decls.length)) hp
    simp only [hpc, PubPc.left] at this
    simp only [PubPc.left]
    omega
  | skip i j k nm todo p c hp hpc hj hf hper hs =>
    have := erl hj
    exact gotoLt hp rfl rfl rfl rfl (by simp only [hpc, PubPc.left]; omega)
  | mark i j k nm todo p c hp hpc hj hf hper hs =>
    have := erl hj
    exact gotoLt hp rfl rfl rfl (lenOn _ _ _) (by simp only [hpc, PubPc.left]; omega)
  | visit i j k nm todo p c hp hpc hj hf hper =>
    have := erl hj
    exact gotoLt hp rfl rfl rfl rfl (by simp only [hpc, PubPc.left]; omega)
  | push i j k nm todo p hp hpc => exact gotoLt hp rfl rfl rfl (lenOn _ _ _) (by simp only [hpc, PubPc.left]; omega)
  | permit i j k nm todo p hp hpc => exact gotoLt hp rfl rfl rfl (lenOn _ _ _) (by simp only [hpc, PubPc.left]; omega)
  | check i d hd hpc =>
    unfold BSt.left
    have := sum_set (f := fun d : Decl M => d.pc.left) (x := { d with pc := if s.hist = [] then .insert [] [] else .drain [] [] }) hd
    have h2 : DeclPc.left (if s.hist = [] then DeclPc.insert [] [] else DeclPc.drain ([] : List (Nat × M)) []) ≤ 2 := by split <;> simp [DeclPc.left]
    simp only [hpc, DeclPc.left, List.length_set] at this h2 ⊢
    omega
  | drained i d buf seen hd hpc hh =>
    unfold BSt.left
    have := sum_set (f := fun d : Decl M => d.pc.left) (x := { d with pc := .insert buf seen }) hd
    simp only [hpc, DeclPc.left, List.length_set] at this ⊢
    omega
  | drainDup i d buf seen x rest hd hpc hh hx =>
    unfold BSt.left
    have := sum_set (f := fun d : Decl M => d.pc.left) (x := { d with pc := .drain buf seen }) hd
    simp only [hpc, DeclPc.left, List.length_set, hh, List.length_cons] at this ⊢
    omega
  | drain i d buf seen x rest hd hpc hh hx =>
    unfold BSt.left
    have := sum_set (f := fun d : Decl M => d.pc.left) (x := { d with pc := .drain (buf ++ [x]) (x.1 :: seen) }) hd
    simp only [hpc, DeclPc.left, List.length_set, hh, List.length_cons] at this ⊢
    omega
  | insert i d buf seen hd hpc =>
    unfold BSt.left
    have := sum_eraseIdx (f := fun d : Decl M => d.pc.left) hd
    have hl := (List.getElem?_eq_some_iff.1 hd).1
    have h2 : (s.cons ++ [(⟨d.name, Chan.fresh buf seen.length, seen⟩ : Cons M)]).length + (s.decls.eraseIdx i).length = s.cons.length + s.decls.length := by
      rw [List.length_eraseIdx_of_lt hl]; simp; omega
    simp only [h2]
    simp only [hpc, DeclPc.left] at this ⊢
    omega

/-- Some running call can take a step. -/
theorem call_enabled {cfg : Cfg} {s : BSt M} (hn : NameInv cfg s) (hne : s.pubs ≠ [] ∨ s.decls ≠ []) :
    ∃ o s', o.isCallStep = true ∧ s.step cfg o = some s' := by
  by_cases hd : s.decls = []
  · have hp : s.pubs ≠ [] := by rcases hne with h | h; exact h; exact absurd hd h
    obtain ⟨p, ps, hps⟩ := List.exists_cons_of_ne_nil hp
    have h0 : s.pubs[0]? = some p := by simp [hps]
    have hw : ∀ k, s.writeLocked cfg k = false := by intro k; simp [BSt.writeLocked, hd]
    refine ⟨.pub 0 0, ?_⟩
    have hok := hn.pc p (List.mem_of_getElem? h0)
    simp only [BSt.step, h0, BSt.pubStep, BSt.iterate, hw, BOp.isCallStep, true_and]
    cases hpc : p.pc with
    | count k acc =>
      simp only [Bool.false_eq_true, if_false]
      by_cases h1 : k < cfg.lastShard
      · simp [h1]
      · by_cases h2 : acc + (s.inShard cfg k).length = 0
        · simp only [h1, h2, if_false, if_true]; exact ⟨_, rfl⟩
        · simp only [h1, h2, if_false]; exact ⟨_, rfl⟩
    | hist => simp
    | enter => simp
    | iter k todo =>
      cases todo with
      | nil => by_cases h1 : k < cfg.lastShard <;> simp [h1]
      | cons n todo =>
        rw [hpc] at hok
        obtain ⟨c, hc⟩ := find_of_name (hok.2 n (by simp)).1
        simp only [List.getElem?_cons_zero, hc]
        split
        · split <;> exact ⟨_, rfl⟩
        · exact ⟨_, rfl⟩
    | push => simp
    | permit => simp
  · obtain ⟨d, ds, hds⟩ := List.exists_cons_of_ne_nil hd
    refine ⟨.decl 0, s.declStep 0 d, rfl, ?_⟩
    simp [BSt.step, hds]

end InMem
end Paladin
