import Verif.Proofs.BroadcastInv
/-! # Invariants of the broadcast queue: what each consumer was given -/
namespace Paladin
namespace InMem

/-- Ids of everything ever put in the consumer's queue. -/
def Cons.ids (c : Cons M) : List Nat := c.chan.log.map Prod.fst

def PubPc.isPermit (n : Nat) : PubPc → Bool
  | .permit _ m _ => m == n
  | _ => false

def PubPc.isPush (n : Nat) : PubPc → Bool
  | .push _ m _ => m == n
  | _ => false

/-- The publisher may still come to consumer `n`. -/
def PubPc.ahead (cfg : Cfg) (n : Nat) : PubPc → Prop
  | .count _ _ | .hist | .enter => True
  | .iter k todo | .push k _ todo | .permit k _ todo => n ∈ todo ∨ k < cfg.shard n

structure ConsOk (cfg : Cfg) (pd : List M) (pubs : List (Pub M)) (c : Cons M) : Prop where
  nodup : c.ids.Nodup
  pay : ∀ x ∈ c.chan.log, pd[x.1]? = some x.2
  inv : c.chan.Inv
  owed : c.chan.owed = pubs.countP fun p => p.pc.isPermit c.name
  sub : cfg.persistent = true → ∀ n ∈ c.ids, n ∈ c.seen
  sup : cfg.persistent = true → ∀ n ∈ c.seen, n ∈ c.ids ∨ ∃ p ∈ pubs, p.id = n ∧ p.pc.isPush c.name = true
  push : ∀ p ∈ pubs, p.pc.isPush c.name = true → p.id ∉ c.ids
  pushSeen : cfg.persistent = true → ∀ p ∈ pubs, p.pc.isPush c.name = true → p.id ∈ c.seen
  volatile : cfg.persistent = false → ∀ p ∈ pubs, p.pc.ahead cfg c.name → p.id ∉ c.ids

theorem ConsOk.id_lt {cfg : Cfg} {pd : List M} {pubs : List (Pub M)} {c : Cons M} (h : ConsOk cfg pd pubs c) {n : Nat} (hn : n ∈ c.ids) : n < pd.length := by
  obtain ⟨x, hx, rfl⟩ := List.mem_map.1 hn
  exact (List.getElem?_eq_some_iff.1 (h.pay x hx)).1

/-- A step of a publisher that does not change the consumer. -/
theorem ConsOk.goto {cfg : Cfg} {pd : List M} {pubs : List (Pub M)} {c : Cons M} {i : Nat} {p p' : Pub M} (h : ConsOk cfg pd pubs c) (hp : pubs[i]? = some p)
    (h1 : p'.id = p.id) (hpm : p'.pc.isPermit c.name = p.pc.isPermit c.name) (hpu : p.pc.isPush c.name = false)
    (hpu' : p'.pc.isPush c.name = true → cfg.persistent = false ∧ p.id ∉ c.ids) (hv : cfg.persistent = false → p'.pc.ahead cfg c.name → p.pc.ahead cfg c.name) :
    ConsOk cfg pd (pubs.set i p') c := by
  refine ⟨h.nodup, h.pay, h.inv, ?_, h.sub, ?_, ?_, ?_, ?_⟩
  · have := countP_set (f := fun p => p.pc.isPermit c.name) (x := p') hp
    simp only [hpm] at this
    rw [h.owed]; omega
  · intro hper n hn
    rcases h.sup hper n hn with h2 | ⟨q, hq, hqn, hqp⟩
    · exact .inl h2
    · right
      rcases mem_set_of_mem (x := p') hp hq with rfl | hq'
      · rw [hpu] at hqp; simp at hqp
      · exact ⟨q, hq', hqn, hqp⟩
  · intro q hq hqp
    rcases List.mem_or_eq_of_mem_set hq with hq | rfl
    · exact h.push q hq hqp
    · rw [h1]; exact (hpu' hqp).2
  · intro hper q hq hqp
    rcases List.mem_or_eq_of_mem_set hq with hq | rfl
    · exact h.pushSeen hper q hq hqp
    · have := (hpu' hqp).1; rw [hper] at this; simp at this
  · intro hv' q hq hqa
    rcases List.mem_or_eq_of_mem_set hq with hq | rfl
    · exact h.volatile hv' q hq hqa
    · rw [h1]; exact h.volatile hv' p (List.mem_of_getElem? hp) (hv hv' hqa)

/-- A step on the consumer's queue by its handles. -/
theorem ConsOk.chan {cfg : Cfg} {pd : List M} {pubs : List (Pub M)} {c : Cons M} {ch : Chan (Nat × M)} (h : ConsOk cfg pd pubs c) (hl : ch.log = c.chan.log) (hi : ch.Inv)
    (ho : ch.owed = c.chan.owed) : ConsOk cfg pd pubs { c with chan := ch } := by
  have hids : Cons.ids { c with chan := ch } = c.ids := by simp [Cons.ids, hl]
  exact ⟨by rw [hids]; exact h.nodup, by simp only [hl]; exact h.pay, hi, by simp only [ho]; exact h.owed, by rw [hids]; exact h.sub, by rw [hids]; exact h.sup,
    by rw [hids]; exact h.push, h.pushSeen, by rw [hids]; exact h.volatile⟩

theorem Chan.addPermit_owed (c : Chan M) : c.addPermit.owed = c.owed := by unfold addPermit; split <;> rfl
theorem Chan.releaseOne_log (c : Chan M) : c.releaseOne.log = c.log := by simp [releaseOne, log]
theorem Chan.releaseOne_owed (c : Chan M) : c.releaseOne.owed = c.owed - 1 := by simp [releaseOne, addPermit_owed]

theorem Chan.handle_step {c ch : Chan M} {h : Nat} (hi : c.Inv) (hc : c.poll h = some ch ∨ c.pop h = some ch ∨ c.drop h = some ch) :
    ch.log = c.log ∧ ch.Inv ∧ ch.owed = c.owed := by
  rcases hc with hc | hc | hc
  · refine ⟨by simp [log, log_poll hc], inv_poll hi hc, ?_⟩
    unfold Chan.poll at hc
    repeat' split at hc
    all_goals simp at hc
    all_goals subst hc; rfl
  · refine ⟨log_pop hc, (inv_pop hi hc).1, ?_⟩
    unfold Chan.pop at hc
    repeat' split at hc
    all_goals simp at hc
    all_goals subst hc; rfl
  · refine ⟨by simp [log, log_drop hc], inv_drop hi hc, ?_⟩
    unfold Chan.drop at hc
    repeat' split at hc
    all_goals simp at hc
    all_goals subst hc; simp [addPermit_owed]

theorem todo_of_mem {todo : List Nat} {j name x : Nat} (hj : todo[j]? = some name) (hx : x ∈ todo.eraseIdx j) : x ∈ todo := List.mem_of_mem_eraseIdx hx

theorem consOk_step {cfg : Cfg} {pd : List M} {s s' : BSt M} {o : BOp M} (hid : IdInv pd s) (hn : NameInv cfg s) (hh : HistInv cfg pd s)
    (hi : ∀ c ∈ s.cons, ConsOk cfg pd s.pubs c) (h : s.step cfg o = some s') : ∀ c ∈ s'.cons, ConsOk cfg (pd ++ o.published.toList) s'.pubs c := by
  have hst := br_of_step h
  clear h
  have hnn : s.names.Nodup := (List.nodup_append.1 hn.nodup).1
  have hpc' : ∀ {i : Nat} {p : Pub M}, s.pubs[i]? = some p → PcOk cfg s.names p.pc := fun hp => hn.pc _ (List.mem_of_getElem? hp)
  have hname : ∀ c ∈ s.cons, c.name ∈ s.names := fun c hc => List.mem_map_of_mem hc
  cases hst with
  | publish m =>
    intro c hc
    have hk := hi c hc
    refine ⟨hk.nodup, ?_, hk.inv, ?_, hk.sub, ?_, ?_, ?_, ?_⟩
    · intro x hx
      have := hk.pay x hx
      rw [List.getElem?_append_left (List.getElem?_eq_some_iff.1 this).1]; exact this
    · have hz : PubPc.isPermit c.name (if cfg.persistent = true then PubPc.count 0 0 else PubPc.enter) = false := by split <;> rfl
      simp [BSt.publish, hk.owed, hz]
    · intro hper n hn'
      rcases hk.sup hper n hn' with h2 | ⟨q, hq, hqn, hqp⟩
      · exact .inl h2
      · exact .inr ⟨q, by simp [BSt.publish, hq], hqn, hqp⟩
    · intro p hp hpp
      simp [BSt.publish] at hp
      rcases hp with hp | rfl
      · exact hk.push p hp hpp
      · simp only at hpp; split at hpp <;> simp [PubPc.isPush] at hpp
    · intro hper p hp hpp
      simp [BSt.publish] at hp
      rcases hp with hp | rfl
      · exact hk.pushSeen hper p hp hpp
      · simp only at hpp; split at hpp <;> simp [PubPc.isPush] at hpp
    · intro hv p hp ha
      simp [BSt.publish] at hp
      rcases hp with hp | rfl
      · exact hk.volatile hv p hp ha
      · intro hm
        have := hk.id_lt hm
        simp only [hid.ctr] at this
        omega
  | count i j k acc p hp hpc =>
    simp only [BOp.published, Option.toList, List.append_nil]
    exact fun c hc => (hi c hc).goto hp rfl (by simp [hpc, PubPc.isPermit]) (by simp [hpc, PubPc.isPush]) (by simp [PubPc.isPush]) (fun _ _ => by simp [hpc, PubPc.ahead])
  | countHist i j k acc p hp hpc =>
    simp only [BOp.published, Option.toList, List.append_nil]
    exact fun c hc => (hi c hc).goto hp rfl (by simp [hpc, PubPc.isPermit]) (by simp [hpc, PubPc.isPush]) (by simp [PubPc.isPush]) (fun _ _ => by simp [hpc, PubPc.ahead])
  | countEnter i j k acc p hp hpc =>
    simp only [BOp.published, Option.toList, List.append_nil]
    exact fun c hc => (hi c hc).goto hp rfl (by simp [hpc, PubPc.isPermit]) (by simp [hpc, PubPc.isPush]) (by simp [PubPc.isPush]) (fun _ _ => by simp [hpc, PubPc.ahead])
  | hist i j p hp hpc =>
    simp only [BOp.published, Option.toList, List.append_nil]
    exact fun c hc => (hi c hc).goto hp rfl (by simp [hpc, PubPc.isPermit]) (by simp [hpc, PubPc.isPush]) (by simp [PubPc.isPush]) (fun _ _ => by simp [hpc, PubPc.ahead])
  | enter i j p hp hpc hw =>
    simp only [BOp.published, Option.toList, List.append_nil]
    exact fun c hc => (hi c hc).goto hp rfl (by simp [hpc, PubPc.isPermit]) (by simp [hpc, PubPc.isPush]) (by simp [PubPc.isPush]) (fun _ _ => by simp [hpc, PubPc.ahead])
  | next i j k p hp hpc hk hw =>
    simp only [BOp.published, Option.toList, List.append_nil]
    intro c hc
    refine (hi c hc).goto hp rfl (by simp [hpc, PubPc.isPermit]) (by simp [hpc, PubPc.isPush]) (by simp [PubPc.isPush]) ?_
    intro _ ha
    simp only [PubPc.ahead, hpc] at ha ⊢
    right
    rcases ha with ha | ha
    · simp [BSt.inShard] at ha; omega
    · omega
  | ret i j k p hp hpc hk =>
    simp only [BOp.published, Option.toList, List.append_nil]
    intro c hc
    have hk := hi c hc
    have hsub : ∀ q ∈ s.pubs.eraseIdx i, q ∈ s.pubs := fun q hq => List.mem_of_mem_eraseIdx hq
    refine ⟨hk.nodup, hk.pay, hk.inv, ?_, hk.sub, ?_, fun q hq => hk.push q (hsub q hq), fun hper q hq => hk.pushSeen hper q (hsub q hq),
      fun hv q hq => hk.volatile hv q (hsub q hq)⟩
    · have := countP_eraseIdx' (f := fun p => p.pc.isPermit c.name) hp
      simp [hpc, PubPc.isPermit] at this
      rw [hk.owed]
      simp only [PubPc.isPermit]
      exact this.symm
    · intro hper n hn'
      rcases hk.sup hper n hn' with h2 | ⟨q, hq, hqn, hqp⟩
      · exact .inl h2
      · right
        rcases mem_eraseIdx_of_mem hp hq with rfl | hq'
        · simp [hpc, PubPc.isPush] at hqp
        · exact ⟨q, hq', hqn, hqp⟩
  | skip i j k name todo p c' hp hpc hj hf hper hs =>
    simp only [BOp.published, Option.toList, List.append_nil]
    exact fun c hc => (hi c hc).goto hp rfl (by simp [hpc, PubPc.isPermit]) (by simp [hpc, PubPc.isPush]) (by simp [PubPc.isPush]) (fun hv => by simp [hper] at hv)
  | visit i j k name todo p c' hp hpc hj hf hper =>
    simp only [BOp.published, Option.toList, List.append_nil]
    intro c hc
    refine (hi c hc).goto hp rfl (by simp [hpc, PubPc.isPermit]) (by simp [hpc, PubPc.isPush]) ?_ ?_
    · intro hpu
      simp [PubPc.isPush] at hpu
      refine ⟨hper, (hi c hc).volatile hper p (List.mem_of_getElem? hp) ?_⟩
      rw [hpc]
      exact .inl (by rw [← hpu]; exact List.mem_of_getElem? hj)
    · intro _ ha
      simp only [PubPc.ahead, hpc] at ha ⊢
      exact ha.imp (fun h => todo_of_mem hj h) (fun h => h)
  | mark i j k name todo p c' hp hpc hj hf hper hs =>
    simp only [BOp.published, Option.toList, List.append_nil]
    intro c hc
    rw [mem_onCons] at hc
    obtain ⟨c0, hc0, rfl⟩ := hc
    simp only [goto_cons] at hc0
    have hk := hi c0 hc0
    simp only [onCons_pubs, goto_pubs]
    split
    · rename_i hnm
      obtain ⟨hf1, hf2⟩ := find_some hf
      have hcc : c0 = c' := eq_of_name hnn hc0 hf1 (hnm.trans hf2.symm)
      subst hcc
      have hnid : p.id ∉ c0.ids := fun hm => hs (hk.sub hper _ hm)
      refine ⟨hk.nodup, hk.pay, hk.inv, ?_, ?_, ?_, ?_, ?_, ?_⟩
      · have := countP_set (f := fun p => p.pc.isPermit c0.name) (x := { p with pc := .push k name (todo.eraseIdx j) }) hp
        simp [hpc, PubPc.isPermit] at this
        rw [hk.owed]
        simp only [PubPc.isPermit]
        exact this.symm
      · intro _ n hn'; exact List.mem_cons_of_mem _ (hk.sub hper n hn')
      · intro _ n hn'
        simp only [List.mem_cons] at hn'
        rcases hn' with rfl | hn'
        · right
          exact ⟨_, mem_set_self hp, rfl, by simp [PubPc.isPush, hnm]⟩
        · rcases hk.sup hper n hn' with h2 | ⟨q, hq, hqn, hqp⟩
          · exact .inl h2
          · right
            rcases mem_set_of_mem (x := { p with pc := .push k name (todo.eraseIdx j) }) hp hq with rfl | hq'
            · simp [hpc, PubPc.isPush] at hqp
            · exact ⟨q, hq', hqn, hqp⟩
      · intro q hq hqp
        rcases List.mem_or_eq_of_mem_set hq with hq | rfl
        · exact hk.push q hq hqp
        · exact hnid
      · intro _ q hq hqp
        rcases List.mem_or_eq_of_mem_set hq with hq | rfl
        · exact List.mem_cons_of_mem _ (hk.pushSeen hper q hq hqp)
        · simp
      · intro hv; rw [hper] at hv; simp at hv
    · rename_i hnm
      exact hk.goto hp rfl (by simp [hpc, PubPc.isPermit]) (by simp [hpc, PubPc.isPush]) (by simp [PubPc.isPush]; exact fun h => absurd h.symm hnm) (fun hv => by simp [hper] at hv)
  | push i j k name todo p hp hpc =>
    simp only [BOp.published, Option.toList, List.append_nil]
    intro c hc
    rw [mem_onCons] at hc
    obtain ⟨c0, hc0, rfl⟩ := hc
    simp only [goto_cons] at hc0
    have hk := hi c0 hc0
    have hpok := hpc' hp
    rw [hpc] at hpok
    have hpm := List.mem_of_getElem? hp
    simp only [onCons_pubs, goto_pubs]
    split
    · rename_i hnm
      subst hnm
      have hnid : p.id ∉ c0.ids := hk.push p hpm (by simp [hpc, PubPc.isPush])
      have hlog : (c0.chan.push (p.id, p.msg)).log = c0.chan.log ++ [(p.id, p.msg)] := by simp [Chan.push, Chan.log]
      have hids : Cons.ids { c0 with chan := c0.chan.push (p.id, p.msg) } = c0.ids ++ [p.id] := by simp [Cons.ids, hlog]
      have hother : ∀ q ∈ s.pubs.set i { p with pc := .permit k c0.name todo }, q.id = p.id → q.pc = .permit k c0.name todo := by
        intro q hq he
        obtain ⟨n, hnq⟩ := List.getElem?_of_mem hq
        rw [List.getElem?_set] at hnq
        split at hnq
        · split at hnq
          · simp at hnq; rw [← hnq]
          · simp at hnq
        · rename_i hne
          have hq' := List.mem_of_getElem? hnq
          have := hid.eq_of_id hq' hpm he
          subst this
          obtain ⟨hl1, he1⟩ := List.getElem?_eq_some_iff.1 hp
          obtain ⟨hl2, he2⟩ := List.getElem?_eq_some_iff.1 hnq
          exact absurd ((List.getElem_inj (h₀ := by simpa using hl1) (h₁ := by simpa using hl2) hid.nodup).1 (by simp [he1, he2])) hne
      refine ⟨?_, ?_, Chan.inv_push hk.inv _, ?_, ?_, ?_, ?_, ?_, ?_⟩
      · rw [hids, List.nodup_append]
        exact ⟨hk.nodup, by simp, by intro a ha b hb; simp at hb; subst hb; rintro rfl; exact hnid ha⟩
      · intro x hx
        simp only [hlog, List.mem_append, List.mem_singleton] at hx
        rcases hx with hx | rfl
        · exact hk.pay x hx
        · exact hid.pay p hpm
      · have := countP_set (f := fun p => p.pc.isPermit c0.name) (x := { p with pc := .permit k c0.name todo }) hp
        simp [hpc, PubPc.isPermit] at this
        have h2 := hk.owed
        simp only [Chan.push, PubPc.isPermit] at h2 ⊢
        omega
      · intro hper n hn'
        rw [hids] at hn'
        simp at hn'
        rcases hn' with hn' | rfl
        · exact hk.sub hper n hn'
        · exact hk.pushSeen hper p hpm (by simp [hpc, PubPc.isPush])
      · intro hper n hn'
        rw [hids]
        rcases hk.sup hper n hn' with h2 | ⟨q, hq, hqn, hqp⟩
        · left; simp [h2]
        · rcases mem_set_of_mem (x := { p with pc := .permit k c0.name todo }) hp hq with rfl | hq'
          · left; simp [hqn]
          · exact .inr ⟨q, hq', hqn, hqp⟩
      · intro q hq hqp
        rw [hids]
        have hq0 := hq
        rcases List.mem_or_eq_of_mem_set hq with hq | rfl
        · simp only [List.mem_append, List.mem_singleton, not_or]
          refine ⟨hk.push q hq hqp, fun he => ?_⟩
          rw [hother q hq0 he] at hqp
          simp [PubPc.isPush] at hqp
        · simp [PubPc.isPush] at hqp
      · intro hper q hq hqp
        rcases List.mem_or_eq_of_mem_set hq with hq | rfl
        · exact hk.pushSeen hper q hq hqp
        · simp [PubPc.isPush] at hqp
      · intro hv q hq hqa
        rw [hids]
        have hself : ¬ PubPc.ahead cfg c0.name (.permit k c0.name todo) := by
          simp only [PubPc.ahead]
          rintro (h1 | h1)
          · exact (List.nodup_cons.1 hpok.1).1 h1
          · have := (hpok.2 c0.name (by simp)).2; omega
        have hq0 := hq
        rcases List.mem_or_eq_of_mem_set hq with hq | rfl
        · simp only [List.mem_append, List.mem_singleton, not_or]
          refine ⟨hk.volatile hv q hq hqa, fun he => ?_⟩
          rw [hother q hq0 he] at hqa
          exact hself hqa
        · exact absurd hqa hself
    · rename_i hnm
      refine hk.goto hp rfl ?_ ?_ ?_ ?_
      · simp [hpc, PubPc.isPermit]; exact fun h => hnm h.symm
      · simp [hpc, PubPc.isPush]; exact fun h => hnm h.symm
      · simp [PubPc.isPush]
      · intro _ ha; rw [hpc]; exact ha
  | permit i j k name todo p hp hpc =>
    simp only [BOp.published, Option.toList, List.append_nil]
    intro c hc
    rw [mem_onCons] at hc
    obtain ⟨c0, hc0, rfl⟩ := hc
    simp only [goto_cons] at hc0
    have hk := hi c0 hc0
    simp only [onCons_pubs, goto_pubs]
    split
    · rename_i hnm
      subst hnm
      have hlog := Chan.releaseOne_log c0.chan
      have hids : Cons.ids { c0 with chan := c0.chan.releaseOne } = c0.ids := by simp [Cons.ids, hlog]
      have hcnt := countP_set (f := fun p => p.pc.isPermit c0.name) (x := { p with pc := .iter k todo }) hp
      simp only [hpc, PubPc.isPermit, beq_self_eq_true, if_true] at hcnt
      have hcnt0 : (s.pubs.set i { p with pc := .iter k todo }).countP (fun p => p.pc.isPermit c0.name) + 1 = s.pubs.countP (fun p => p.pc.isPermit c0.name) := by
        simp at hcnt; exact hcnt
      have ho := hk.owed
      refine ⟨by rw [hids]; exact hk.nodup, by simp only [hlog]; exact hk.pay, ?_, ?_, by rw [hids]; exact hk.sub, ?_, ?_, ?_, ?_⟩
      · refine Chan.inv_release hk.inv (c' := c0.chan.releaseOne) ?_
        have : ¬ c0.chan.owed = 0 := by omega
        simp [Chan.release, this]
      · simp only [Chan.releaseOne_owed]; omega
      · intro hper n hn'
        rw [hids]
        rcases hk.sup hper n hn' with h2 | ⟨q, hq, hqn, hqp⟩
        · exact .inl h2
        · right
          rcases mem_set_of_mem (x := { p with pc := .iter k todo }) hp hq with rfl | hq'
          · simp [hpc, PubPc.isPush] at hqp
          · exact ⟨q, hq', hqn, hqp⟩
      · intro q hq hqp
        rw [hids]
        rcases List.mem_or_eq_of_mem_set hq with hq | rfl
        · exact hk.push q hq hqp
        · simp [PubPc.isPush] at hqp
      · intro hper q hq hqp
        rcases List.mem_or_eq_of_mem_set hq with hq | rfl
        · exact hk.pushSeen hper q hq hqp
        · simp [PubPc.isPush] at hqp
      · intro hv q hq hqa
        rw [hids]
        rcases List.mem_or_eq_of_mem_set hq with hq | rfl
        · exact hk.volatile hv q hq hqa
        · exact hk.volatile hv p (List.mem_of_getElem? hp) (by rw [hpc]; exact hqa)
    · rename_i hnm
      refine hk.goto hp rfl ?_ ?_ ?_ ?_
      · simp [hpc, PubPc.isPermit]; exact fun h => hnm h.symm
      · simp [hpc, PubPc.isPush]
      · simp [PubPc.isPush]
      · intro _ ha; rw [hpc]; exact ha
  | insert i d buf seen hd hpc =>
    simp only [BOp.published, Option.toList, List.append_nil]
    intro c hc
    simp at hc
    rcases hc with hc | rfl
    · exact hi c hc
    have hdm := List.mem_of_getElem? hd
    have hb : d.buf = buf := by simp [Decl.buf, hpc]
    have hsn : d.seen = seen := by simp [Decl.seen, hpc]
    have hseen := hh.seen d hdm
    rw [hb, hsn] at hseen
    have hsub : buf.Sublist s.kept := by
      rw [← hb]
      refine List.Sublist.trans ?_ (List.sublist_append_right _ _)
      have h1 : [d].Sublist s.decls := List.singleton_sublist.2 hdm
      simpa using sublist_flatMap (f := Decl.buf) h1
    have hlog : (Chan.fresh buf seen.length).log = buf := by simp [Chan.fresh, Chan.log]
    have hids : Cons.ids ⟨d.name, Chan.fresh buf seen.length, seen⟩ = buf.map Prod.fst := by simp [Cons.ids, hlog]
    have hdn : d.name ∉ s.names := by
      intro hm
      exact (List.nodup_append.1 hn.nodup).2.2 _ hm _ (List.mem_map_of_mem hdm) rfl
    have hno : ∀ p ∈ s.pubs, p.pc.isPermit d.name = false ∧ p.pc.isPush d.name = false := by
      intro p hp
      have hok := hn.pc p hp
      cases hpp : p.pc with
      | push k n todo =>
        simp only [hpp, PcOk] at hok
        have := (hok.2 n (by simp)).1
        simp [PubPc.isPermit, PubPc.isPush]
        rintro rfl; exact hdn this
      | permit k n todo =>
        simp only [hpp, PcOk] at hok
        have := (hok.2 n (by simp)).1
        simp [PubPc.isPermit, PubPc.isPush]
        rintro rfl; exact hdn this
      | _ => simp [PubPc.isPermit, PubPc.isPush]
    refine ⟨?_, ?_, ?_, ?_, ?_, ?_, ?_, ?_, ?_⟩
    · rw [hids]; exact List.Nodup.sublist (hsub.map _) hh.nodup
    · simp only [hlog]; exact fun x hx => hh.pay x (hsub.subset hx)
    · have : seen.length = buf.length := by rw [hseen]; simp
      simp only [this]
      exact Chan.inv_fresh buf
    · simp only [Chan.fresh]
      symm
      rw [List.countP_eq_zero]
      intro p hp; simp [(hno p hp).1]
    · intro _ n hn'
      rw [hids] at hn'
      simp only [hseen, List.mem_reverse]; exact hn'
    · intro _ n hn'
      rw [hids]
      simp only [hseen, List.mem_reverse] at hn'; exact .inl hn'
    · intro p hp hpp; simp [(hno p hp).2] at hpp
    · intro _ p hp hpp; simp [(hno p hp).2] at hpp
    · intro hv p hp _
      rw [hids]
      have := hh.volatile hv
      rw [this] at hsub
      simp [List.sublist_nil.1 hsub]
  | chan o name c ch h ho hf hc =>
    have : o.published = none := by rcases ho with rfl | rfl | rfl <;> rfl
    simp only [this, Option.toList, List.append_nil]
    intro c' hc'
    rw [mem_onCons] at hc'
    obtain ⟨c0, hc0, rfl⟩ := hc'
    have hk := hi c0 hc0
    simp only [onCons_pubs]
    split
    · rename_i hnm
      obtain ⟨hf1, hf2⟩ := find_some hf
      have hcc : c0 = c := eq_of_name hnn hc0 hf1 (hnm.trans hf2.symm)
      subst hcc
      obtain ⟨h1, h2, h3⟩ := Chan.handle_step hk.inv hc
      exact hk.chan h1 h2 h3
    · exact hk
  | _ => simp only [BOp.published, Option.toList, List.append_nil]; exact hi

theorem consOk_run {cfg : Cfg} {os : List (BOp M)} {s : BSt M} (h : BSt.init.run cfg os = some s) : ∀ c ∈ s.cons, ConsOk cfg (payloads os) s.pubs c := by
  refine Lts.run_induction (step := BSt.step cfg) (P := fun os s => ∀ c ∈ s.cons, ConsOk cfg (payloads os) s.pubs c) ?_ ?_ os s h
  · simp [BSt.init]
  · intro os o s s' hr ih hs
    rw [payloads_snoc]
    exact consOk_step (idInv_run hr) (nameInv_run hr) (histInv_run hr) ih hs

end InMem
end Paladin
