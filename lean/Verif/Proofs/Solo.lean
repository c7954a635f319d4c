import Verif.Proofs.SystemMem
/-! # A single worker: proofs -/
namespace Paladin
namespace SystemMem
open Retry Paladin.System InMem

section
variable {κ : Type} {σ ℓ : κ → Type} {T O ε χ ω : Type} [DecidableEq κ] {cl : (j : κ) → Client (σ j) (ℓ j) T (Except ε O)} {listens : (j : κ) → σ j → Bool} {cfg : Worker.Cfg κ}
  {exec : ω → T → Except (OpError χ) O} {text : OpError χ → ε}

/-- The results a leader has received, then those waiting for it. -/
def St.hist (s : St κ σ T O ε χ) (j : κ) : List (Except ε O) := (s.rq j).received.map Prod.snd ++ (s.rq j).msgs

/-- The tasks of a job that were answered, in the order in which they were handed out. -/
def answeredTasks (j : κ) (dels : List (Del κ T)) : List T := dels.filterMap fun d => if d.msg.key = j ∧ d.answered = true then some d.msg.task else none

theorem filterMap_modify {γ δ : Type} (g : γ → Option δ) (f : γ → γ) (hf : ∀ d, g (f d) = g d) (l : List γ) (n : Nat) : (l.modify n f).filterMap g = l.filterMap g := by
  induction l generalizing n with
  | nil => simp
  | cons d l ih => cases n <;> simp [List.modify_cons, List.filterMap_cons, hf, ih]

theorem answered_settle (j : κ) (dels : List (Del κ T)) (n : Nat) : answeredTasks j (settle dels n) = answeredTasks j dels := by
  unfold answeredTasks settle
  apply filterMap_modify
  intro d
  rfl

omit [DecidableEq κ] in
theorem answer_last (xs : List (Del κ T)) (d : Del κ T) : answer (xs ++ [d]) xs.length = xs ++ [{ d with answered := true }] := by
  induction xs with
  | nil => rfl
  | cons x xs ih =>
    simp only [answer] at ih
    simp [answer, ih]

theorem answered_sublist (j : κ) (dels : List (Del κ T)) (q : List (Msg κ T)) : List.Sublist (answeredTasks j dels) (((dels.map Del.msg ++ q).filter fun m => m.key = j).map Msg.task) := by
  induction dels with
  | nil => exact List.nil_sublist _
  | cons d dels ih =>
    simp only [answeredTasks, List.filterMap_cons, List.map_cons, List.cons_append, List.filter_cons] at ih ⊢
    by_cases hk : d.msg.key = j
    · cases ha : d.answered with
      | true => simpa [hk] using ih
      | false => simpa [hk] using ih.cons _
    · simpa [hk] using ih

/-- The order of the results of a single worker. -/
structure Ord (exec : ω → T → Except (OpError χ) O) (text : OpError χ → ε) (w0 : Nat) (s : St κ σ T O ε χ) : Prop where
  others : ∀ w, w ≠ w0 → busy (s.sys.worker w).pc = false
  last : busy (s.sys.worker w0).pc = true → s.sys.cur w0 + 1 = s.sys.dels.length
  ans : ∀ j, List.Forall₂ (fun t r => ∃ x, r = outcome exec text x t) (answeredTasks j s.sys.dels) (s.hist j)

omit [DecidableEq κ] in
theorem hist_flush (s : St κ σ T O ε χ) (v : System.St κ σ T O ε χ) (j : κ) : (s.flush v).hist j = s.hist j ++ v.results j := by
  simp [St.hist, St.flush, Chan.foldl_push]

/-- A step of the system on the messages at hand keeps the order. -/
theorem ord_eff {w0 : Nat} {s : St κ σ T O ε χ} (u : System.St κ σ T O ε χ) (hu : u.worker = s.sys.worker ∧ u.cur = s.sys.cur ∧ u.dels = s.sys.dels) (hr : ∀ j, u.results j = []) (ho : Ord exec text w0 s)
    (si : System.Inv exec u) {l : System.Label κ ℓ O χ ω} (hl : ∀ j k, l ≠ .lead j k) (hd : ∀ w k, l = .deliver w k → w = w0) (hq : l.requeues = false) {v : System.St κ σ T O ε χ}
    (h : System.step cl cfg exec text u l = some v) :
    (∀ w, w ≠ w0 → busy (v.worker w).pc = false) ∧ (busy (v.worker w0).pc = true → v.cur w0 + 1 = v.dels.length) ∧
      ∀ j, List.Forall₂ (fun t r => ∃ x, r = outcome exec text x t) (answeredTasks j v.dels) (s.hist j ++ v.results j) := by
  obtain ⟨o1, o2, o3⟩ := ho
  obtain ⟨u1, u2, u3⟩ := hu
  rw [← u1] at o1 o2
  rw [← u2, ← u3] at o2
  rw [← u3] at o3
  cases eff_of_step si h with
  | lead j l _ _ _ _ => exact absurd rfl (hl j l)
  | deliver w k m a b i v' hq' hw hv =>
    obtain rfl := hd w k rfl
    refine ⟨fun w' hw' => by simpa [Function.update_of_ne hw'] using o1 w' hw', fun _ => by simp, fun j => ?_⟩
    simpa [answeredTasks, List.filterMap_append, hr] using o3 j
  | finish w x d i k n v' hdel hpc hv =>
    have hb : busy (u.worker w).pc = true := by rw [hpc]; rfl
    obtain rfl : w = w0 := by
      by_contra hne
      rw [o1 w hne] at hb
      simp at hb
    exact ⟨fun w' hw' => by simpa [Function.update_of_ne hw'] using o1 w' hw', fun _ => o2 hb, fun j => by simpa [hr] using o3 j⟩
  | quiet w l v' b hp hst hb =>
    obtain ⟨p1, _, _⟩ := plain_step (T := T) (exec := exec) hp hst
    have hlen : (if b then settle u.dels (u.cur w) else u.dels).length = u.dels.length := by split <;> simp
    have hans : ∀ j, answeredTasks j (if b then settle u.dels (u.cur w) else u.dels) = answeredTasks j u.dels := by
      intro j; split
      · exact answered_settle _ _ _
      · rfl
    refine ⟨fun w' hw' => ?_, fun hbusy => ?_, fun j => ?_⟩
    · by_cases e : w' = w
      · subst e
        simp only [Function.update_self]
        cases hx : busy v'.pc with
        | false => rfl
        | true =>
          have := p1 hx
          rw [o1 _ hw'] at this
          exact this.symm
      · simpa [Function.update_of_ne e] using o1 w' hw'
    · show u.cur w0 + 1 = _
      rw [hlen]
      apply o2
      by_cases e : w0 = w
      · subst e
        simp only [Function.update_self] at hbusy
        exact p1 hbusy
      · simpa [Function.update_of_ne e] using hbusy
    · show List.Forall₂ _ (answeredTasks j (if b then settle u.dels (u.cur w) else u.dels)) _
      rw [hans]
      simpa [hr] using o3 j
  | answer w l v' d r _ hst hdel hdw hda hm hm' hlink hx =>
    have hb : busy (u.worker w).pc = true := busy_of_mayAnswer hm
    obtain rfl : w = w0 := by
      by_contra hne
      rw [o1 w hne] at hb
      simp at hb
    have hlast := o2 hb
    obtain ⟨xs, hxs⟩ : ∃ xs, u.dels = xs ++ [d] := by
      have hne : u.dels ≠ [] := by intro e; rw [e] at hlast; simp at hlast
      refine ⟨u.dels.dropLast, ?_⟩
      have h1 : u.dels.getLast hne = d := by
        rw [List.getLast_eq_getElem]
        have : u.cur w = u.dels.length - 1 := by omega
        rw [this] at hdel
        exact (List.getElem?_eq_some_iff.1 hdel).2
      rw [← h1, List.dropLast_concat_getLast]
    have hcur : u.cur w = xs.length := by rw [hxs] at hlast; simp at hlast; exact hlast
    refine ⟨fun w' hw' => by simpa [Function.update_of_ne hw'] using o1 w' hw', fun _ => by simpa using hlast, fun j => ?_⟩
    have o := o3 j
    simp only [hxs, hcur, answer_last]
    rw [hxs] at o
    simp only [answeredTasks, List.filterMap_append, List.filterMap_cons, List.filterMap_nil, hda] at o ⊢
    by_cases hk : d.msg.key = j
    · subst hk
      simp only [Function.update_self, hr, List.nil_append]
      exact List.rel_append (by simpa using o) (by simpa using hx)
    · simp only [hk, false_and, if_false, List.append_nil] at o ⊢
      rw [Function.update_of_ne (Ne.symm hk), hr]
      simpa using o
  | requeue n d _ _ => simp [System.Label.requeues] at hq

theorem ord_flush {w0 : Nat} {s s0 : St κ σ T O ε χ} {v : System.St κ σ T O ε χ} (hh : ∀ j, s0.hist j = s.hist j)
    (h : (∀ w, w ≠ w0 → busy (v.worker w).pc = false) ∧ (busy (v.worker w0).pc = true → v.cur w0 + 1 = v.dels.length) ∧
      ∀ j, List.Forall₂ (fun t r => ∃ x, r = outcome exec text x t) (answeredTasks j v.dels) (s.hist j ++ v.results j)) : Ord exec text w0 (s0.flush v) :=
  ⟨h.1, h.2.1, fun j => by rw [hist_flush, hh]; exact h.2.2 j⟩

theorem poll_hist {c c' : Chan M} {h : Nat} (e : c.poll h = some c') : c'.received = c.received ∧ c'.msgs = c.msgs := by
  unfold Chan.poll at e
  (repeat' split at e) <;> simp only [Option.some.injEq, reduceCtorEq] at e <;> subst e <;> exact ⟨rfl, rfl⟩

theorem addPermit_hist (c : Chan M) : c.addPermit.received = c.received ∧ c.addPermit.msgs = c.msgs := by
  unfold Chan.addPermit
  (repeat' split) <;> exact ⟨rfl, rfl⟩

theorem release_hist {c c' : Chan M} (e : c.release = some c') : c'.received = c.received ∧ c'.msgs = c.msgs := by
  unfold Chan.release at e
  split at e <;> simp only [Option.some.injEq, reduceCtorEq] at e
  subst e
  exact addPermit_hist _

theorem hist_setRq {s : St κ σ T O ε χ} {j : κ} {c : Chan (Except ε O)} (h : c.received.map Prod.snd ++ c.msgs = s.hist j) (k : κ) : St.hist { s with rq := Function.update s.rq j c } k = s.hist k := by
  unfold St.hist at h ⊢
  by_cases e : k = j
  · subst e; simpa using h
  · simp [Function.update_of_ne e]

theorem lead_eff {u v : System.St κ σ T O ε χ} {j : κ} {l : ℓ j} (h : System.step (ω := ω) cl cfg exec text u (.lead j l) = some v) : v.worker = u.worker ∧ v.cur = u.cur ∧ v.dels = u.dels := by
  simp only [System.step] at h
  split at h <;> simp only [Option.some.injEq, reduceCtorEq] at h
  subst h
  exact ⟨rfl, rfl, rfl⟩

theorem ord_step (hc : ∀ j, Local (cl j)) {w0 : Nat} {s s' : St κ σ T O ε χ} {l : Label κ ℓ O χ ω} (hi : Inv s) (si : System.Inv exec s.sys) (ho : Ord exec text w0 s) (hd : ∀ w, l = .deliver w → w = w0)
    (h : step cl listens cfg exec text s l = some s') : Ord exec text w0 s' := by
  cases l with
  | lead j l =>
    simp only [step, Option.map_eq_some_iff] at h
    obtain ⟨v, hv, rfl⟩ := h
    obtain ⟨h1, h2, h3⟩ := frame_lead hc hi.q hi.r hv s.tq.msgs fun j => (s.rq j).msgs
    obtain ⟨e1, e2, e3⟩ := lead_eff hv
    refine ord_flush (fun _ => rfl) ⟨by rw [e1]; exact ho.others, by rw [e1, e2, e3]; exact ho.last, fun j => ?_⟩
    rw [e3, h2, List.append_nil]
    exact ho.ans j
  | recv j l =>
    simp only [step] at h
    split at h <;> try simp only [reduceCtorEq] at h
    · rename_i c hp hm
      obtain ⟨-, m, hm', -⟩ := Chan.inv_pop (hi.rq j) hp
      rw [hm] at hm'; simp at hm'
    · rename_i c m ms hp hm
      split at h <;> try simp only [reduceCtorEq] at h
      rename_i v hv
      split at h <;> simp only [Option.some.injEq, reduceCtorEq] at h
      rename_i he
      subst h
      have he : v.results j = [] := by simpa using he
      obtain ⟨h1, h2, h3⟩ := frame_recv hc hi.q hi.r hv he s.tq.msgs (fun j => (s.rq j).msgs) ms hm
      obtain ⟨e1, e2, e3⟩ := lead_eff hv
      have hh : c.received.map Prod.snd ++ c.msgs = s.hist j := by
        unfold Chan.pop at hp
        rw [hm] at hp
        split at hp <;> simp only [Option.some.injEq, reduceCtorEq] at hp
        subst hp
        simp [St.hist, hm]
      refine ord_flush (s := s) (hist_setRq hh) ⟨by rw [e1]; exact ho.others, by rw [e1, e2, e3]; exact ho.last, fun j => ?_⟩
      rw [e3, h2, List.append_nil]
      exact ho.ans j
  | resPoll j =>
    simp only [step] at h
    split at h <;> simp only [Option.map_eq_some_iff, reduceCtorEq] at h
    obtain ⟨c, hp, rfl⟩ := h
    obtain ⟨e1, e2⟩ := poll_hist hp
    exact ⟨ho.others, ho.last, fun k => by rw [hist_setRq (by rw [e1, e2]; rfl)]; exact ho.ans k⟩
  | resRelease j =>
    simp only [step, Option.map_eq_some_iff] at h
    obtain ⟨c, hp, rfl⟩ := h
    obtain ⟨e1, e2⟩ := release_hist hp
    exact ⟨ho.others, ho.last, fun k => by rw [hist_setRq (by rw [e1, e2]; rfl)]; exact ho.ans k⟩
  | taskPoll w =>
    simp only [step] at h
    split at h <;> simp only [Option.map_eq_some_iff, reduceCtorEq] at h
    obtain ⟨c, hp, rfl⟩ := h
    exact ⟨ho.others, ho.last, ho.ans⟩
  | taskRelease =>
    simp only [step, Option.map_eq_some_iff] at h
    obtain ⟨c, hp, rfl⟩ := h
    exact ⟨ho.others, ho.last, ho.ans⟩
  | deliver w =>
    simp only [step] at h
    split at h <;> try simp only [reduceCtorEq] at h
    · simp only [Option.some.injEq] at h
      subst h
      exact ⟨ho.others, ho.last, ho.ans⟩
    · split at h <;> simp only [Option.some.injEq, reduceCtorEq] at h
      rename_i v hv
      subst h
      exact ord_flush (s := s) (fun _ => rfl) (ord_eff { s.sys with queue := [_] } ⟨rfl, rfl, rfl⟩ hi.r ho si (l := .deliver w 0) (by simp) (fun w' k e => by cases e; exact hd _ rfl) rfl hv)
  | finish w x =>
    simp only [step, Option.map_eq_some_iff] at h
    obtain ⟨v, hv, rfl⟩ := h
    exact ord_flush (fun _ => rfl) (ord_eff _ ⟨rfl, rfl, rfl⟩ hi.r ho si (by simp) (by simp) rfl hv)
  | work w l =>
    simp only [step] at h
    split at h <;> try simp only [reduceCtorEq] at h
    rename_i v hv
    have hf : Ord exec text w0 (s.flush v) := ord_flush (fun _ => rfl) (ord_eff _ ⟨rfl, rfl, rfl⟩ hi.r ho si (by simp) (by simp) rfl hv)
    split at h
    · simp only [Option.map_eq_some_iff] at h
      obtain ⟨c, hp, rfl⟩ := h
      exact ⟨hf.others, hf.last, hf.ans⟩
    · simp only [Option.some.injEq] at h
      subst h
      exact hf

theorem ord_run (hc : ∀ j, Local (cl j)) {w0 : Nat} {s : St κ σ T O ε χ} {ls : List (Label κ ℓ O χ ω)} (hd : ∀ w, .deliver w ∈ ls → w = w0) (h : run cl listens cfg exec text (init cl) ls = some s) : Ord exec text w0 s := by
  refine Lts.run_induction (P := fun ls s => (∀ w, .deliver w ∈ ls → w = w0) → Ord exec text w0 s) ?_ ?_ ls s h hd
  · intro _
    exact ⟨fun _ _ => rfl, fun hb => by simp [init, System.init, Worker.init, busy] at hb, fun j => by simp [answeredTasks, init, System.init, St.hist, Chan.fresh]⟩
  · intro ls l s s' hr ih hs hd
    obtain ⟨hi, hsys⟩ := inv_run hc hr
    have si : System.Inv exec s.view := System.inv_run hsys
    exact ord_step hc hi si (ih fun w hw => hd w (by simp [hw])) (fun w e => hd w (by simp [e])) hs


end

section
variable {A B : Type} [DecidableEq A] [DecidableEq B] {α β : A → Type} {γ : B → Type} {T O ε χ ω : Type} {op : (a : A) → ω → α a → Except ε (β a)}
  {comb : (b : B) → ω → γ b → γ b → Except ε (γ b)} {empty : (b : B) → γ b} {dupErr : ε} {encM : (a : A) → Nat × α a → Option T} {decM : (a : A) → O → Except ε (Nat × β a)}
  {encF : (b : B) → Fold.CTask (γ b) → Option T} {decF : (b : B) → O → Except ε (Seg (γ b))} {cfg : Worker.Cfg (A ⊕ B)} {exec : ω → T → Except (OpError χ) O} {text : OpError χ → ε}

/-- The values among the items. -/
def oks (outs : List (Except ε' γ')) : List γ' := outs.filterMap Except.toOption

/-- A step of map yields nothing, an error, or the result it receives. -/
theorem map_outs {α' β' ε' ω' : Type} {op' : ω' → α' → Except ε' β'} {m m' : MapS.St α' β' ε'} {l : MapS.Label α' ε' ω'} (h : MapS.step op' m l = some m') :
    oks m'.outs = oks m.outs ∨ ∃ k, l = .recv k ∧ ∃ r, m.results[k]? = some r ∧ m'.outs = m.outs ++ [r] := by
  cases l <;> simp only [MapS.step, MapS.sendFail] at h <;> (repeat' split at h) <;> simp only [Option.some.injEq, reduceCtorEq] at h <;> subst h <;>
    first
    | exact .inl rfl
    | (left; simp [oks, List.filterMap_append, Except.toOption]; done)
    | skip
  rename_i hk
  right
  simp only [Fold.takeAt] at hk
  split at hk <;> simp only [Option.some.injEq, reduceCtorEq, Prod.mk.injEq] at hk
  obtain ⟨rfl, rfl⟩ := hk
  exact ⟨_, rfl, _, by assumption, rfl⟩

theorem map_client_outs {α' β' ε' ω' T' O' : Type} {op' : ω' → α' → Except ε' β'} {enc : Nat × α' → Option T'} {dec : O' → Except ε' (Nat × β')} {m m' : MapS.St α' β' ε'} {l : MapS.Label α' ε' ω'}
    {rs rs' : List (Except ε' O')} {ts : List T'} (h : (mapClient op' enc dec).step m l rs = some (m', ts, rs')) : oks m'.outs = oks m.outs ∨ ∃ (k : Nat) (r : Except ε' O'), rs[k]? = some r ∧ m'.outs = m.outs ++ [r.bind dec] := by
  simp only [mapClient] at h
  split at h <;> try simp only [reduceCtorEq] at h
  split at h <;> simp only [Option.map_eq_some_iff, reduceCtorEq, Prod.mk.injEq] at h
  rename_i x hx
  obtain ⟨_, _, rfl, _, _⟩ := h
  rcases map_outs hx with h1 | ⟨k, _, r, hr, ho⟩
  · exact .inl h1
  · simp only [List.getElem?_map, Option.map_eq_some_iff] at hr
    obtain ⟨r', hr', rfl⟩ := hr
    exact .inr ⟨k, r', hr', ho⟩

/-- What the leader of a map has yielded and received. -/
def Got (decM : (a : A) → O → Except ε (Nat × β a)) (a : A) (s : St (A ⊕ B) (DirSt α β γ ε) T O ε χ) : Prop :=
  List.Sublist (oks (mapOf s.sys a).outs) (oks ((s.rq (.inl a)).received.map fun p => p.2.bind (decM a)))

omit [DecidableEq A] [DecidableEq B] in
theorem Got.mono {a : A} {s s' : St (A ⊕ B) (DirSt α β γ ε) T O ε χ} (h : Got decM a s) (h1 : s'.sys.lead (.inl a) = s.sys.lead (.inl a)) (h2 : (s'.rq (.inl a)).received = (s.rq (.inl a)).received) : Got decM a s' := by
  unfold Got mapOf at h ⊢
  rw [h1, h2]
  exact h

omit [DecidableEq A] [DecidableEq B] in
theorem flush_received (s : St (A ⊕ B) (DirSt α β γ ε) T O ε χ) (v : System.St (A ⊕ B) (DirSt α β γ ε) T O ε χ) (j : A ⊕ B) : ((s.flush v).rq j).received = (s.rq j).received := by
  simp [St.flush, Chan.foldl_push]

/-- Only a step of the leader changes the leader. -/
theorem lead_same {u v : System.St (A ⊕ B) (DirSt α β γ ε) T O ε χ} {l : System.Label (A ⊕ B) (DirLabel α γ ε ω) O χ ω} (hl : ∀ j k, l ≠ .lead j k) (si : System.Inv exec u)
    (h : System.step (dirs op comb empty dupErr encM decM encF decF) cfg exec text u l = some v) : v.lead = u.lead := by
  cases eff_of_step si h with
  | lead j l _ _ _ _ => exact absurd rfl (hl j l)
  | _ => rfl

theorem got_step {a : A} {s s' : St (A ⊕ B) (DirSt α β γ ε) T O ε χ} {l : Label (A ⊕ B) (DirLabel α γ ε ω) O χ ω} (hi : Inv s) (si : System.Inv exec s.sys) (hg : Got decM a s)
    (h : step (dirs op comb empty dupErr encM decM encF decF) dirListens cfg exec text s l = some s') : Got decM a s' := by
  cases l with
  | lead j l =>
    simp only [step, Option.map_eq_some_iff] at h
    obtain ⟨v, hv, rfl⟩ := h
    simp only [System.step, hi.r j] at hv
    split at hv <;> simp only [Option.some.injEq, reduceCtorEq] at hv
    rename_i x ts rs hs
    subst hv
    unfold Got
    rw [flush_received]
    by_cases e : j = .inl a
    · subst e
      have he : mapOf (s.flush { s.sys with lead := Function.update s.sys.lead (.inl a) x, results := Function.update s.sys.results (.inl a) rs, queue := s.sys.queue ++ ts.map fun t => ⟨.inl a, t⟩ }).sys a = x := Function.update_self ..
      rw [he]
      rcases map_client_outs hs with h1 | ⟨k, r, hk, _⟩
      · rw [h1]; exact hg
      · simp at hk
    · have he : mapOf (s.flush { s.sys with lead := Function.update s.sys.lead j x, results := Function.update s.sys.results j rs, queue := s.sys.queue ++ ts.map fun t => ⟨j, t⟩ }).sys a = mapOf s.sys a :=
        Function.update_of_ne (Ne.symm e) ..
      rw [he]; exact hg
  | recv j l =>
    simp only [step] at h
    split at h <;> try simp only [reduceCtorEq] at h
    · rename_i c hp hm
      obtain ⟨-, m, hm', -⟩ := Chan.inv_pop (hi.rq j) hp
      rw [hm] at hm'; simp at hm'
    · rename_i c m ms hp hm
      split at h <;> try simp only [reduceCtorEq] at h
      rename_i v hv
      split at h <;> simp only [Option.some.injEq, reduceCtorEq] at h
      subst h
      have hc : c.received = (s.rq j).received ++ [(0, m)] := by
        unfold Chan.pop at hp
        rw [hm] at hp
        split at hp <;> simp only [Option.some.injEq, reduceCtorEq] at hp
        subst hp
        rfl
      simp only [System.step] at hv
      split at hv <;> simp only [Option.some.injEq, reduceCtorEq] at hv
      rename_i x ts rs hs
      subst hv
      unfold Got
      rw [flush_received]
      by_cases e : j = .inl a
      · subst e
        simp only [Function.update_self] at hs ⊢
        rw [hc]
        show List.Sublist (oks (MapS.St.outs (Function.update s.sys.lead (.inl a) x (.inl a) : MapS.St (α a) (β a) ε))) _
        rw [show (Function.update s.sys.lead (.inl a) x (.inl a) : DirSt α β γ ε (.inl a)) = x from Function.update_self ..]
        simp only [List.map_append, oks, List.filterMap_append]
        rcases map_client_outs hs with h1 | ⟨k, r, hk, ho⟩
        · simp only [oks] at h1
          rw [h1]
          exact List.Sublist.trans hg (List.sublist_append_left _ _)
        · obtain rfl : r = m := by
            cases k with
            | zero => simpa using hk.symm
            | succ k => simp at hk
          rw [ho, List.filterMap_append]
          exact List.Sublist.append hg (List.Sublist.refl _)
      · show List.Sublist (oks (MapS.St.outs (Function.update s.sys.lead j x (.inl a) : MapS.St (α a) (β a) ε))) _
        rw [show (Function.update s.sys.lead j x (.inl a) : DirSt α β γ ε (.inl a)) = s.sys.lead (.inl a) from Function.update_of_ne (Ne.symm e) ..]
        simp only [Function.update_of_ne (Ne.symm e)]
        exact hg
  | resPoll j =>
    simp only [step] at h
    split at h <;> simp only [Option.map_eq_some_iff, reduceCtorEq] at h
    obtain ⟨c, hp, rfl⟩ := h
    refine hg.mono rfl ?_
    by_cases e : j = .inl a
    · subst e; simp [(poll_hist hp).1]
    · simp [Function.update_of_ne (Ne.symm e)]
  | resRelease j =>
    simp only [step, Option.map_eq_some_iff] at h
    obtain ⟨c, hp, rfl⟩ := h
    refine hg.mono rfl ?_
    by_cases e : j = .inl a
    · subst e; simp [(release_hist hp).1]
    · simp [Function.update_of_ne (Ne.symm e)]
  | taskPoll w =>
    simp only [step] at h
    split at h <;> simp only [Option.map_eq_some_iff, reduceCtorEq] at h
    obtain ⟨c, hp, rfl⟩ := h
    exact hg
  | taskRelease =>
    simp only [step, Option.map_eq_some_iff] at h
    obtain ⟨c, hp, rfl⟩ := h
    exact hg
  | deliver w =>
    simp only [step] at h
    split at h <;> try simp only [reduceCtorEq] at h
    · simp only [Option.some.injEq] at h
      subst h
      exact hg
    · split at h <;> simp only [Option.some.injEq, reduceCtorEq] at h
      rename_i v hv
      subst h
      exact hg.mono (congrFun (lead_same (u := { s.sys with queue := [_] }) (l := .deliver w 0) (by simp) si hv) _) (flush_received _ _ _)
  | finish w x =>
    simp only [step, Option.map_eq_some_iff] at h
    obtain ⟨v, hv, rfl⟩ := h
    exact hg.mono (congrFun (lead_same (by simp) si hv) _) (flush_received _ _ _)
  | work w l =>
    simp only [step] at h
    split at h <;> try simp only [reduceCtorEq] at h
    rename_i v hv
    split at h
    · simp only [Option.map_eq_some_iff] at h
      obtain ⟨c, hp, rfl⟩ := h
      exact hg.mono (congrFun (lead_same (by simp) si hv) _) (flush_received _ _ _)
    · simp only [Option.some.injEq] at h
      subst h
      exact hg.mono (congrFun (lead_same (by simp) si hv) _) (flush_received _ _ _)

theorem got_run (hc : ∀ j, Local (dirs op comb empty dupErr encM decM encF decF j)) {a : A} {s : St (A ⊕ B) (DirSt α β γ ε) T O ε χ} {ls : List (Label (A ⊕ B) (DirLabel α γ ε ω) O χ ω)}
    (h : memRun op comb empty dupErr encM decM encF decF cfg exec text ls = some s) : Got decM a s := by
  refine Lts.run_induction (P := fun _ s => Got decM a s) ?_ ?_ ls s h
  · exact List.nil_sublist _
  · intro ls l s s' hr ih hs
    obtain ⟨hi, hsys⟩ := inv_run hc hr
    have si : System.Inv exec s.view := System.inv_run hsys
    exact got_step hi si ih hs

theorem forall₂_sublist {γ' δ' : Type} {R : γ' → δ' → Prop} {ps : List γ'} {TS ts : List δ'} (h : List.Forall₂ R ps TS) (hs : List.Sublist ts TS) : ∃ qs, List.Sublist qs ps ∧ List.Forall₂ R qs ts := by
  induction hs generalizing ps with
  | slnil => exact ⟨[], List.nil_sublist _, .nil⟩
  | cons t _ ih =>
    cases h with
    | cons h1 h2 =>
      obtain ⟨qs, h3, h4⟩ := ih h2
      exact ⟨qs, h3.cons _, h4⟩
  | cons_cons t _ ih =>
    cases h with
    | cons h1 h2 =>
      obtain ⟨qs, h3, h4⟩ := ih h2
      exact ⟨_, h3.cons_cons _, .cons h1 h4⟩

omit [DecidableEq A] in
/-- The outputs of answered tasks, decoded, are images of the inputs in the same order. -/
theorem images {a : A} (hf : MapFaithful exec text (op a) (encM a) (decM a)) {qs : List (Nat × α a)} {ts : List T} {rs : List (Except ε O)} (h1 : List.Forall₂ (fun p t => encM a p = some t) qs ts)
    (h2 : List.Forall₂ (fun t r => ∃ x, r = outcome exec text x t) ts rs) :
    ∃ qs', List.Sublist qs' qs ∧ List.Forall₂ (fun p o => o.1 = p.1 ∧ ∃ x, op a x p.2 = .ok o.2) qs' (oks (rs.map fun r => r.bind (decM a))) := by
  induction h2 generalizing qs with
  | nil => exact ⟨[], List.nil_sublist _, .nil⟩
  | @cons t r ts rs hx _ ih =>
    cases h1 with
    | @cons p _ qs _ hp h1 =>
      obtain ⟨qs', h3, h4⟩ := ih h1
      obtain ⟨x, rfl⟩ := hx
      have := hf x p.1 p.2 t hp
      simp only [oks, List.map_cons, List.filterMap_cons] at h4 ⊢
      rw [this]
      cases ho : op a x p.2 with
      | error e => exact ⟨qs', h3.cons _, by simpa [Except.map, Except.toOption] using h4⟩
      | ok b => exact ⟨p :: qs', h3.cons_cons _, .cons ⟨rfl, x, ho⟩ h4⟩

end
end SystemMem
end Paladin
