import Verif.Model.Coord
import Verif.Proofs.MapS
/-! # Invariants of the coordinated channel -/
namespace Paladin
namespace Coord

theorem run_append (s : St) (a b : List Label) : run s (a ++ b) = (run s a).bind fun s' => run s' b := by
  induction a generalizing s with
  | nil => simp [run]
  | cons l a ih => simp only [List.cons_append, run]; cases step s l <;> simp [ih]

theorem run_split {s s' : St} {a b : List Label} (h : run s (a ++ b) = some s') : ∃ s1, run s a = some s1 ∧ run s1 b = some s' := by
  rw [run_append] at h
  cases h1 : run s a with
  | none => simp [h1] at h
  | some s1 => simp [h1] at h; exact ⟨s1, rfl, h⟩

theorem run_cons {s s' : St} {l : Label} {b : List Label} (h : run s (l :: b) = some s') : ∃ s1, step s l = some s1 ∧ run s1 b = some s' := by
  simp only [run] at h
  cases h1 : step s l with
  | none => simp [h1] at h
  | some s1 => simp [h1] at h; exact ⟨s1, rfl, h⟩

/-- Induction over a run from the front, for state invariants. -/
theorem run_inv {P : St → Prop} {ls : List Label} {s s' : St} (h0 : P s) (hstep : ∀ s l s', l ∈ ls → P s → step s l = some s' → P s')
    (h : run s ls = some s') : P s' := by
  induction ls generalizing s with
  | nil => simp [run] at h; subst h; exact h0
  | cons l ls ih =>
    obtain ⟨s1, h1, h2⟩ := run_cons h
    exact ih (hstep s l s1 (by simp) h0 h1) (fun s l s' hl => hstep s l s' (by simp [hl])) h2

/-- Induction over a run from the back, for facts about the trace. -/
theorem run_induction {P : List Label → St → Prop} {s0 : St} (h0 : P [] s0)
    (hstep : ∀ ls l s s', run s0 ls = some s → P ls s → step s l = some s' → P (ls ++ [l]) s') :
    ∀ ls s, run s0 ls = some s → P ls s := by
  intro ls
  obtain ⟨n, hn⟩ : ∃ n, ls.length = n := ⟨_, rfl⟩
  induction n generalizing ls with
  | zero =>
    intro s h
    have : ls = [] := List.eq_nil_of_length_eq_zero hn
    subst this; simp [run] at h; subst h; exact h0
  | succ n ih =>
    intro s h
    have hne : ls ≠ [] := by rintro rfl; simp at hn
    obtain ⟨ls', l, rfl⟩ : ∃ ls' l, ls = ls' ++ [l] := ⟨_, _, (List.dropLast_append_getLast hne).symm⟩
    obtain ⟨s1, h1, h2⟩ := run_split h
    obtain ⟨s2, h3, h4⟩ := run_cons h2
    simp [run] at h4; subst h4
    exact hstep ls' l s1 s2 h1 (ih ls' (by simpa using hn) s1 h1) h3

theorem nodup_mid {a b : List Nat} {m : Nat} (h : (a ++ m :: b).Nodup) : (a ++ b).Nodup := by
  exact List.Nodup.sublist (List.Sublist.append (List.Sublist.refl a) (List.sublist_cons_self m b)) h

/-- Case analysis of `step`. -/
inductive StepR (s : St) : Label → St → Prop
  | rejected : s.closed = true → StepR s .pubCheck { s with rejected := s.rejected + 1 }
  | pubCheck : s.closed = false → StepR s .pubCheck { s with checked := s.checked + 1 }
  | pubCount : 0 < s.checked → StepR s .pubCount { s with
      checked := s.checked - 1, pending := s.pending + 1, status := s.status ++ [.counted], counted := s.counted ++ [s.status.length] }
  | pubSend (k m a b) : s.counted = a ++ m :: b → StepR s (.pubSend k) { s with
      counted := a ++ b, sending := s.sending ++ [m], status := s.status.set m .sent, handed := s.handed ++ [m] }
  | pubOk (k m a b) : s.sending = a ++ m :: b → StepR s (.pubOk k) { s with sending := a ++ b, published := s.published ++ [m] }
  | pubFail (k m a b) : s.counted = a ++ m :: b → StepR s (.pubFail k) { s with counted := a ++ b, status := s.status.set m .dead }
  | pubFailSent (k m a b) : s.sending = a ++ m :: b → StepR s (.pubFailSent k) { s with sending := a ++ b }
  | close : StepR s .close { s with closed := true }
  | respond (m) : s.status[m]? = some .sent → s.innerEnded = false → StepR s (.respond m) { s with
      status := s.status.set m .avail, queue := s.queue ++ [m], woken := s.woken || s.innerWaker, innerWaker := false }
  | loseSent (m) : s.status[m]? = some .sent → StepR s (.lose m) { s with status := s.status.set m .lost }
  | loseAvail (m) : s.status[m]? = some .avail → StepR s (.lose m) { s with
      status := s.status.set m .lost, queue := s.queue.filter (· ≠ m) }
  | innerEnd : StepR s .innerEnd { s with innerEnded := true, woken := s.woken || s.innerWaker, innerWaker := false }
  | pollItem (m q) : s.recv = .idle → s.queue = m :: q → StepR s .pollInner { s with
      queue := q, status := s.status.set m .yielded, yields := s.yields ++ [m], last := some (.item m), woken := false, innerWaker := false }
  | pollEnd : s.recv = .idle → s.queue = [] → s.innerEnded = true → StepR s .pollInner { s with recv := .sawEnd, woken := false }
  | pollPending : s.recv = .idle → s.queue = [] → s.innerEnded = false → StepR s .pollInner { s with
      recv := .sawPending, woken := false, innerWaker := true }
  | loadNum : s.recv = .sawPending → StepR s .loadNum { s with recv := .loaded s.pending }
  | loadNumEnd : s.recv = .sawEnd → StepR s .loadNum { s with recv := .idle, last := some (if s.pending = 0 then .none else .pending) }
  | loadClosed (n) : s.recv = .loaded n → StepR s .loadClosed { s with
      recv := .idle, last := some (if s.closed ∧ n = 0 then .none else .pending) }
  | ackSwap (m) : s.status[m]? = some .yielded → StepR s (.ackSwap m) { s with status := s.status.set m .acking }
  | ackAgain (m) : s.status[m]? = some .acking ∨ s.status[m]? = some .acked → StepR s (.ackSwap m) s
  | ackSub (m) : s.status[m]? = some .acking → StepR s (.ackSub m) { s with
      status := s.status.set m .acked, pending := s.pending - 1, woken := s.woken || decide (s.pending = 1) }

theorem stepR_of_step {s s' : St} {l : Label} (h : step s l = some s') : StepR s l s' := by
  cases l with
  | pubCheck =>
    simp [step] at h
    split at h <;> subst h
    · exact .rejected ‹_›
    · exact .pubCheck (by simpa using ‹¬ s.closed = true›)
  | pubCount => simp [step] at h; obtain ⟨h1, rfl⟩ := h; exact .pubCount h1
  | pubSend k =>
    simp only [step] at h
    split at h
    · rename_i m rest hk; simp at h; subst h
      obtain ⟨a, b, e, rfl⟩ := takeAt_split hk
      exact .pubSend k m a b e
    · simp at h
  | pubOk k =>
    simp only [step] at h
    split at h
    · rename_i m rest hk; simp at h; subst h
      obtain ⟨a, b, e, rfl⟩ := takeAt_split hk
      exact .pubOk k m a b e
    · simp at h
  | pubFail k =>
    simp only [step] at h
    split at h
    · rename_i m rest hk; simp at h; subst h
      obtain ⟨a, b, e, rfl⟩ := takeAt_split hk
      exact .pubFail k m a b e
    · simp at h
  | pubFailSent k =>
    simp only [step] at h
    split at h
    · rename_i m rest hk; simp at h; subst h
      obtain ⟨a, b, e, rfl⟩ := takeAt_split hk
      exact .pubFailSent k m a b e
    · simp at h
  | close => simp [step] at h; subst h; exact .close
  | respond m => simp only [step] at h; split at h <;> simp at h; subst h; rename_i hc; exact .respond m hc.1 hc.2
  | lose m =>
    simp only [step] at h
    split at h
    · simp at h; subst h; exact .loseSent m ‹_›
    · split at h
      · simp at h; subst h; rename_i hc; simpa using StepR.loseAvail m hc
      · simp at h
  | innerEnd => simp [step] at h; subst h; exact .innerEnd
  | pollInner =>
    simp only [step] at h
    split at h
    · simp at h
    · rename_i hr; simp at hr
      split at h
      · rename_i m q hq; simp at h; subst h; exact .pollItem m q hr hq
      · rename_i hq
        split at h <;> simp at h <;> subst h
        · exact .pollEnd hr hq ‹_›
        · exact .pollPending hr hq (by simpa using ‹¬ s.innerEnded = true›)
  | loadNum =>
    simp only [step] at h
    split at h <;> simp at h <;> subst h
    · exact .loadNum ‹_›
    · exact .loadNumEnd ‹_›
  | loadClosed =>
    simp only [step] at h
    split at h <;> simp at h
    subst h
    rename_i n hn
    simpa using StepR.loadClosed n hn
  | ackSwap m =>
    simp only [step] at h
    split at h <;> simp at h <;> subst h
    · exact .ackSwap m ‹_›
    · exact .ackAgain m (.inl ‹_›)
    · exact .ackAgain m (.inr ‹_›)
  | ackSub m => simp only [step] at h; split at h <;> simp at h; subst h; exact .ackSub m ‹_›

/-- Messages not handled yet. -/
def open' (l : List MSt) : Nat := l.countP (fun x => decide (x ≠ .acked))

theorem open_set {l : List MSt} {m : Nat} {x y : MSt} (h : l[m]? = some x) :
    (open' (l.set m y) : Int) = open' l - (if x = .acked then 0 else 1) + (if y = .acked then 0 else 1) := by
  have hlt : m < l.length := by
    by_contra hc; rw [List.getElem?_eq_none (by omega)] at h; simp at h
  have hx : l[m] = x := by rw [List.getElem?_eq_getElem hlt] at h; simpa using h
  unfold open'
  rw [List.countP_set hlt, hx]
  have hpos : x ≠ .acked → 0 < l.countP (fun x => decide (x ≠ .acked)) := by
    intro hne
    exact List.countP_pos_iff.2 ⟨x, hx ▸ List.getElem_mem hlt, by simpa using hne⟩
  generalize l.countP (fun x => decide (x ≠ .acked)) = n at hpos ⊢
  by_cases h1 : x = .acked
  · by_cases h2 : y = .acked <;> simp [h1, h2]
  · have := hpos h1
    by_cases h2 : y = .acked <;> simp [h1, h2] <;> omega

theorem st_set {l : List MSt} {m j : Nat} {x y : MSt} (h : l[m]? = some x) : (l.set m y)[j]? = if j = m then some y else l[j]? := by
  have hlt : m < l.length := by
    by_contra hc; rw [List.getElem?_eq_none (by omega)] at h; simp at h
  rw [List.getElem?_set]
  by_cases hj : m = j
  · subst hj; simp [hlt]
  · simp [hj, Ne.symm hj]

theorem st_append {l : List MSt} {j : Nat} {y : MSt} : (l ++ [y])[j]? = if j = l.length then some y else l[j]? := by
  by_cases hj : j < l.length
  · rw [List.getElem?_append_left hj, if_neg (by omega)]
  · by_cases hj2 : j = l.length
    · subst hj2; simp
    · rw [if_neg hj2, List.getElem?_eq_none (by simp; omega), List.getElem?_eq_none (by omega)]

structure Inv (s : St) : Prop where
  cnt : s.pending = open' s.status
  counted : ∀ m, m ∈ s.counted ↔ s.status[m]? = some .counted
  countedNd : s.counted.Nodup
  queue : ∀ m, m ∈ s.queue ↔ s.status[m]? = some .avail
  queueNd : s.queue.Nodup
  yields : ∀ m, m ∈ s.yields ↔ (s.status[m]? = some .yielded ∨ s.status[m]? = some .acking ∨ s.status[m]? = some .acked)
  yieldsNd : s.yields.Nodup
  pub : ∀ m ∈ s.sending ++ s.published, ∃ x, s.status[m]? = some x ∧ x ≠ .counted ∧ x ≠ .dead

theorem inv_init : Inv init := by constructor <;> simp [init, open']

theorem pub_set {s : St} {m : Nat} {x y : MSt} (h : s.status[m]? = some x) (hy : y ≠ .counted ∧ y ≠ .dead)
    (hp : ∀ m ∈ s.sending ++ s.published, ∃ x, s.status[m]? = some x ∧ x ≠ .counted ∧ x ≠ .dead) :
    ∀ m' ∈ s.sending ++ s.published, ∃ x, (s.status.set m y)[m']? = some x ∧ x ≠ .counted ∧ x ≠ .dead := by
  intro m' hm'
  rw [st_set h]
  split
  · exact ⟨y, rfl, hy⟩
  · exact hp m' hm'

theorem inv_step {s s' : St} {l : Label} (hi : Inv s) (h : step s l = some s') : Inv s' := by
  have hst := stepR_of_step h
  clear h
  obtain ⟨h1, h2, h3, h4, h5, h6, h7, h8⟩ := hi
  cases hst with
  | pubCount hc =>
    constructor
    · simp [open', List.countP_append] at h1 ⊢; omega
    · intro m; simp only [st_append, List.mem_append, List.mem_singleton, h2]
      by_cases hm : m = s.status.length
      · simp [hm]
      · simp [hm]
    · rw [List.nodup_append]
      refine ⟨h3, by simp, ?_⟩
      intro a ha b hb; simp at hb; subst hb
      rintro rfl
      rw [h2] at ha; simp at ha
    · intro m; rw [h4, st_append]
      by_cases hm : m = s.status.length
      · subst hm; simp
      · simp [hm]
    · exact h5
    · intro m; rw [h6, st_append]
      by_cases hm : m = s.status.length
      · subst hm; simp
      · simp [hm]
    · exact h7
    · intro m hm
      obtain ⟨x, hx, hx'⟩ := h8 m hm
      refine ⟨x, ?_, hx'⟩
      rw [st_append, if_neg, hx]
      rintro rfl; simp at hx
  | pubSend k m a b hk =>
    have hm : s.status[m]? = some .counted := (h2 m).1 (by rw [hk]; simp)
    have hnd := h3
    rw [hk] at hnd
    constructor
    · rw [open_set hm]; simp; exact h1
    · intro j; dsimp only
      rw [st_set hm]
      have hj := h2 j
      rw [hk] at hj
      by_cases hjm : j = m
      · subst hjm
        simp [List.nodup_append] at hnd ⊢
        exact ⟨fun hh => (hnd.2.2 j hh).1 rfl, hnd.2.1.1⟩
      · simp [hjm] at hj ⊢; exact hj
    · exact nodup_mid hnd
    · intro j; rw [h4, st_set hm]
      by_cases hjm : j = m
      · subst hjm; simp [hm]
      · simp [hjm]
    · exact h5
    · intro j; rw [h6, st_set hm]
      by_cases hjm : j = m
      · subst hjm; simp [hm]
      · simp [hjm]
    · exact h7
    · intro j hj
      simp at hj
      have := pub_set (y := .sent) hm (by simp) h8 j
      by_cases hjm : j = m
      · subst hjm; exact ⟨.sent, by rw [st_set hm]; simp, by simp⟩
      · apply this; simp; tauto
  | pubOk k m a b hk =>
    refine ⟨h1, h2, h3, h4, h5, h6, h7, fun j hj => h8 j ?_⟩
    rw [hk]; simp at hj ⊢; tauto
  | pubFail k m a b hk =>
    have hm : s.status[m]? = some .counted := (h2 m).1 (by rw [hk]; simp)
    have hnd := h3
    rw [hk] at hnd
    constructor
    · rw [open_set hm]; simp; exact h1
    · intro j; dsimp only
      rw [st_set hm]
      have hj := h2 j
      rw [hk] at hj
      by_cases hjm : j = m
      · subst hjm
        simp [List.nodup_append] at hnd ⊢
        exact ⟨fun hh => (hnd.2.2 j hh).1 rfl, hnd.2.1.1⟩
      · simp [hjm] at hj ⊢; exact hj
    · exact nodup_mid hnd
    · intro j; rw [h4, st_set hm]
      by_cases hjm : j = m
      · subst hjm; simp [hm]
      · simp [hjm]
    · exact h5
    · intro j; rw [h6, st_set hm]
      by_cases hjm : j = m
      · subst hjm; simp [hm]
      · simp [hjm]
    · exact h7
    · intro j hj
      obtain ⟨x, hx, hx1, hx2⟩ := h8 j hj
      refine ⟨x, ?_, hx1, hx2⟩
      rw [st_set hm, if_neg]; exact hx
      rintro rfl; rw [hm] at hx; simp at hx; exact hx1 hx.symm
  | pubFailSent k m a b hk =>
    refine ⟨h1, h2, h3, h4, h5, h6, h7, fun j hj => h8 j ?_⟩
    rw [hk]; simp at hj ⊢; tauto
  | respond m hm hi =>
    constructor
    · rw [open_set hm]; simp; exact h1
    · intro j; rw [h2, st_set hm]
      by_cases hjm : j = m
      · subst hjm; simp [hm]
      · simp [hjm]
    · exact h3
    · intro j; dsimp only; rw [st_set hm]
      have := h4 j
      by_cases hjm : j = m
      · subst hjm; simp
      · simp [hjm]; simpa using this
    · dsimp only
      rw [List.nodup_append]
      refine ⟨h5, by simp, ?_⟩
      intro a ha b hb; simp at hb; subst hb; rintro rfl
      rw [h4, hm] at ha; simp at ha
    · intro j; rw [h6, st_set hm]
      by_cases hjm : j = m
      · subst hjm; simp [hm]
      · simp [hjm]
    · exact h7
    · exact pub_set hm (by simp) h8
  | loseSent m hm =>
    constructor
    · rw [open_set hm]; simp; exact h1
    · intro j; rw [h2, st_set hm]
      by_cases hjm : j = m
      · subst hjm; simp [hm]
      · simp [hjm]
    · exact h3
    · intro j; rw [h4, st_set hm]
      by_cases hjm : j = m
      · subst hjm; simp [hm]
      · simp [hjm]
    · exact h5
    · intro j; rw [h6, st_set hm]
      by_cases hjm : j = m
      · subst hjm; simp [hm]
      · simp [hjm]
    · exact h7
    · exact pub_set hm (by simp) h8
  | loseAvail m hm =>
    constructor
    · rw [open_set hm]; simp; exact h1
    · intro j; rw [h2, st_set hm]
      by_cases hjm : j = m
      · subst hjm; simp [hm]
      · simp [hjm]
    · exact h3
    · intro j; dsimp only; rw [st_set hm, List.mem_filter, h4]
      by_cases hjm : j = m
      · subst hjm; simp
      · simp [hjm]
    · exact h5.filter _
    · intro j; rw [h6, st_set hm]
      by_cases hjm : j = m
      · subst hjm; simp [hm]
      · simp [hjm]
    · exact h7
    · exact pub_set hm (by simp) h8
  | pollItem m q hr hq =>
    have hm : s.status[m]? = some .avail := (h4 m).1 (by rw [hq]; simp)
    have hnd := h5
    rw [hq] at hnd; simp at hnd
    constructor
    · rw [open_set hm]; simp; exact h1
    · intro j; rw [h2, st_set hm]
      by_cases hjm : j = m
      · subst hjm; simp [hm]
      · simp [hjm]
    · exact h3
    · intro j; dsimp only; rw [st_set hm]
      have := h4 j
      rw [hq] at this
      by_cases hjm : j = m
      · subst hjm; simpa using hnd.1
      · simp [hjm] at this ⊢; exact this
    · exact hnd.2
    · intro j; dsimp only; rw [st_set hm]
      have := h6 j
      by_cases hjm : j = m
      · subst hjm; simp
      · simp [hjm, this]
    · dsimp only
      rw [List.nodup_append]
      refine ⟨h7, by simp, ?_⟩
      intro a ha b hb; simp at hb; subst hb; rintro rfl
      rw [h6, hm] at ha; simp at ha
    · exact pub_set hm (by simp) h8
  | ackSwap m hm =>
    constructor
    · rw [open_set hm]; simp; exact h1
    · intro j; rw [h2, st_set hm]
      by_cases hjm : j = m
      · subst hjm; simp [hm]
      · simp [hjm]
    · exact h3
    · intro j; rw [h4, st_set hm]
      by_cases hjm : j = m
      · subst hjm; simp [hm]
      · simp [hjm]
    · exact h5
    · intro j; rw [h6, st_set hm]
      by_cases hjm : j = m
      · subst hjm; simp [hm]
      · simp [hjm]
    · exact h7
    · exact pub_set hm (by simp) h8
  | ackSub m hm =>
    constructor
    · rw [open_set hm]; simp; omega
    · intro j; rw [h2, st_set hm]
      by_cases hjm : j = m
      · subst hjm; simp [hm]
      · simp [hjm]
    · exact h3
    · intro j; rw [h4, st_set hm]
      by_cases hjm : j = m
      · subst hjm; simp [hm]
      · simp [hjm]
    · exact h5
    · intro j; rw [h6, st_set hm]
      by_cases hjm : j = m
      · subst hjm; simp [hm]
      · simp [hjm]
    · exact h7
    · exact pub_set hm (by simp) h8
  | _ => exact ⟨h1, h2, h3, h4, h5, h6, h7, h8⟩

theorem inv_run {ls : List Label} {s : St} (h : run init ls = some s) : Inv s :=
  run_inv inv_init (fun _ _ _ _ hi hs => inv_step hi hs) h

/-- The counter is zero exactly when every message has been acknowledged. -/
theorem Inv.zero {s : St} (h : Inv s) : s.pending = 0 ↔ ∀ m, m < s.status.length → s.status[m]? = some .acked := by
  rw [h.cnt]
  have : open' s.status = 0 ↔ ∀ x ∈ s.status, x = .acked := by
    unfold open'; rw [List.countP_eq_zero]; simp
  constructor
  · intro h0 m hm
    rw [List.getElem?_eq_getElem hm, this.1 (by omega) _ (List.getElem_mem hm)]
  · intro hh
    have := this.2 fun x hx => by
      obtain ⟨m, hm, rfl⟩ := List.getElem_of_mem hx
      have := hh m hm
      rw [List.getElem?_eq_getElem hm] at this; simpa using this
    omega


/-! ## Facts about traces -/

theorem count_pubCount {ls : List Label} {s : St} (h : run init ls = some s) : s.status.length = ls.count .pubCount := by
  refine run_induction (s0 := init) (P := fun ls s => s.status.length = ls.count .pubCount) rfl ?_ ls s h
  intro ls l s s' _ ih h
  cases stepR_of_step h <;> simp [List.count_append] <;> exact ih

theorem closed_trace {ls : List Label} {s : St} (h : run init ls = some s) : s.closed = true ↔ .close ∈ ls := by
  refine run_induction (s0 := init) (P := fun ls s => s.closed = true ↔ .close ∈ ls) (by simp [init]) ?_ ls s h
  intro ls l s s' _ ih h
  cases stepR_of_step h <;> simp [ih]

theorem acked_trace {ls : List Label} {s : St} (h : run init ls = some s) (m : Nat) :
    ls.count (.ackSub m) = (if s.status[m]? = some .acked then 1 else 0) ∧
    (.ackSwap m ∈ ls ↔ s.status[m]? = some .acking ∨ s.status[m]? = some .acked) := by
  refine run_induction (s0 := init) (P := fun ls s => ls.count (.ackSub m) = (if s.status[m]? = some .acked then 1 else 0) ∧
    (.ackSwap m ∈ ls ↔ s.status[m]? = some .acking ∨ s.status[m]? = some .acked)) (by simp [init]) ?_ ls s h
  clear h ls s
  intro ls l s s' hrun ⟨h1, h2⟩ h
  have hi := inv_run hrun
  have hset : ∀ {j : Nat} {x y : MSt}, s.status[j]? = some x → x ≠ .acked → x ≠ .acking → y ≠ .acked → y ≠ .acking →
      ((s.status.set j y)[m]? = some .acked ↔ s.status[m]? = some .acked) ∧ ((s.status.set j y)[m]? = some .acking ↔ s.status[m]? = some .acking) := by
    intro j x y hj hx1 hx2 hy1 hy2
    rw [st_set hj]
    by_cases hm : m = j
    · subst hm; simp [hj, hx1, hx2, hy1, hy2]
    · simp [hm]
  cases stepR_of_step h with
  | pubCount hc =>
    have : ∀ x, x ≠ .counted → ((s.status ++ [.counted])[m]? = some x ↔ s.status[m]? = some x) := by
      intro x hx
      rw [st_append]
      by_cases hm : m = s.status.length
      · subst hm; simp; exact fun h => hx h.symm
      · simp [hm]
    simp only [this _ (show MSt.acked ≠ .counted by simp), this _ (show MSt.acking ≠ .counted by simp)]
    exact ⟨by simpa [List.count_append] using h1, by simpa using h2⟩
  | pubSend k j a b hk =>
    have hj : s.status[j]? = some .counted := (hi.counted j).1 (by rw [hk]; simp)
    have := hset (y := .sent) hj (by simp) (by simp) (by simp) (by simp)
    simp only [this.1, this.2]
    exact ⟨by simpa [List.count_append] using h1, by simpa using h2⟩
  | pubFail k j a b hk =>
    have hj : s.status[j]? = some .counted := (hi.counted j).1 (by rw [hk]; simp)
    have := hset (y := .dead) hj (by simp) (by simp) (by simp) (by simp)
    simp only [this.1, this.2]
    exact ⟨by simpa [List.count_append] using h1, by simpa using h2⟩
  | respond j hj _ =>
    have := hset (y := .avail) hj (by simp) (by simp) (by simp) (by simp)
    simp only [this.1, this.2]
    exact ⟨by simpa [List.count_append] using h1, by simpa using h2⟩
  | loseSent j hj =>
    have := hset (y := .lost) hj (by simp) (by simp) (by simp) (by simp)
    simp only [this.1, this.2]
    exact ⟨by simpa [List.count_append] using h1, by simpa using h2⟩
  | loseAvail j hj =>
    have := hset (y := .lost) hj (by simp) (by simp) (by simp) (by simp)
    simp only [this.1, this.2]
    exact ⟨by simpa [List.count_append] using h1, by simpa using h2⟩
  | pollItem j q _ hq =>
    have hj : s.status[j]? = some .avail := (hi.queue j).1 (by rw [hq]; simp)
    have := hset (y := .yielded) hj (by simp) (by simp) (by simp) (by simp)
    simp only [this.1, this.2]
    exact ⟨by simpa [List.count_append] using h1, by simpa using h2⟩
  | ackSwap j hj =>
    dsimp only; rw [st_set hj]
    by_cases hm : m = j
    · subst hm; simp [hj] at h1 ⊢; simp [List.count_append, h1]
    · simp [hm, List.count_append] at h1 h2 ⊢
      exact ⟨h1, h2⟩
  | ackAgain j hj =>
    by_cases hm : m = j
    · subst hm; simp [hj, List.count_append] at h1 ⊢; exact h1
    · simp [hm, List.count_append] at h1 h2 ⊢
      exact ⟨h1, h2⟩
  | ackSub j hj =>
    dsimp only; rw [st_set hj]
    by_cases hm : m = j
    · subst hm; simp [hj] at h1 h2 ⊢; simp [List.count_append, h1, h2]
    · have : Label.ackSub j ≠ Label.ackSub m := by simp; exact fun h => hm h.symm
      simp [hm, List.count_append, List.count_singleton, this] at h1 h2 ⊢
      exact ⟨h1, h2⟩
  | _ => exact ⟨by simpa [List.count_append] using h1, by simpa using h2⟩

theorem loaded_stay {ls : List Label} {s s' : St} {n : Int} (h : run s ls = some s') (hr : s.recv = .loaded n) (hn : .loadClosed ∉ ls) : s'.recv = .loaded n := by
  refine run_inv (P := fun s => s.recv = .loaded n) hr ?_ h
  intro s l s' hl hr h
  cases stepR_of_step h <;> simp_all

theorem yields_mono {ls : List Label} {s s' : St} {m : Nat} (h : run s ls = some s') (hm : m ∈ s.yields) : m ∈ s'.yields := by
  refine run_inv (P := fun s => m ∈ s.yields) hm ?_ h
  intro s l s' hl hr h
  cases stepR_of_step h <;> simp_all

theorem status_lt {l : List MSt} {m : Nat} {x : MSt} (h : l[m]? = some x) : m < l.length := by
  by_contra hc; rw [List.getElem?_eq_none (by omega)] at h; simp at h

theorem countP_range {α : Type} (p : α → Bool) (l : List α) : l.countP p = (List.range l.length).countP fun m => l[m]?.any p := by
  induction l with
  | nil => rfl
  | cons a l ih =>
    simp only [List.length_cons, List.range_succ_eq_map, List.countP_cons, List.countP_map, ih]
    congr 1

theorem open_eq (l : List MSt) : (open' l : Int) = l.length - (List.range l.length).countP fun m => decide (l[m]? = some .acked) := by
  have h1 : open' l + l.countP (fun x => decide (x = .acked)) = l.length := by
    unfold open'
    have := List.length_eq_countP_add_countP (fun x : MSt => decide (x = .acked)) (l := l)
    simp at this ⊢; omega
  have h2 := countP_range (fun x : MSt => decide (x = .acked)) l
  have h3 : (List.range l.length).countP (fun m => l[m]?.any fun x => decide (x = .acked)) = (List.range l.length).countP fun m => decide (l[m]? = some .acked) := by
    apply List.countP_congr
    intro m hm
    cases l[m]? <;> simp
  omega

end Coord
end Paladin
