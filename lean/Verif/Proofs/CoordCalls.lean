import Verif.Proofs.Coord
/-! # The coordinated channel driven from one task: histories of calls -/
namespace Paladin
namespace Coord

theorem calls_append {s : St} {a b : List Call} : runCalls s (a ++ b) = (runCalls s a).bind fun s' => runCalls s' b := by
  induction a generalizing s with
  | nil => simp [runCalls]
  | cons l a ih => simp only [List.cons_append, runCalls]; cases call s l <;> simp [ih]

theorem calls_split {s s' : St} {a b : List Call} (h : runCalls s (a ++ b) = some s') : ∃ s1, runCalls s a = some s1 ∧ runCalls s1 b = some s' := by
  rw [calls_append] at h
  cases h1 : runCalls s a with
  | none => simp [h1] at h
  | some s1 => simp [h1] at h; exact ⟨s1, rfl, h⟩

theorem calls_cons {s s' : St} {c : Call} {b : List Call} (h : runCalls s (c :: b) = some s') : ∃ s1, call s c = some s1 ∧ runCalls s1 b = some s' := by
  simp only [runCalls] at h
  cases h1 : call s c with
  | none => simp [h1] at h
  | some s1 => simp [h1] at h; exact ⟨s1, rfl, h⟩

theorem calls_one {s s' : St} {c : Call} (h : runCalls s [c] = some s') : call s c = some s' := by
  obtain ⟨s1, h1, h2⟩ := calls_cons h
  simp [runCalls] at h2; subst h2; exact h1

/-- Induction over a history of calls from the back. -/
theorem calls_induction {P : List Call → St → Prop} {s0 : St} (h0 : P [] s0)
    (hstep : ∀ cs c s s', runCalls s0 cs = some s → P cs s → call s c = some s' → P (cs ++ [c]) s') :
    ∀ cs s, runCalls s0 cs = some s → P cs s := by
  intro cs
  obtain ⟨n, hn⟩ : ∃ n, cs.length = n := ⟨_, rfl⟩
  induction n generalizing cs with
  | zero =>
    intro s h
    have : cs = [] := List.eq_nil_of_length_eq_zero hn
    subst this; simp [runCalls] at h; subst h; exact h0
  | succ n ih =>
    intro s h
    have hne : cs ≠ [] := by rintro rfl; simp at hn
    obtain ⟨cs', c, rfl⟩ : ∃ cs' c, cs = cs' ++ [c] := ⟨_, _, (List.dropLast_append_getLast hne).symm⟩
    obtain ⟨s1, h1, h2⟩ := calls_split h
    exact hstep cs' c s1 s h1 (ih cs' (by simpa using hn) s1 h1) (calls_one h2)

/-- A history of calls is a run. -/
theorem run_of_calls {cs : List Call} {s s' : St} (h : runCalls s cs = some s') : ∃ ls, run s ls = some s' := by
  induction cs generalizing s with
  | nil => exact ⟨[], by simpa [runCalls, run] using h⟩
  | cons c cs ih =>
    obtain ⟨s1, h1, h2⟩ := calls_cons h
    obtain ⟨ls, hl⟩ := ih h2
    exact ⟨c.steps s ++ ls, by rw [run_append]; simp only [call] at h1; rw [h1]; exact hl⟩

/-- Case analysis of a call. -/
inductive CallR (s : St) : Call → St → Prop
  | rejected : s.closed = true → CallR s .publish { s with rejected := s.rejected + 1 }
  | publish : s.closed = false → CallR s .publish { s with
      pending := s.pending + 1, status := s.status ++ [.counted], counted := s.counted ++ [s.status.length] }
  | step (c l s') : c.steps s = [l] → c ≠ .poll → c ≠ .publish → (∀ m, c ≠ .ack m) → step s l = some s' → CallR s c s'
  | item (m q) : s.queue = m :: q → CallR s .poll { s with
      queue := q, status := s.status.set m .yielded, yields := s.yields ++ [m], last := some (.item m), woken := false, innerWaker := false }
  | ended : s.queue = [] → s.innerEnded = true → CallR s .poll { s with
      last := some (if s.pending = 0 then .none else .pending), woken := false }
  | idle : s.queue = [] → s.innerEnded = false → CallR s .poll { s with
      last := some (if s.closed ∧ s.pending = 0 then .none else .pending), woken := false, innerWaker := true }
  | ack (m) : s.status[m]? = some .yielded → CallR s (.ack m) { s with
      status := s.status.set m .acked, pending := s.pending - 1, woken := s.woken || decide (s.pending = 1) }
  | ackAgain (m) : s.status[m]? = some .acking ∨ s.status[m]? = some .acked → CallR s (.ack m) s

theorem callR_of_call {s s' : St} {c : Call} (hr : s.recv = .idle) (hc : s.checked = 0) (h : call s c = some s') : CallR s c s' := by
  have hone : ∀ {l}, c.steps s = [l] → step s l = some s' := by
    intro l hl
    simp only [call, hl, run] at h
    cases hs : step s l with
    | none => simp [hs] at h
    | some s1 => simp [hs] at h; rw [h]
  cases c with
  | publish =>
    cases hcl : s.closed with
    | true =>
      simp [call, Call.steps, hcl, run, step] at h
      subst h; simpa [hcl] using CallR.rejected hcl
    | false =>
      simp [call, Call.steps, hcl, run, step] at h
      subst h
      have := CallR.publish hcl
      simpa [hc, hcl] using this
  | poll =>
    cases hq : s.queue with
    | cons m q =>
      simp [call, Call.steps, hq, run, step, hr] at h
      subst h; simpa [hr] using CallR.item m q hq
    | nil =>
      cases hi : s.innerEnded with
      | true =>
        simp [call, Call.steps, hq, hi, run, step, hr] at h
        subst h
        have := CallR.ended hq hi
        simpa [hr, hq, hi] using this
      | false =>
        simp [call, Call.steps, hq, hi, run, step, hr] at h
        subst h
        have := CallR.idle hq hi
        simpa [hr, hq, hi] using this
  | ack m =>
    by_cases hy : s.status[m]? = some .yielded
    · have hlt : m < s.status.length := by
        by_contra hc; rw [List.getElem?_eq_none (by omega)] at hy; simp at hy
      simp only [call, Call.steps, hy, if_true, run, step, Option.bind_some] at h
      rw [if_pos (by simp [hlt])] at h
      simp at h; subst h; exact .ack m hy
    · have := hone (l := .ackSwap m) (by simp only [Call.steps]; rw [if_neg hy])
      cases stepR_of_step this with
      | ackSwap _ h' => exact absurd h' hy
      | ackAgain _ h' => exact .ackAgain m h'
  | _ => exact .step _ _ s' rfl (by simp) (by simp) (by simp) (hone rfl)

/-- Between calls, the receiver is not in a poll and no `publish` is between its check and its count. -/
theorem calls_rest {cs : List Call} {s : St} (h : runCalls init cs = some s) : s.recv = .idle ∧ s.checked = 0 := by
  refine calls_induction (s0 := init) (P := fun _ s => s.recv = .idle ∧ s.checked = 0) ⟨rfl, rfl⟩ ?_ cs s h
  clear h cs s
  intro cs c s s' _ ⟨hr, hc⟩ h
  cases callR_of_call hr hc h with
  | step _ l _ hl n1 n2 n3 hs =>
    cases c <;> simp [Call.steps] at hl n1 n2 n3 <;> subst hl <;> cases stepR_of_step hs <;> exact ⟨hr, hc⟩
  | _ => exact ⟨hr, hc⟩

theorem inv_calls {cs : List Call} {s : St} (h : runCalls init cs = some s) : Inv s := by
  obtain ⟨ls, hl⟩ := run_of_calls h
  exact inv_run hl

/-- What a history of calls says about the state. -/
theorem calls_trace {cs : List Call} {s : St} (h : runCalls init cs = some s) :
    (s.closed = true ↔ .close ∈ cs) ∧ (s.innerEnded = true ↔ .innerEnd ∈ cs) ∧ (∀ m : Nat, s.status[m]? = some .acked ↔ .ack m ∈ cs) ∧
    (∀ m : Nat, s.status[m]? ≠ some .acking) ∧ s.status.length + s.rejected = cs.count .publish := by
  refine calls_induction (s0 := init) (P := fun cs s => (s.closed = true ↔ .close ∈ cs) ∧ (s.innerEnded = true ↔ .innerEnd ∈ cs) ∧
    (∀ m : Nat, s.status[m]? = some .acked ↔ .ack m ∈ cs) ∧ (∀ m : Nat, s.status[m]? ≠ some .acking) ∧ s.status.length + s.rejected = cs.count .publish)
    (by simp [init]) ?_ cs s h
  clear h cs s
  intro cs c s s' hrun ⟨h1, h2, h3, h4, h5⟩ h
  obtain ⟨hr, hc⟩ := calls_rest hrun
  have hi := inv_calls hrun
  have hset : ∀ {m : Nat} {x y : MSt}, s.status[m]? = some x → x ≠ .acked → y ≠ .acked → ∀ j : Nat, (s.status.set m y)[j]? = some .acked ↔ s.status[j]? = some .acked := by
    intro m x y hm hx hy j
    rw [st_set hm]
    by_cases hj : j = m
    · subst hj; simp [hm, hx, hy]
    · simp [hj]
  have hset' : ∀ {m : Nat} {x y : MSt}, s.status[m]? = some x → y ≠ .acking → ∀ j : Nat, (s.status.set m y)[j]? ≠ some .acking := by
    intro m x y hm hy j
    rw [st_set hm]
    by_cases hj : j = m
    · subst hj; simp [hy]
    · simp [hj, h4]
  cases callR_of_call hr hc h with
  | rejected hcl =>
    refine ⟨by simp [h1], by simp [h2], by simp [h3], h4, ?_⟩
    simp [List.count_append]; omega
  | publish hcl =>
    refine ⟨by simp [h1], by simp [h2], ?_, ?_, ?_⟩
    · intro m; simp only [st_append]
      have := h3 m
      by_cases hm : m = s.status.length
      · subst hm; simp at this ⊢; exact this
      · simp [hm]; exact this
    · intro m; simp only [st_append]
      by_cases hm : m = s.status.length
      · simp [hm]
      · simp [hm, h4]
    · simp [List.count_append]; omega
  | step _ l _ hl n1 n2 n3 hs =>
    have hcnt : (cs ++ [c]).count .publish = cs.count .publish := by
      have h0 : [c].count Call.publish = 0 := List.count_eq_zero.2 (by simp; exact fun h => n2 h.symm)
      rw [List.count_append, h0]; rfl
    have hack : ∀ m, Call.ack m ∈ cs ++ [c] ↔ Call.ack m ∈ cs := by
      intro m; simp; intro h; exact absurd h.symm (n3 m)
    rw [hcnt]
    simp only [hack]
    cases c <;> simp [Call.steps] at hl n1 n2 n3 <;> subst hl <;> cases stepR_of_step hs
    case send.pubSend k m a b hk =>
      have hm : s.status[m]? = some .counted := (hi.counted m).1 (by rw [hk]; simp)
      exact ⟨by simp [h1], by simp [h2], fun j => by rw [hset hm (by simp) (by simp)]; exact h3 j, hset' hm (by simp), by simpa using h5⟩
    case pubFail.pubFail k m a b hk =>
      have hm : s.status[m]? = some .counted := (hi.counted m).1 (by rw [hk]; simp)
      exact ⟨by simp [h1], by simp [h2], fun j => by rw [hset hm (by simp) (by simp)]; exact h3 j, hset' hm (by simp), by simpa using h5⟩
    case respond.respond m _ hm =>
      exact ⟨by simp [h1], by simp [h2], fun j => by rw [hset hm (by simp) (by simp)]; exact h3 j, hset' hm (by simp), by simpa using h5⟩
    case lose.loseSent m hm =>
      exact ⟨by simp [h1], by simp [h2], fun j => by rw [hset hm (by simp) (by simp)]; exact h3 j, hset' hm (by simp), by simpa using h5⟩
    case lose.loseAvail m hm =>
      exact ⟨by simp [h1], by simp [h2], fun j => by rw [hset hm (by simp) (by simp)]; exact h3 j, hset' hm (by simp), by simpa using h5⟩
    all_goals exact ⟨by simp [h1], by simp [h2], h3, h4, h5⟩
  | item m q hq =>
    have hm : s.status[m]? = some .avail := (hi.queue m).1 (by rw [hq]; simp)
    refine ⟨by simp [h1], by simp [h2], ?_, hset' hm (by simp), by simpa [List.count_append] using h5⟩
    intro j
    rw [hset hm (by simp) (by simp), h3]
    simp
  | ended hq hie => exact ⟨by simp [h1], by simp [h2], by simp [h3], h4, by simpa [List.count_append] using h5⟩
  | idle hq hie => exact ⟨by simp [h1], by simp [h2], by simp [h3], h4, by simpa [List.count_append] using h5⟩
  | ack m hm =>
    refine ⟨by simp [h1], by simp [h2], ?_, hset' hm (by simp), by simpa [List.count_append] using h5⟩
    intro j; dsimp only
    rw [st_set hm]
    have := h3 j
    by_cases hj : j = m
    · subst hj; simp
    · simp [hj, this]
  | ackAgain m hm =>
    refine ⟨by simp [h1], by simp [h2], ?_, h4, by simpa [List.count_append] using h5⟩
    intro j
    have := h3 j
    rcases hm with hm | hm
    · exact absurd hm (h4 m)
    by_cases hj : j = m
    · subst hj; simp [hm]
    · simp [hj, this]

end Coord
end Paladin
