import Verif.Proofs.CoordCalls
/-!
# Coordinated channel (C19–C24)

`published` are the messages whose `publish` returned `Ok`, `yields` the messages the receiver yielded, `last` the result of its last completed poll,
`rejected` the number of `publish` calls that returned `PublisherClosed`, `woken` whether its task has been woken since its last poll began.
-/
namespace Paladin
namespace Coord

/-! ## One task -/

/-- **C19**: with sender and receiver driven from one task, when a poll of the receiver reports end-of-stream then every published message has been yielded and
acknowledged, and the sender was closed, unless the broker's stream has ended by itself. Nothing is ready for the receiver and no message is waiting to be sent. -/
theorem C19_end_means_done {cs : List Call} {s : St} (h : runCalls init (cs ++ [.poll]) = some s) (hend : s.last = some .none) :
    (∀ m ∈ s.published, m ∈ s.yields ∧ .ack m ∈ cs) ∧ (.close ∈ cs ∨ .innerEnd ∈ cs) ∧ s.queue = [] ∧ s.counted = [] := by
  obtain ⟨s0, h0, h1⟩ := calls_split h
  have hi := inv_calls h
  have hi0 := inv_calls h0
  obtain ⟨hcl, hie, hack, -, -⟩ := calls_trace h0
  obtain ⟨hr, hc⟩ := calls_rest h0
  have key : s0.pending = 0 ∧ (s0.closed = true ∨ s0.innerEnded = true) ∧ s0.queue = [] ∧ s.status = s0.status ∧ s.counted = s0.counted ∧ s.queue = s0.queue := by
    cases callR_of_call hr hc (calls_one h1) with
    | step _ l _ hl n1 => exact absurd rfl n1
    | item m q hq => simp at hend
    | ended hq he =>
      simp at hend
      exact ⟨hend, .inr he, hq, rfl, rfl, rfl⟩
    | idle hq he =>
      simp at hend
      exact ⟨hend.2, .inl hend.1, hq, rfl, rfl, rfl⟩
  obtain ⟨k1, k2, k3, k4, k5, k6⟩ := key
  have hz := hi0.zero.1 k1
  refine ⟨?_, by rwa [hcl, hie] at k2, by rw [k6, k3], ?_⟩
  · intro m hm
    obtain ⟨x, hx, -⟩ := hi.pub m (by simp [hm])
    rw [k4] at hx
    have hlt : m < s0.status.length := by
      by_contra hc; rw [List.getElem?_eq_none (by omega)] at hx; simp at hx
    have ha := hz m hlt
    exact ⟨(hi.yields m).2 (by rw [k4]; exact .inr (.inr ha)), (hack m).1 ha⟩
  · rw [k5]
    rw [List.eq_nil_iff_forall_not_mem]
    intro m hm
    rw [hi0.counted] at hm
    have hlt : m < s0.status.length := by
      by_contra hc; rw [List.getElem?_eq_none (by omega)] at hm; simp at hm
    rw [hz m hlt] at hm; simp at hm

/-- **C19**, **C20**, in every interleaving: the receiver yields each message at most once, and only messages whose result has reached it. -/
theorem C19_yields_once {ls : List Label} {s : St} (h : run init ls = some s) : s.yields.Nodup ∧ ∀ m ∈ s.yields, .respond m ∈ ls := by
  refine ⟨(inv_run h).yieldsNd, ?_⟩
  have := run_induction (s0 := init) (P := fun ls s => (∀ m ∈ s.queue, Label.respond m ∈ ls) ∧ ∀ m ∈ s.yields, Label.respond m ∈ ls) (by simp [init]) ?_ ls s h
  · exact this.2
  · rintro ls s l s' - ⟨h1, h2⟩ hs
    cases stepR_of_step hs with
    | respond m => exact ⟨fun k hk => by simp at hk ⊢; rcases hk with hk | rfl <;> simp_all, fun k hk => by simp; exact .inl (h2 k hk)⟩
    | loseAvail m => exact ⟨fun k hk => by simp at hk ⊢; exact h1 k hk.1, fun k hk => by simp; exact h2 k hk⟩
    | pollItem m q hr hq =>
      rw [hq] at h1
      exact ⟨fun k hk => by simp; exact h1 k (by simp [hk]), fun k hk => by
        simp at hk ⊢; rcases hk with hk | rfl
        · exact h2 k hk
        · exact h1 k (by simp)⟩
    | _ => exact ⟨fun k hk => by simp; first | exact h1 k hk | exact .inl (h1 k hk), fun k hk => by simp; first | exact h2 k hk | exact .inl (h2 k hk)⟩

/-- **C19**: end-of-stream is final: once reported after close, nothing more is sent or yielded, every later `publish` is rejected, every later poll reports
end-of-stream again, and everything ever published has been yielded. -/
theorem C19_end_is_final {cs cs' : List Call} {s s' : St} (h : runCalls init (cs ++ [.poll]) = some s) (hend : s.last = some .none) (hcl : .close ∈ cs)
    (h' : runCalls s cs' = some s') :
    (∀ m ∈ s'.published, m ∈ s.yields) ∧ s'.yields = s.yields ∧ s'.last = some .none ∧ s'.rejected = s.rejected + cs'.count .publish := by
  obtain ⟨s0, h0, h1⟩ := calls_split h
  have hi := inv_calls h
  obtain ⟨ht1, ht2, ht3, ht4, -⟩ := calls_trace h
  have hz : s.pending = 0 := by
    obtain ⟨hr, hc⟩ := calls_rest h0
    cases callR_of_call hr hc (calls_one h1) with
    | step _ l _ hl n1 => exact absurd rfl n1
    | item m q hq => simp at hend
    | ended hq he => simp at hend; exact hend
    | idle hq he => simp at hend; exact hend.2
  have hza := hi.zero.1 hz
  have hcl' : s.closed = true := ht1.2 (by simp [hcl])
  have hlt : ∀ {m : Nat} {x}, s.status[m]? = some x → x = .acked := by
    intro m x hx
    have hlt : m < s.status.length := by
      by_contra hc; rw [List.getElem?_eq_none (by omega)] at hx; simp at hx
    rw [hza m hlt] at hx; simpa using hx.symm
  have hq0 : s.queue = [] := by
    rw [List.eq_nil_iff_forall_not_mem]
    intro m hm; rw [hi.queue] at hm; simpa using hlt hm
  have hc0 : s.counted = [] := by
    rw [List.eq_nil_iff_forall_not_mem]
    intro m hm; rw [hi.counted] at hm; simpa using hlt hm
  have main : ∀ cs s', runCalls s cs = some s' → s'.status = s.status ∧ s'.pending = 0 ∧ s'.closed = true ∧ s'.queue = [] ∧ s'.counted = [] ∧
      s'.yields = s.yields ∧ s'.last = some .none ∧ s'.rejected = s.rejected + cs.count .publish := by
    refine calls_induction (s0 := s) ⟨rfl, hz, hcl', hq0, hc0, rfl, hend, by simp⟩ ?_
    intro csb c s1 s2 hrun ⟨e1, e2, e3, e4, e5, e6, e7, e8⟩ hcall
    have hrun' : runCalls init (cs ++ [.poll] ++ csb) = some s1 := by rw [calls_append, h]; exact hrun
    obtain ⟨hr, hc⟩ := calls_rest hrun'
    cases callR_of_call hr hc hcall with
    | rejected _ => exact ⟨e1, e2, e3, e4, e5, e6, e7, by simp [List.count_append]; omega⟩
    | publish hh => rw [e3] at hh; simp at hh
    | item m q hq => rw [e4] at hq; simp at hq
    | ended hq he => exact ⟨e1, e2, e3, e4, e5, e6, by simp [e2], by simpa [List.count_append] using e8⟩
    | idle hq he => exact ⟨e1, e2, e3, e4, e5, e6, by simp [e2, e3], by simpa [List.count_append] using e8⟩
    | ack m hm => rw [e1] at hm; have := hlt hm; simp at this
    | ackAgain m hm => exact ⟨e1, e2, e3, e4, e5, e6, e7, by simpa [List.count_append] using e8⟩
    | step _ l _ hl n1 n2 n3 hs =>
      have hcnt : (csb ++ [c]).count .publish = csb.count .publish := by
        have h0 : [c].count Call.publish = 0 := List.count_eq_zero.2 (by simp; exact fun h => n2 h.symm)
        rw [List.count_append, h0]; rfl
      rw [hcnt]
      cases c <;> simp [Call.steps] at hl n1 n2 n3 <;> subst hl <;> cases stepR_of_step hs
      case send.pubSend k m a b hk => rw [e5] at hk; simp at hk
      case pubFail.pubFail k m a b hk => rw [e5] at hk; simp at hk
      case respond.respond m _ hm => rw [e1] at hm; have := hlt hm; simp at this
      case lose.loseSent m hm => rw [e1] at hm; have := hlt hm; simp at this
      case lose.loseAvail m hm => rw [e1] at hm; have := hlt hm; simp at this
      all_goals exact ⟨e1, e2, by simp [e3], e4, e5, e6, e7, e8⟩
  obtain ⟨e1, e2, e3, e4, e5, e6, e7, e8⟩ := main cs' s' h'
  refine ⟨fun m hm => ?_, e6, e7, e8⟩
  have hi' := inv_calls (show runCalls init (cs ++ [.poll] ++ cs') = some s' by rw [calls_append, h]; exact h')
  obtain ⟨x, hx, -⟩ := hi'.pub m (by simp [hm])
  rw [e1] at hx
  have := hlt hx; subst this
  exact (hi.yields m).2 (.inr (.inr hx))

/-- A history meeting the hypotheses: two messages published, answered out of order, yielded, acknowledged; closed; one late publish; end-of-stream. -/
def history : List Call :=
  [.publish, .publish, .send 1, .send 0, .pubOk 0, .respond 1, .pubOk 0, .poll, .poll, .respond 0, .ack 1, .poll, .close, .poll, .ack 0, .ack 0]
example : (runCalls init (history ++ [.poll])).map (fun s => (s.last, s.published, s.yields)) = some (some .none, [1, 0], [1, 0]) := by decide
example : (runCalls init (history ++ [.poll] ++ [.publish, .poll])).map (fun s => (s.last, s.rejected)) = some (some .none, 1) := by decide

/-! ## Threads -/

/-- **C20** is false: the receiver finds its inner stream pending and loads 0 pending sends; then the sender publishes a message and closes; then the receiver
loads `closed` and reports end-of-stream although a published message was never yielded. -/
theorem C20_early_end_witness : ∃ s, run init [.pollInner, .loadNum, .pubCheck, .pubCount, .pubSend 0, .pubOk 0, .close, .loadClosed] = some s ∧
    s.last = some .none ∧ s.published = [0] ∧ s.yields = [] := ⟨_, rfl, by decide⟩

/-- A poll whose two loads are separated by `between`. -/
theorem poll_loads {before between : List Label} {s1 s : St} (hp : s1.recv = .sawPending)
    (h : run s1 (.loadNum :: between ++ [.loadClosed]) = some s) (hn : .loadClosed ∉ between) (hend : s.last = some .none) :
    ∃ s2, run s1 (.loadNum :: between) = some s2 ∧ s2.closed = true ∧ s1.pending = 0 ∧ s = { s2 with recv := .idle, last := some .none } := by
  obtain ⟨s2, h2, h3⟩ := run_split h
  obtain ⟨s1', h4, h5⟩ := run_cons h2
  obtain ⟨s3, h6, h7⟩ := run_cons h3
  simp [run] at h7; subst h7
  have hr : s1'.recv = .loaded s1.pending := by
    simp [step, hp] at h4; subst h4; rfl
  have hr2 := loaded_stay h5 hr hn
  simp [step, hr2] at h6
  subst h6
  simp at hend
  exact ⟨s2, h2, hend.1, hend.2, by simp [hend]⟩

/-- **C20**, what holds for every interleaving (partial: a message published between the receiver's two loads can be missed): when a poll reports end-of-stream,
the sender has been closed by the time of the second load, and every message counted before the first load (`before`) has been yielded and acknowledged before
that load; in particular every message published before it. -/
theorem C20_end_partial {before between : List Label} {s1 s : St} (h1 : run init before = some s1) (hp : s1.recv = .sawPending)
    (h : run s1 (.loadNum :: between ++ [.loadClosed]) = some s) (hn : .loadClosed ∉ between) (hend : s.last = some .none) :
    .close ∈ before ++ between ∧ (∀ m, m < before.count .pubCount → m ∈ s1.yields ∧ .ackSub m ∈ before) ∧ ∀ m ∈ s1.published, m ∈ s1.yields := by
  obtain ⟨s2, h2, hcl, hz, -⟩ := poll_loads (before := before) hp h hn hend
  have hi := inv_run h1
  have hza := hi.zero.1 hz
  have hcl' := (closed_trace (show run init (before ++ .loadNum :: between) = some s2 by rw [run_append, h1]; exact h2)).1 hcl
  refine ⟨by simpa using hcl', ?_, ?_⟩
  · intro m hm
    rw [← count_pubCount h1] at hm
    have ha := hza m hm
    refine ⟨(hi.yields m).2 (.inr (.inr ha)), ?_⟩
    have := (acked_trace h1 m).1
    rw [if_pos ha] at this
    exact List.count_pos_iff.1 (by omega)
  · intro m hm
    obtain ⟨x, hx, -⟩ := hi.pub m (by simp [hm])
    exact (hi.yields m).2 (.inr (.inr (hza m (status_lt hx))))

/-- **C20**, partial: if the sender is closed when the poll loads the number of pending sends and no `publish` is between its two steps, end-of-stream means that
everything published at all has been yielded. -/
theorem C20_closed_before_partial {before between : List Label} {s1 s : St} (h1 : run init before = some s1) (hcl : s1.closed = true) (hc : s1.checked = 0)
    (hp : s1.recv = .sawPending) (h : run s1 (.loadNum :: between ++ [.loadClosed]) = some s) (hn : .loadClosed ∉ between) (hend : s.last = some .none) :
    ∀ m ∈ s.published, m ∈ s.yields := by
  obtain ⟨s2, h2, -, hz, -⟩ := poll_loads (before := before) hp h hn hend
  have hi1 := inv_run h1
  have hi := inv_run (show run init (before ++ (.loadNum :: between ++ [.loadClosed])) = some s by rw [run_append, h1]; exact h)
  have hlen : s.status.length = s1.status.length := by
    have := run_inv (P := fun s => s.closed = true ∧ s.checked = 0 ∧ s.status.length = s1.status.length) ⟨hcl, hc, rfl⟩ ?_ h
    · exact this.2.2
    · intro s l s' _ ⟨k1, k2, k3⟩ h
      cases stepR_of_step h <;> simp_all
  intro m hm
  obtain ⟨x, hx, -⟩ := hi.pub m (by simp [hm])
  have hlt := status_lt hx
  rw [hlen] at hlt
  exact yields_mono h ((hi1.yields m).2 (.inr (.inr (hi1.zero.1 hz m hlt))))

/-- The hypotheses are met: a message is published, answered, yielded, acknowledged, the sender closes, and the receiver polls. -/
example : ∃ s1 s, run init [.pubCheck, .pubCount, .pubSend 0, .pubOk 0, .respond 0, .pollInner, .ackSwap 0, .ackSub 0, .close, .pollInner] = some s1 ∧
    s1.recv = .sawPending ∧ s1.closed = true ∧ s1.checked = 0 ∧ run s1 (.loadNum :: [.pubCheck] ++ [.loadClosed]) = some s ∧ s.last = some .none ∧
    s.published = [0] ∧ s.rejected = 1 := ⟨_, _, rfl, by decide, by decide, by decide, rfl, by decide⟩

/-! ## Termination -/

/-- **C21** is false: everything published has been yielded and acknowledged and the receiver is parked (its poll returned `Pending`); closing does not wake it. -/
theorem C21_close_does_not_wake_witness : ∃ s, runCalls init [.publish, .send 0, .pubOk 0, .respond 0, .poll, .ack 0, .poll, .close] = some s ∧
    s.closed = true ∧ s.published = [0] ∧ s.yields = [0] ∧ s.last = some .pending ∧ s.woken = false := ⟨_, rfl, by decide⟩

/-- **C21**, the failing case in general: if the receiver is parked and everything is acknowledged when the sender closes, then nothing wakes it: it stays asleep
through every later history in which its broker's stream does not end by itself. -/
theorem C21_parked_forever {cs cs' : List Call} {s s' : St} (h : runCalls init cs = some s) (hl : s.last = some .pending) (hw : s.woken = false)
    (hall : ∀ m, m < cs.count .publish - s.rejected → .ack m ∈ cs) (h' : runCalls s (.close :: cs') = some s') (hn : .poll ∉ cs') (he : .innerEnd ∉ cs') :
    s'.last = some .pending ∧ s'.woken = false := by
  have hi := inv_calls h
  obtain ⟨t1, t2, t3, t4, t5⟩ := calls_trace h
  have hza : ∀ m, m < s.status.length → s.status[m]? = some .acked := fun m hm => (t3 m).2 (hall m (by omega))
  have hlt : ∀ {m : Nat} {x}, s.status[m]? = some x → x = .acked := by
    intro m x hx
    rw [hza m (status_lt hx)] at hx; simpa using hx.symm
  have hc0 : s.counted = [] := by
    rw [List.eq_nil_iff_forall_not_mem]
    intro m hm; rw [hi.counted] at hm; simpa using hlt hm
  obtain ⟨s1, hs1, hrest⟩ := calls_cons h'
  simp [call, Call.steps, run, step] at hs1
  have hrun1 : runCalls init (cs ++ [.close]) = some s1 := by rw [calls_append, h]; simp [runCalls, call, Call.steps, run, step, hs1]
  have main : ∀ cs s', runCalls s1 cs = some s' → (.poll ∉ cs → .innerEnd ∉ cs → s'.status = s.status ∧ s'.closed = true ∧ s'.counted = [] ∧
      s'.last = some .pending ∧ s'.woken = false) := by
    refine calls_induction (s0 := s1) (by subst hs1; simp [hl, hw, hc0]) ?_
    intro csb c s2 s3 hrun ih hcall hn he
    obtain ⟨e1, e2, e3, e4, e5⟩ := ih (by simp at hn; exact hn.1) (by simp at he; exact he.1)
    have hrun' : runCalls init (cs ++ [.close] ++ csb) = some s2 := by rw [calls_append, hrun1]; exact hrun
    obtain ⟨hr, hc⟩ := calls_rest hrun'
    cases callR_of_call hr hc hcall with
    | rejected _ => exact ⟨e1, e2, e3, e4, e5⟩
    | publish hh => rw [e2] at hh; simp at hh
    | item m q hq => simp at hn
    | ended hq he => simp at hn
    | idle hq he => simp at hn
    | ack m hm => rw [e1] at hm; have := hlt hm; simp at this
    | ackAgain m hm => exact ⟨e1, e2, e3, e4, e5⟩
    | step _ l _ hl n1 n2 n3 hs =>
      cases c <;> simp [Call.steps] at hl n1 n2 n3 <;> subst hl <;> cases stepR_of_step hs
      case send.pubSend k m a b hk => rw [e3] at hk; simp at hk
      case pubFail.pubFail k m a b hk => rw [e3] at hk; simp at hk
      case respond.respond m _ hm => rw [e1] at hm; have := hlt hm; simp at this
      case lose.loseSent m hm => rw [e1] at hm; have := hlt hm; simp at this
      case lose.loseAvail m hm => rw [e1] at hm; have := hlt hm; simp at this
      case innerEnd => simp at he
      all_goals exact ⟨e1, by simp [e2], e3, e4, e5⟩
  exact (main cs' s' hrest hn he).2.2.2

/-- **C21**, what holds (partial): a poll that starts after the sender was closed and everything counted was acknowledged reports end-of-stream. -/
theorem C21_next_poll_partial {cs : List Call} {s : St} (h : runCalls init cs = some s) (hcl : .close ∈ cs)
    (hall : ∀ m, m < cs.count .publish - s.rejected → .ack m ∈ cs) :
    ∃ s', call s .poll = some s' ∧ s'.last = some .none := by
  obtain ⟨hr, hc⟩ := calls_rest h
  have hi := inv_calls h
  obtain ⟨t1, t2, t3, t4, t5⟩ := calls_trace h
  have hza : ∀ m, m < s.status.length → s.status[m]? = some .acked := fun m hm => (t3 m).2 (hall m (by omega))
  have hz := hi.zero.2 hza
  have hq : s.queue = [] := by
    rw [List.eq_nil_iff_forall_not_mem]
    intro m hm; rw [hi.queue] at hm; rw [hza m (status_lt hm)] at hm; simp at hm
  have hcl' := t1.2 hcl
  cases he : s.innerEnded with
  | true => simp [call, Call.steps, hq, he, run, step, hr, hz]
  | false => simp [call, Call.steps, hq, he, run, step, hr, hz, hcl']

/-- **C21**, what holds for every interleaving of threads (partial: only if a message was still outstanding when the sender closed): once every message has been
acknowledged, the receiver's task has been woken, or a poll is running or has finished that reports end-of-stream. -/
theorem C21_woken_partial {before after : List Label} {s1 s : St} (h1 : run init before = some s1) (hout : ∃ m, m < before.count .pubCount ∧ .ackSub m ∉ before)
    (h : run s1 (.close :: after) = some s) (hall : ∀ m, m < (before ++ after).count Label.pubCount → Label.ackSub m ∈ before ++ after) :
    s.woken = true ∨ ∃ fin s', (∀ l ∈ fin, l = .loadNum ∨ l = .loadClosed) ∧ run s fin = some s' ∧ s'.last = some .none := by
  have h1' : run init (before ++ [.close] ++ after) = some s := by rw [List.append_assoc, run_append, h1]; exact h
  have hi1 := inv_run h1
  have hi := inv_run h1'
  have hp1 : s1.pending ≠ 0 := by
    intro hz
    obtain ⟨m, hm, hno⟩ := hout
    rw [← count_pubCount h1] at hm
    have := (acked_trace h1 m).1
    rw [if_pos (hi1.zero.1 hz m hm)] at this
    exact hno (List.count_pos_iff.1 (by omega))
  have hz : s.pending = 0 := by
    rw [hi.zero]
    intro m hm
    rw [count_pubCount h1'] at hm
    have := hall m (by simpa [List.count_append] using hm)
    have hc := (acked_trace h1' m).1
    have : 0 < (before ++ [Label.close] ++ after).count (Label.ackSub m) := List.count_pos_iff.2 (by simp at this ⊢; tauto)
    by_contra hne
    rw [if_neg hne] at hc; omega
  obtain ⟨s1', hs1, hafter⟩ := run_cons h
  simp [step] at hs1
  have hJ := run_inv (P := fun s => Inv s ∧ s.closed = true ∧ (s.pending ≠ 0 ∨ s.woken = true ∨ s.recv = .sawPending ∨ s.recv = .sawEnd ∨ s.recv = .loaded 0 ∨
      (s.recv = .idle ∧ s.last = some .none)))
    (s := s1') (s' := s) (ls := after) ⟨by
      obtain ⟨ls, hl⟩ : ∃ ls, run init ls = some s1' := ⟨before ++ [.close], by rw [run_append, h1]; simp [run, step, hs1]⟩
      exact inv_run hl, by subst hs1; rfl, .inl (by subst hs1; exact hp1)⟩ ?_ hafter
  · obtain ⟨-, hcl, hJ⟩ := hJ
    rcases hJ with h | h | h | h | h | h
    · exact absurd hz h
    · exact .inl h
    · exact .inr ⟨[.loadNum, .loadClosed], by simp [run, step, h, hz, hcl]⟩
    · exact .inr ⟨[.loadNum], by simp [run, step, h, hz]⟩
    · exact .inr ⟨[.loadClosed], by simp [run, step, h, hcl]⟩
    · exact .inr ⟨[], s, by simp, rfl, h.2⟩
  · intro s l s' _ ⟨hi, hcl, hJ⟩ hs
    have hi' := inv_step hi hs
    refine ⟨hi', ?_⟩
    have hnn := hi.cnt
    have hnn' := hi'.cnt
    have hpos : ∀ (m : Nat) (x : MSt), s.status[m]? = some x → x ≠ .acked → s.pending ≠ 0 := by
      intro m x hx hne hz
      rw [hi.zero.1 hz m (status_lt hx)] at hx; simp at hx; exact hne hx.symm
    cases stepR_of_step hs with
    | pubCount _ => exact ⟨hcl, .inl (by dsimp only; omega)⟩
    | respond m _ => refine ⟨hcl, ?_⟩; rcases hJ with h | h | h | h | h | h <;> simp [h]
    | innerEnd => refine ⟨hcl, ?_⟩; rcases hJ with h | h | h | h | h | h <;> simp [h]
    | close => exact ⟨rfl, hJ⟩
    | pollItem m q hr hq => exact ⟨hcl, .inl (hpos m .avail ((hi.queue m).1 (by rw [hq]; simp)) (by simp))⟩
    | pollEnd hr hq he => exact ⟨hcl, by simp⟩
    | pollPending hr hq he => exact ⟨hcl, by simp⟩
    | loadNum hr =>
      refine ⟨hcl, ?_⟩
      by_cases hz : s.pending = 0
      · simp [hz]
      · exact .inl hz
    | loadNumEnd hr =>
      refine ⟨hcl, ?_⟩
      by_cases hz : s.pending = 0
      · simp [hz]
      · exact .inl hz
    | loadClosed n hr =>
      refine ⟨hcl, ?_⟩
      rcases hJ with h | h | h | h | h | h
      · exact .inl h
      · exact .inr (.inl h)
      · rw [hr] at h; simp at h
      · rw [hr] at h; simp at h
      · rw [hr] at h; simp at h; simp [hcl, h]
      · rw [hr] at h; simp at h
    | ackSub m hm =>
      refine ⟨hcl, ?_⟩
      by_cases hz : s.pending = 1
      · simp [hz]
      · exact .inl (by dsimp only; omega)
    | _ => exact ⟨hcl, hJ⟩

/-- The hypotheses are met: the receiver has yielded message 0 and is parked when the sender closes; the acknowledgement then wakes it. -/
example : ∃ s1 s, run init [.pubCheck, .pubCount, .pubSend 0, .pubOk 0, .respond 0, .pollInner, .pollInner, .loadNum, .loadClosed] = some s1 ∧
    s1.last = some .pending ∧ run s1 (.close :: [.ackSwap 0, .ackSub 0]) = some s ∧ s.woken = true := ⟨_, _, rfl, by decide, rfl, by decide⟩
/-- The other disjunct: a poll is between its two loads when the last message is acknowledged. -/
example : ∃ s1 s, run init [.pubCheck, .pubCount, .pubSend 0, .pubOk 0, .respond 0, .pollInner] = some s1 ∧
    run s1 (.close :: [.ackSwap 0, .ackSub 0, .pollInner]) = some s ∧ s.woken = false ∧ s.recv = .sawPending := ⟨_, _, rfl, rfl, by decide⟩

/-! ## Close -/

/-- **C22**: once `close` has returned, `publish` is rejected with no other effect, and `close` has no effect. -/
theorem C22_rejected {cs : List Call} {s : St} (h : runCalls init cs = some s) (hcl : .close ∈ cs) :
    call s .publish = some { s with rejected := s.rejected + 1 } ∧ call s .close = some s := by
  have hc := (calls_trace h).1.2 hcl
  constructor
  · simp [call, Call.steps, run, step, hc]
  · simp [call, Call.steps, run, step, hc]
    rw [← hc]

/-- **C22** for every interleaving of threads: every `publish` whose check comes after a close is rejected; the only messages counted after it belong to the
`publish` calls that had passed their check before (`checked`). -/
theorem C22_threads {before after : List Label} {s1 s : St} (h1 : run init before = some s1) (h : run s1 (.close :: after) = some s) :
    s.closed = true ∧ s.rejected = s1.rejected + after.count .pubCheck ∧ s.checked + after.count .pubCount = s1.checked ∧
    s.status.length = s1.status.length + after.count .pubCount := by
  obtain ⟨s1', hs1, hafter⟩ := run_cons h
  simp [step] at hs1
  have := run_induction (s0 := s1') (P := fun ls s => s.closed = true ∧ s.rejected = s1.rejected + ls.count .pubCheck ∧
    s.checked + ls.count .pubCount = s1.checked ∧ s.status.length = s1.status.length + ls.count .pubCount) (by subst hs1; simp) ?_ after s hafter
  · exact this
  · intro ls l s s' _ ⟨k1, k2, k3, k4⟩ hs
    cases stepR_of_step hs <;> simp_all [List.count_append] <;> omega

/-- A `publish` that passed its check before the close is counted after it; one checked after it is rejected. -/
example : ∃ s1 s, run init [.pubCheck] = some s1 ∧ run s1 (.close :: [.pubCheck, .pubCount, .pubSend 0, .close, .pubCheck]) = some s ∧
    s.rejected = 2 ∧ s.handed = [0] := ⟨_, _, rfl, rfl, by decide⟩

/-! ## Acknowledgement -/

/-- **C23**: in every interleaving, however often and from however many threads `ack` and `nack` are called on the acker of `m`, the counter is decremented for `m`
at most once, and exactly once when a call was made and none is between its two steps. The counter is the number of counted messages minus these. -/
theorem C23_once {ls : List Label} {s : St} (h : run init ls = some s) :
    (∀ m, ls.count (.ackSub m) ≤ 1) ∧ (∀ m, .ackSwap m ∈ ls → s.status[m]? ≠ some .acking → ls.count (.ackSub m) = 1) ∧
    s.pending = ls.count .pubCount - ((List.range (ls.count .pubCount)).countP fun m => .ackSub m ∈ ls) := by
  refine ⟨fun m => ?_, fun m hm hne => ?_, ?_⟩
  · rw [(acked_trace h m).1]; split <;> omega
  · rcases (acked_trace h m).2.1 hm with h1 | h1
    · exact absurd h1 hne
    · rw [(acked_trace h m).1, if_pos h1]
  · rw [(inv_run h).cnt, open_eq, count_pubCount h]
    congr 2
    apply List.countP_congr
    intro m _
    have := (acked_trace h m).1
    by_cases ha : s.status[m]? = some .acked
    · rw [if_pos ha] at this
      simp [ha]; exact List.count_pos_iff.1 (by omega)
    · rw [if_neg ha] at this
      simp [ha]; exact List.count_eq_zero.1 this

/-- **C23** from one task: every message whose acker was called at least once counts as handled once. -/
theorem C23_calls {cs : List Call} {s : St} (h : runCalls init cs = some s) :
    s.pending = (cs.count .publish - s.rejected : Nat) - ((List.range (cs.count .publish - s.rejected)).countP fun m => .ack m ∈ cs) := by
  obtain ⟨-, -, t3, -, t5⟩ := calls_trace h
  have hl : cs.count .publish - s.rejected = s.status.length := by omega
  rw [(inv_calls h).cnt, open_eq, hl]
  congr 2
  apply List.countP_congr
  intro m _
  simp [t3]

/-- Two threads acknowledge message 0 (one of them twice) while message 1 is outstanding. -/
example : ∃ s, run init [.pubCheck, .pubCount, .pubSend 0, .respond 0, .pubCheck, .pubCount, .pollInner, .ackSwap 0, .ackSwap 0, .ackSub 0, .ackSwap 0] = some s ∧
    s.pending = 1 := ⟨_, rfl, by decide⟩

/-! ## Failed publishes -/

/-- **C24** is false: after a publish that failed before its message was sent, no poll ever reports end-of-stream, whatever happens afterwards. -/
theorem C24_failed_publish_blocks {pre post : List Call} {k : Nat} {s : St} (h : runCalls init (pre ++ [.pubFail k] ++ post ++ [.poll]) = some s) :
    s.last ≠ some .none := by
  obtain ⟨s2, h2, h3⟩ := calls_split h
  obtain ⟨s1, h1, hpost⟩ := calls_split h2
  obtain ⟨s0, h0, hk⟩ := calls_split h1
  have hd : ∃ m : Nat, s1.status[m]? = some .dead := by
    have hs := calls_one hk
    obtain ⟨hr, hc⟩ := calls_rest h0
    cases callR_of_call hr hc hs with
    | step _ l _ hl n1 n2 n3 hs =>
      simp [Call.steps] at hl; subst hl
      cases stepR_of_step hs with
      | pubFail _ m a b he =>
        have hm : s0.status[m]? = some .counted := ((inv_calls h0).counted m).1 (by rw [he]; simp)
        exact ⟨m, by dsimp only; rw [st_set hm]; simp⟩
  obtain ⟨m, hm⟩ := hd
  obtain ⟨lp, hlp⟩ := run_of_calls hpost
  obtain ⟨l1, hl1⟩ := run_of_calls h1
  have hm2 : Inv s2 ∧ s2.status[m]? = some .dead := by
    refine run_inv (P := fun s => Inv s ∧ s.status[m]? = some .dead) ⟨inv_run hl1, hm⟩ ?_ hlp
    intro s l s' _ ⟨hi, hm⟩ hs
    refine ⟨inv_step hi hs, ?_⟩
    have hset : ∀ {j : Nat} {x y : MSt}, s.status[j]? = some x → x ≠ .dead → (s.status.set j y)[m]? = some .dead := by
      intro j x y hj hx
      rw [st_set hj, if_neg, hm]
      rintro rfl; rw [hm] at hj; simp at hj; exact hx hj.symm
    cases stepR_of_step hs with
    | pubCount _ =>
      dsimp only; rw [st_append, if_neg, hm]
      have := status_lt hm; omega
    | pubSend k j a b hk => exact hset ((hi.counted j).1 (by rw [hk]; simp)) (by simp)
    | pubFail k j a b hk => exact hset ((hi.counted j).1 (by rw [hk]; simp)) (by simp)
    | respond j hj _ => exact hset hj (by simp)
    | loseSent j hj => exact hset hj (by simp)
    | loseAvail j hj => exact hset hj (by simp)
    | pollItem j q _ hq => exact hset ((hi.queue j).1 (by rw [hq]; simp)) (by simp)
    | ackSwap j hj => exact hset hj (by simp)
    | ackSub j hj => exact hset hj (by simp)
    | _ => exact hm
  have hz : s2.pending ≠ 0 := by
    intro hz
    have := hm2.1.zero.1 hz m (status_lt hm2.2)
    rw [hm2.2] at this; simp at this
  obtain ⟨hr, hc⟩ := calls_rest h2
  cases callR_of_call hr hc (calls_one h3) with
  | step _ l _ hl n1 => exact absurd rfl n1
  | item m q hq => simp
  | ended hq he => simp [hz]
  | idle hq he => simp [hz]

/-- Such a history: the publish fails, another message is published, answered, yielded and acknowledged, the sender closes, and the poll still returns `Pending`. -/
theorem C24_blocks_witness : ∃ s, runCalls init ([.publish] ++ [.pubFail 0] ++ [.publish, .send 0, .pubOk 0, .respond 1, .poll, .ack 1, .close] ++ [.poll]) = some s ∧
    s.published = [1] ∧ s.yields = [1] ∧ s.last = some .pending := ⟨_, rfl, by decide⟩

/-- **C24**, what holds (partial: only for publishes that fail after their message was handed to the broker, or are rejected because the channel is closed): if
no publish failed before that, none is under way, and every message handed to the broker was acknowledged, the next poll after close reports end-of-stream. -/
theorem C24_sent_failures_partial {cs : List Call} {s : St} (h : runCalls init cs = some s) (hcl : .close ∈ cs) (hnf : ∀ k, .pubFail k ∉ cs) (hidle : s.counted = [])
    (hall : ∀ m ∈ s.handed, .ack m ∈ cs) :
    ∃ s', call s .poll = some s' ∧ s'.last = some .none := by
  apply C21_next_poll_partial h hcl
  have t5 := (calls_trace h).2.2.2.2
  have key : (∀ k, .pubFail k ∉ cs) → ∀ m, m < s.status.length → m ∈ s.counted ∨ m ∈ s.handed := by
    refine calls_induction (s0 := init) (P := fun cs s => (∀ k, .pubFail k ∉ cs) → ∀ m, m < s.status.length → m ∈ s.counted ∨ m ∈ s.handed) ?_ ?_ cs s h
    · intro _ m hm; simp [init] at hm
    · clear h hcl hnf hidle hall t5 s cs
      intro cs c s s' hrun ih h hnf m hm
      have ih := ih (fun k hk => hnf k (by simp [hk]))
      obtain ⟨hr, hc⟩ := calls_rest hrun
      cases callR_of_call hr hc h with
      | publish _ =>
        simp at hm ⊢
        by_cases hml : m = s.status.length
        · simp [hml]
        · rcases ih m (by omega) with h | h <;> simp [h]
      | item _ _ _ => simp at hm ⊢; exact ih m hm
      | ack _ _ => simp at hm ⊢; exact ih m hm
      | step _ l _ hl n1 n2 n3 hs =>
        cases c <;> simp [Call.steps] at hl n1 n2 n3 <;> subst hl <;> cases stepR_of_step hs
        case send.pubSend k j a b hk =>
          simp at hm ⊢
          have := ih m hm
          rw [hk] at this; simp at this
          tauto
        case pubFail.pubFail k j a b hk => exact absurd (by simp) (hnf k)
        all_goals (first | exact ih m hm | (simp at hm ⊢; exact ih m hm))
      | _ => exact ih m hm
  intro m hm
  rcases key hnf m (by omega) with h | h
  · rw [hidle] at h; simp at h
  · exact hall m h

/-- The hypotheses are met, with a publish that fails after its message was sent and one that is rejected. -/
example : ∃ s, runCalls init [.publish, .publish, .send 0, .send 0, .pubFailSent 0, .pubOk 0, .respond 1, .respond 0, .poll, .poll, .ack 0, .ack 1, .close, .publish] = some s ∧
    s.counted = [] ∧ s.handed = [0, 1] ∧ s.published = [1] ∧ s.rejected = 1 := ⟨_, rfl, by decide⟩

end Coord
end Paladin
