import Verif.Spec.PollMap
import Verif.Model.MapS
import Verif.Proofs.MapS
import Verif.Proofs.Lts
/-! # The polls of a mapped stream are executions of the model of map: proofs -/
namespace Paladin
namespace MapPoll

variable {α β ε ω : Type} {op : ω → α → Except ε β}

/-- The state of the map that belongs to a state of the polled stream, `n` items having been yielded. -/
structure Core (s : St) (m : MapS.St α β ε) (n : Nat) : Prop where
  infl : m.inflight = []
  unc : m.unconf = 0
  tasks : m.tasks.length = s.inflight
  results : m.results.length = s.results + s.acking.isSome.toNat
  pending : m.pending = s.pending
  closed : m.closed = s.closed
  done : m.sendDone = decide (s.left = .over)
  inner : m.innerEnded = false
  recv : m.recvEnded = false
  ended : m.ended = false
  outs : m.outs.length = n
  pend : s.pending = s.inflight + s.results + s.acking.isSome.toNat

theorem Core.congr {s s' : St} {m : MapS.St α β ε} {n : Nat} (h : Core s m n) (h1 : s'.inflight = s.inflight) (h2 : s'.results = s.results) (h3 : s'.acking = s.acking) (h4 : s'.pending = s.pending)
    (h5 : s'.closed = s.closed) (h6 : s'.left = s.left) : Core s' m n := by
  obtain ⟨a, b, c, d, e, f, g, i, j, k, l, o⟩ := h
  exact ⟨a, b, by rw [h1]; exact c, by rw [h2, h3]; exact d, by rw [h4]; exact e, by rw [h5]; exact f, by rw [h6]; exact g, i, j, k, l, by rw [h1, h2, h3, h4]; exact o⟩

/-- One item more, if this was the outcome. -/
def Out.items : Out → Nat
  | .item => 1
  | _ => 0

theorem run_one' {m m' : MapS.St α β ε} {l : MapS.Label α ε ω} (h : MapS.step op m l = some m') : MapS.run op m [l] = some m' := by simp [MapS.run, h]

theorem publish_sim (a : α) {m : MapS.St α β ε} (h1 : m.inflight = []) (h2 : m.unconf = 0) (h3 : m.ended = false) (h4 : m.sendDone = false) (k : Nat) :
    ∃ ms : List (MapS.Label α ε ω), MapS.run op m ms = some { m with tasks := m.tasks ++ List.replicate k (0, a), pending := m.pending + k } := by
  induction k with
  | zero => exact ⟨[], by simp [MapS.run]⟩
  | succ k ih =>
    obtain ⟨ms, h⟩ := ih
    refine ⟨ms ++ [.item 0 a, .send 0, .confirm], ?_⟩
    rw [MapS.run_append, h]
    obtain ⟨inflight, unconf, tasks, results, pending, closed, sendDone, innerEnded, recvEnded, outs, ended⟩ := m
    simp only at h1 h2 h3 h4
    subst h1 h2 h3 h4
    simp [MapS.run, MapS.step, MapS.limit, Fold.takeAt, List.replicate_succ']
    omega

theorem left_sim (op : ω → α → Except ε β) (a : α) (e : ε) {s : St} {m : MapS.St α β ε} {n : Nat} (hc : Core s m n) (c : Choice) :
    ∃ (ms : List (MapS.Label α ε ω)) (m' : MapS.St α β ε), MapS.run op m ms = some m' ∧ Core (pollLeft s c).1 m' (n + (pollLeft s c).2.items) := by
  have hc' := hc
  obtain ⟨h1, h2, h3, h4, h5, h6, h7, h8, h9, h10, h11, h12⟩ := hc
  unfold pollLeft
  split
  · exact ⟨[], m, rfl, hc'⟩
  · exact ⟨[], m, rfl, hc'⟩
  · rename_i hl
    have hd : m.sendDone = false := by rw [h7, hl]; rfl
    split
    · rename_i k
      obtain ⟨ms, h⟩ := publish_sim (op := op) a h1 h2 h10 hd k
      exact ⟨ms, _, h, h1, h2, by simp [publish, h3], h4, by simp [publish, h5], h6, hd, h8, h9, h10, h11, by simp only [publish, h12]; omega⟩
    · rename_i k
      obtain ⟨ms, h⟩ := publish_sim (op := op) a h1 h2 h10 hd k
      have e1 : MapS.step op { m with tasks := m.tasks ++ List.replicate k (0, a), pending := m.pending + k } (.inputEnd : MapS.Label α ε ω) =
          some { m with tasks := m.tasks ++ List.replicate k (0, a), pending := m.pending + k, closed := true, sendDone := true } := by simp [MapS.step, h10, hd, h1, h2]
      have e2 : MapS.run op m (ms ++ [.inputEnd]) = some { m with tasks := m.tasks ++ List.replicate k (0, a), pending := m.pending + k, closed := true, sendDone := true } := by
        rw [MapS.run_append, h]; exact run_one' e1
      refine ⟨_, _, e2, ?_⟩
      exact ⟨h1, h2, by simp [publish, h3], h4, by simp [publish, h5], rfl, rfl, h8, h9, h10, h11, by simp only [publish, h12]; omega⟩
    · rename_i k
      obtain ⟨ms, h⟩ := publish_sim (op := op) a h1 h2 h10 hd k
      have e1 : MapS.step op { m with tasks := m.tasks ++ List.replicate k (0, a), pending := m.pending + k } (.inputErr e : MapS.Label α ε ω) =
          some (MapS.sendFail { m with tasks := m.tasks ++ List.replicate k (0, a), pending := m.pending + k } e) := by simp [MapS.step, h10, hd]
      have e2 : MapS.run op m (ms ++ [.inputErr e]) = some (MapS.sendFail { m with tasks := m.tasks ++ List.replicate k (0, a), pending := m.pending + k } e) := by
        rw [MapS.run_append, h]; exact run_one' e1
      refine ⟨_, _, e2, ?_⟩
      exact ⟨rfl, rfl, by simp [MapS.sendFail, publish, h3], h4, by simp [MapS.sendFail, publish, h5], rfl, rfl, h8, h9, h10, by simp [MapS.sendFail, h11, Out.items], by simp only [publish, h12]; omega⟩

theorem recv_sim (op : ω → α → Except ε β) {m : MapS.St α β ε} {k : Nat} (h0 : m.results.length = k + 1) (h1 : m.innerEnded = false) (h2 : m.recvEnded = false) (h3 : m.ended = false) :
    ∃ r rest, m.results = r :: rest ∧ rest.length = k ∧ MapS.run op m ([.recv 0] : List (MapS.Label α ε ω)) = some { m with results := rest, pending := m.pending - 1, outs := m.outs ++ [r] } := by
  cases hr : m.results with
  | nil => simp [hr] at h0
  | cons r rest =>
    refine ⟨r, rest, rfl, by simpa [hr] using h0, run_one' ?_⟩
    simp [MapS.step, h1, h2, h3, hr, Fold.takeAt]

theorem right_sim (op : ω → α → Except ε β) {s : St} {m : MapS.St α β ε} {n : Nat} (hc : Core s m n) (now : Bool) :
    ∃ (ms : List (MapS.Label α ε ω)) (m' : MapS.St α β ε), MapS.run op m ms = some m' ∧ Core (pollRight s now).1 m' (n + (pollRight s now).2.items) := by
  have hc' := hc
  obtain ⟨h1, h2, h3, h4, h5, h6, h7, h8, h9, h10, h11, h12⟩ := hc
  unfold pollRight
  split
  · rename_i ha
    rw [ha] at h4 h12
    simp only [Option.isSome_some, Bool.toNat_true] at h12
    obtain ⟨r, rest, e1, e2, e3⟩ := recv_sim op h4 h8 h9 h10
    refine ⟨[.recv 0], _, e3, ?_⟩
    exact ⟨h1, h2, h3, by simp [ack, e2], by simp only [ack, h5]; omega, h6, h7, h8, h9, h10, by simp [h11, Out.items], by simp only [ack, Option.isSome_none, Bool.toNat_false]; omega⟩
  · exact ⟨[], m, rfl, hc'⟩
  · rename_i ha
    rw [ha] at h4 h12
    simp only [Option.isSome_none, Bool.toNat_false] at h4 h12
    split
    · rename_i hp
      split
      · obtain ⟨r, rest, e1, e2, e3⟩ := recv_sim op (k := s.results - 1) (m := m) (by rw [h4]; omega) h8 h9 h10
        refine ⟨[.recv 0], _, e3, ?_⟩
        exact ⟨h1, h2, h3, by simp [ack, e2, ha], by simp only [ack, h5]; omega, h6, h7, h8, h9, h10, by simp [h11, Out.items], by simp only [ack, ha, Option.isSome_none, Bool.toNat_false]; omega⟩
      · exact ⟨[], m, rfl, h1, h2, h3, by simp only [h4, Option.isSome_some, Bool.toNat_true]; omega, h5, h6, h7, h8, h9, h10, h11, by simp only [h12, Option.isSome_some, Bool.toNat_true]; omega⟩
    · split
      · exact ⟨[], m, rfl, h1, h2, h3, by simpa [ha] using h4, h5, h6, h7, h8, h9, h10, h11, by simpa [ha] using h12⟩
      · exact ⟨[], m, rfl, h1, h2, h3, by simpa [ha] using h4, h5, h6, h7, h8, h9, h10, h11, by simpa [ha] using h12⟩

theorem side_sim (op : ω → α → Except ε β) (a : α) (e : ε) {s : St} {m : MapS.St α β ε} {n : Nat} (hc : Core s m n) (c : Choice) (now : Bool) (side : Side) :
    ∃ (ms : List (MapS.Label α ε ω)) (m' : MapS.St α β ε), MapS.run op m ms = some m' ∧ Core (pollSide s c now side).1 m' (n + (pollSide s c now side).2.items) := by
  cases side with
  | left => exact left_sim op a e hc c
  | right => exact right_sim op hc now

theorem inner_sim (op : ω → α → Except ε β) (a : α) (e : ε) {s : St} {m : MapS.St α β ε} {n : Nat} (hc : Core s m n) (c : Choice) (now : Bool) (side : Side) :
    ∃ (ms : List (MapS.Label α ε ω)) (m' : MapS.St α β ε), MapS.run op m ms = some m' ∧ Core (pollInner s c now side).1 m' (n + (pollInner s c now side).2.items) := by
  obtain ⟨ms, m1, h1, h2⟩ := side_sim op a e hc c now side
  unfold pollInner
  simp only
  generalize pollSide s c now side = r at h2
  obtain ⟨s1, o1⟩ := r
  cases o1 with
  | item => exact ⟨ms, m1, h1, h2⟩
  | done =>
    have h2' : Core { s1 with sel := s1.sel.finish side } m1 n := h2.congr rfl rfl rfl rfl rfl rfl
    obtain ⟨ms', m2, g1, g2⟩ := side_sim op a e h2' c now side.other
    have hr : MapS.run op m (ms ++ ms') = some m2 := by rw [MapS.run_append, h1]; exact g1
    simp only
    generalize pollSide { s1 with sel := s1.sel.finish side } c now side.other = t at g2
    obtain ⟨s2, o2⟩ := t
    cases o2 with
    | item => exact ⟨_, _, hr, g2⟩
    | pending => exact ⟨_, _, hr, g2⟩
    | done => exact ⟨_, _, hr, g2.congr rfl rfl rfl rfl rfl rfl⟩
  | pending =>
    obtain ⟨ms', m2, g1, g2⟩ := side_sim op a e (s := s1) (n := n) h2 c now side.other
    have hr : MapS.run op m (ms ++ ms') = some m2 := by rw [MapS.run_append, h1]; exact g1
    simp only
    generalize pollSide s1 c now side.other = t at g2
    obtain ⟨s2, o2⟩ := t
    cases o2 with
    | item => exact ⟨_, _, hr, g2⟩
    | pending => exact ⟨_, _, hr, g2⟩
    | done => exact ⟨_, _, hr, g2.congr rfl rfl rfl rfl rfl rfl⟩

theorem select_sim (op : ω → α → Except ε β) (a : α) (e : ε) {s : St} {m : MapS.St α β ε} {n : Nat} (hc : Core s m n) (c : Choice) (now : Bool) :
    ∃ (ms : List (MapS.Label α ε ω)) (m' : MapS.St α β ε), MapS.run op m ms = some m' ∧ Core (pollSelect s c now).1 m' (n + (pollSelect s c now).2.items) := by
  unfold pollSelect
  split
  · exact inner_sim op a e (s := { s with side := s.side.other }) (hc.congr rfl rfl rfl rfl rfl rfl) c now s.side
  · obtain ⟨ms, m1, h1, h2⟩ := right_sim op hc now
    simp only
    generalize pollRight s now = r at h2
    obtain ⟨s1, o1⟩ := r
    cases o1 with
    | done => exact ⟨ms, m1, h1, h2.congr rfl rfl rfl rfl rfl rfl⟩
    | item => exact ⟨ms, m1, h1, h2⟩
    | pending => exact ⟨ms, m1, h1, h2⟩
  · obtain ⟨ms, m1, h1, h2⟩ := left_sim op a e hc c
    simp only
    generalize pollLeft s c = r at h2
    obtain ⟨s1, o1⟩ := r
    cases o1 with
    | done => exact ⟨ms, m1, h1, h2.congr rfl rfl rfl rfl rfl rfl⟩
    | item => exact ⟨ms, m1, h1, h2⟩
    | pending => exact ⟨ms, m1, h1, h2⟩
  · exact ⟨[], m, rfl, hc⟩

theorem yielded_snoc {s s1 s2 : St} {ls : List Label} {l : Label} (h : run s ls = some s1) (hs : step s1 l = some s2) :
    yielded s (ls ++ [l]) = yielded s ls + (match l with | .poll _ _ => if s2.last = some .item then 1 else 0 | _ => 0) := by
  induction ls generalizing s with
  | nil =>
    simp only [run, Lts.run, Option.some.injEq] at h
    subst h
    cases l <;> simp [yielded, hs]
  | cons x xs ih =>
    obtain ⟨s', h1, h2⟩ := Lts.run_cons.1 h
    have := ih h2
    cases x <;> simp only [List.cons_append, yielded, h1, this]
    omega

end MapPoll
end Paladin
