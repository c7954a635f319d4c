import Verif.Spec.Setup
import Verif.Proofs.Lts
/-! # Invariants of the set-up -/
namespace Paladin
namespace Setup
variable {T C R B : Type} {fm : Formats T C R B} {reachable : String → Bool}

theorem bus_taskName (c : Config) : taskName c = bus c := by
  unfold taskName bus taskIpc; cases c.taskKey <;> rfl

/-- Lists only grow. -/
structure Ext (s s' : St T C R B) : Prop where
  memories : s.memories ≤ s'.memories
  leaders : s.leaders <+: s'.leaders
  workers : s.workers <+: s'.workers
  leases : s.leases <+: s'.leases
  msgs : s.msgs <+: s'.msgs
  got : s.got <+: s'.got

theorem Ext.refl (s : St T C R B) : Ext s s := ⟨Nat.le_refl _, List.prefix_refl _, List.prefix_refl _, List.prefix_refl _, List.prefix_refl _, List.prefix_refl _⟩

theorem Ext.trans {a b c : St T C R B} (h : Ext a b) (h' : Ext b c) : Ext a c :=
  ⟨Nat.le_trans h.1 h'.1, h.2.trans h'.2, h.3.trans h'.3, h.4.trans h'.4, h.5.trans h'.5, h.6.trans h'.6⟩

theorem push_ext (s : St T C R B) (f : Factory) (n : String) (b : Option B) (src : Source T C R) : Ext s (push s f n b src) := by
  unfold push; split
  · exact ⟨Nat.le_refl _, List.prefix_refl _, List.prefix_refl _, List.prefix_refl _, List.prefix_append _ _, List.prefix_refl _⟩
  · exact Ext.refl s

theorem step_ext {s s' : St T C R B} {l : Label T C R} (h : step fm reachable s l = some s') : Ext s s' := by
  have r := List.prefix_refl (α := Lease)
  cases l <;> simp only [step] at h
  case leader c =>
    split at h <;> cases h
    · refine ⟨?_, List.prefix_append _ _, List.prefix_append _ _, List.prefix_refl _, List.prefix_refl _, List.prefix_refl _⟩
      simp only; split <;> omega
    all_goals exact Ext.refl s
  case worker c =>
    split at h <;> cases h
    · refine ⟨?_, List.prefix_refl _, List.prefix_append _ _, List.prefix_refl _, List.prefix_refl _, List.prefix_refl _⟩
      simp only; split <;> omega
    all_goals exact Ext.refl s
  case lease l k =>
    split at h <;> cases h
    exact ⟨Nat.le_refl _, List.prefix_refl _, List.prefix_refl _, List.prefix_append _ _, List.prefix_refl _, List.prefix_refl _⟩
  case send => split at h <;> cases h; exact push_ext ..
  case leaderCommand => split at h <;> cases h; exact push_ext ..
  case workerCommand => split at h <;> cases h; exact push_ext ..
  case result =>
    split at h <;> try (cases h; done)
    split at h <;> cases h; exact push_ext ..
  case recv =>
    split at h <;> try (cases h; done)
    split at h <;> cases h
    exact ⟨Nat.le_refl _, List.prefix_refl _, List.prefix_refl _, List.prefix_refl _, List.prefix_refl _, List.prefix_append _ _⟩

theorem get_of_prefix {a b : List α} (h : a <+: b) {i : Nat} {x : α} (hx : a[i]? = some x) : b[i]? = some x := by
  obtain ⟨t, rfl⟩ := h
  obtain ⟨hi, rfl⟩ := List.getElem?_eq_some_iff.1 hx
  simp [List.getElem?_append_left hi]

theorem queueOf_ext {s s' : St T C R B} (h : Ext s s') {c : Consumer} {q : Place × String} (hq : queueOf s c = some q) : queueOf s' c = some q := by
  cases c <;> simp only [queueOf, Option.map_eq_some_iff, Option.bind_eq_some_iff] at hq ⊢
  · obtain ⟨x, hx, rfl⟩ := hq; exact ⟨x, get_of_prefix h.workers hx, rfl⟩
  · obtain ⟨x, hx, rfl⟩ := hq; exact ⟨x, get_of_prefix h.workers hx, rfl⟩
  · obtain ⟨x, hx, l, hl, rfl⟩ := hq; exact ⟨x, get_of_prefix h.leases hx, l, get_of_prefix h.leaders hl, rfl⟩

theorem asTask_ext {s s' : St T C R B} (h : Ext s s') {w m : Nat} {t : T} (ht : asTask fm s w m = some t) : asTask fm s' w m = some t := by
  simp only [asTask, Option.bind_eq_some_iff] at ht ⊢
  obtain ⟨x, hx, y, hy, hd⟩ := ht
  exact ⟨x, get_of_prefix h.workers hx, y, get_of_prefix h.msgs hy, hd⟩

/-- The connection a configuration leads to. -/
def PlaceOk (n : Nat) (c : Config) (p : Place) : Prop :=
  (c.runtime = .amqp ∧ ∃ uri, c.amqpUri = some uri ∧ p = .broker uri) ∨ (c.runtime = .inMemory ∧ ∃ k, k < n ∧ p = .memory k)

theorem PlaceOk.mono {n n' : Nat} {c : Config} {p : Place} (hn : n ≤ n') (h : PlaceOk n c p) : PlaceOk n' c p := by
  rcases h with h | ⟨h, k, hk, hp⟩
  · exact .inl h
  · exact .inr ⟨h, k, by omega, hp⟩

/-- Where a message comes from. -/
def SrcOk (fm : Formats T C R B) (s : St T C R B) (y : Msg T C R B) : Prop :=
  match y.src with
  | .task l t => ∃ L, s.leaders[l]? = some L ∧ y.place = L.factory.place ∧ y.name = L.task ∧ fm.encT L.factory.ser t = some y.bytes
  | .leaderCommand l c => ∃ L, s.leaders[l]? = some L ∧ y.place = L.factory.place ∧ y.name = commandIpc ∧ fm.encC L.factory.ser c = some y.bytes
  | .workerCommand w c => ∃ W, s.workers[w]? = some W ∧ y.place = W.factory.place ∧ y.name = commandIpc ∧ fm.encC W.factory.ser c = some y.bytes
  | .result w m r => ∃ W t, s.workers[w]? = some W ∧ (Consumer.tasks w, m) ∈ s.got ∧ asTask fm s w m = some t ∧
      y.place = W.factory.place ∧ y.name = fm.keyOf t ∧ fm.encR W.factory.ser r = some y.bytes

theorem SrcOk.mono {s s' : St T C R B} (h : Ext s s') {y : Msg T C R B} (hy : SrcOk fm s y) : SrcOk fm s' y := by
  unfold SrcOk at hy ⊢
  split at hy
  · obtain ⟨L, hL, hr⟩ := hy; exact ⟨L, get_of_prefix h.leaders hL, hr⟩
  · obtain ⟨L, hL, hr⟩ := hy; exact ⟨L, get_of_prefix h.leaders hL, hr⟩
  · obtain ⟨L, hL, hr⟩ := hy; exact ⟨L, get_of_prefix h.workers hL, hr⟩
  · obtain ⟨W, t, hW, hg, ht, hr⟩ := hy
    exact ⟨W, t, get_of_prefix h.workers hW, h.got.subset hg, asTask_ext h ht, hr⟩

structure Inv (fm : Formats T C R B) (s : St T C R B) : Prop where
  leader : ∀ (l : Nat) (L : Leader), s.leaders[l]? = some L → L.task = bus L.cfg ∧ L.factory.ser = L.cfg.serializer ∧ PlaceOk s.memories L.cfg L.factory.place
  worker : ∀ (w : Nat) (W : Worker), s.workers[w]? = some W → W.task = bus W.cfg ∧ W.factory.ser = W.cfg.serializer ∧ PlaceOk s.memories W.cfg W.factory.place
  owner : ∀ (w : Nat) (W : Worker) (l : Nat), s.workers[w]? = some W → W.owner = some l → ∃ L, s.leaders[l]? = some L ∧ L.cfg = W.cfg ∧ L.factory = W.factory ∧ L.cfg.runtime = .inMemory
  apart : ∀ (l l' : Nat) (L L' : Leader) (n : Nat), s.leaders[l]? = some L → s.leaders[l']? = some L' → L.factory.place = .memory n → L'.factory.place = .memory n → l = l'
  alone : ∀ (l w : Nat) (L : Leader) (W : Worker) (n : Nat), s.leaders[l]? = some L → s.workers[w]? = some W → W.owner = none → L.factory.place = .memory n → W.factory.place ≠ .memory n
  single : ∀ (w w' : Nat) (W W' : Worker) (n : Nat), s.workers[w]? = some W → s.workers[w']? = some W' → W.owner = none → W'.owner = none →
    W.factory.place = .memory n → W'.factory.place = .memory n → w = w'
  msg : ∀ (m : Nat) (y : Msg T C R B), s.msgs[m]? = some y → SrcOk fm s y
  got : ∀ (c : Consumer) (m : Nat), (c, m) ∈ s.got → ∃ y, s.msgs[m]? = some y ∧ queueOf s c = some (y.place, y.name)
  lease : ∀ (k : Nat) (x : Lease), s.leases[k]? = some x → ∃ L, s.leaders[x.leader]? = some L
  count : ∀ (l : Nat) (L : Leader), s.leaders[l]? = some L → (s.workers.filter fun W => W.owner = some l).length = emulated L.cfg

theorem init_inv : Inv fm (init : St T C R B) := by
  constructor <;> simp [init]

theorem connect_ok {n : Nat} {c : Config} {f : Factory} (h : connect reachable n c = .ok f) :
    f.ser = c.serializer ∧ ((c.runtime = .amqp ∧ ∃ uri, c.amqpUri = some uri ∧ f.place = .broker uri) ∨ (c.runtime = .inMemory ∧ f.place = .memory n)) := by
  unfold connect at h
  split at h
  · split at h
    · cases h
    · split at h <;> cases h
      rename_i h1 _ uri h2 _
      exact ⟨rfl, .inl ⟨h1, uri, h2, rfl⟩⟩
  · cases h; rename_i h1; exact ⟨rfl, .inr ⟨h1, rfl⟩⟩

theorem get_snoc {a : List α} {x y : α} {i : Nat} (h : (a ++ [x])[i]? = some y) : a[i]? = some y ∨ (i = a.length ∧ y = x) := by
  rw [List.getElem?_append] at h
  split at h
  · exact .inl h
  · right
    obtain ⟨hi, hy⟩ := List.getElem?_eq_some_iff.1 h
    simp at hi hy
    exact ⟨by omega, hy.symm⟩

theorem get_append {a b : List α} {y : α} {i : Nat} (h : (a ++ b)[i]? = some y) : a[i]? = some y ∨ (y ∈ b ∧ a.length ≤ i) := by
  rw [List.getElem?_append] at h
  split at h
  · exact .inl h
  · exact .inr ⟨List.mem_of_getElem? h, by omega⟩

/-- Publishing keeps the invariant when the message is as it should be. -/
theorem push_inv {s : St T C R B} (h : Inv fm s) (f : Factory) (n : String) (b : Option B) (src : Source T C R)
    (hs : ∀ b', b = some b' → SrcOk fm s ⟨f.place, n, b', src⟩) : Inv fm (push s f n b src) := by
  unfold push
  split
  · rename_i b'
    have he : Ext s { s with msgs := s.msgs ++ [⟨f.place, n, b', src⟩] } :=
      ⟨Nat.le_refl _, List.prefix_refl _, List.prefix_refl _, List.prefix_refl _, List.prefix_append _ _, List.prefix_refl _⟩
    refine ⟨h.leader, h.worker, h.owner, h.apart, h.alone, h.single, ?_, ?_, h.lease, h.count⟩
    · intro m y hy
      rcases get_snoc hy with hy | ⟨_, rfl⟩
      · exact (h.msg m y hy).mono he
      · exact (hs b' rfl).mono he
    · intro c m hc
      obtain ⟨y, hy, hq⟩ := h.got c m hc
      exact ⟨y, get_of_prefix he.msgs hy, queueOf_ext he hq⟩
  · exact h

theorem step_inv {s s' : St T C R B} {l : Label T C R} (h : Inv fm s) (hs : step fm reachable s l = some s') : Inv fm s' := by
  have he := step_ext hs
  cases l <;> simp only [step] at hs
  case leader c =>
    split at hs <;> cases hs
    · rename_i f hf
      obtain ⟨hser, hpl⟩ := connect_ok hf
      have hpo : PlaceOk (if c.runtime = .inMemory then s.memories + 1 else s.memories) c f.place := by
        rcases hpl with hpl | ⟨h1, h2⟩
        · exact .inl hpl
        · rw [if_pos h1]; exact .inr ⟨h1, _, by omega, h2⟩
      have hfresh : ∀ (c' : Config) (p : Place) (n : Nat), PlaceOk s.memories c' p → p = .memory n → f.place = .memory n → False := by
        rintro c' p n (⟨_, u, _, rfl⟩ | ⟨_, k, hk, rfl⟩) hp hf'
        · cases hp
        · cases hp
          rcases hpl with ⟨_, u, _, hu⟩ | ⟨_, hu⟩ <;> rw [hu] at hf' <;> cases hf'
          omega
      have hmem : ∀ (w : Nat) (W : Worker), (s.workers ++ List.replicate (emulated c) (⟨c, f, taskName c, some s.leaders.length⟩ : Worker))[w]? = some W →
          s.workers[w]? = some W ∨ (W = ⟨c, f, taskName c, some s.leaders.length⟩ ∧ c.runtime = .inMemory) := by
        intro w W hW
        rcases get_append hW with hW | ⟨hW, _⟩
        · exact .inl hW
        · right
          obtain ⟨h0, rfl⟩ := List.mem_replicate.1 hW
          refine ⟨rfl, ?_⟩
          unfold emulated at h0
          split at h0
          · assumption
          · exact absurd rfl h0
      refine ⟨?_, ?_, ?_, ?_, ?_, ?_, ?_, ?_, ?_, ?_⟩
      · intro l L hL
        rcases get_snoc hL with hL | ⟨_, rfl⟩
        · obtain ⟨h1, h2, h3⟩ := h.leader l L hL; exact ⟨h1, h2, h3.mono he.memories⟩
        · exact ⟨bus_taskName c, hser, hpo⟩
      · intro w W hW
        rcases hmem w W hW with hW | ⟨rfl, _⟩
        · obtain ⟨h1, h2, h3⟩ := h.worker w W hW; exact ⟨h1, h2, h3.mono he.memories⟩
        · exact ⟨bus_taskName c, hser, hpo⟩
      · intro w W l hW hl
        rcases hmem w W hW with hW | ⟨rfl, hc⟩
        · obtain ⟨L, hL, hr⟩ := h.owner w W l hW hl; exact ⟨L, get_of_prefix he.leaders hL, hr⟩
        · cases hl; exact ⟨⟨c, f, taskName c⟩, by simp, rfl, rfl, hc⟩
      · intro l l' L L' n hL hL' hn hn'
        rcases get_snoc hL with hL | ⟨rfl, rfl⟩ <;> rcases get_snoc hL' with hL' | ⟨rfl, rfl⟩
        · exact h.apart l l' L L' n hL hL' hn hn'
        · exact (hfresh _ _ n (h.leader l L hL).2.2 hn hn').elim
        · exact (hfresh _ _ n (h.leader l' L' hL').2.2 hn' hn).elim
        · rfl
      · intro l w L W n hL hW ho hn hn'
        rcases hmem w W hW with hW | ⟨rfl, _⟩
        · rcases get_snoc hL with hL | ⟨rfl, rfl⟩
          · exact h.alone l w L W n hL hW ho hn hn'
          · exact hfresh _ _ n (h.worker w W hW).2.2 hn' hn
        · cases ho
      · intro w w' W W' n hW hW' ho ho' hn hn'
        rcases hmem w W hW with hW | ⟨rfl, _⟩
        · rcases hmem w' W' hW' with hW' | ⟨rfl, _⟩
          · exact h.single w w' W W' n hW hW' ho ho' hn hn'
          · cases ho'
        · cases ho
      · intro m y hy; exact (h.msg m y hy).mono he
      · intro c' m hc
        obtain ⟨y, hy, hq⟩ := h.got c' m hc
        exact ⟨y, hy, queueOf_ext he hq⟩
      · intro k x hx
        obtain ⟨L, hL⟩ := h.lease k x hx
        exact ⟨L, get_of_prefix he.leaders hL⟩
      · intro l L hL
        simp only [List.filter_append, List.length_append]
        rcases get_snoc hL with hL | ⟨rfl, rfl⟩
        · rw [h.count l L hL]
          have hl : l < s.leaders.length := (List.getElem?_eq_some_iff.1 hL).1
          have : (List.replicate (emulated c) (⟨c, f, taskName c, some s.leaders.length⟩ : Worker)).filter (fun W => W.owner = some l) = [] := by
            rw [List.filter_eq_nil_iff]
            intro x hx
            obtain ⟨_, rfl⟩ := List.mem_replicate.1 hx
            simp; omega
          rw [this]; rfl
        · have h0 : s.workers.filter (fun W => W.owner = some s.leaders.length) = [] := by
            rw [List.filter_eq_nil_iff]
            intro x hx hx'
            obtain ⟨w, hw⟩ := List.getElem?_of_mem hx
            obtain ⟨L, hL', _⟩ := h.owner w x _ hw (by simpa using hx')
            simp at hL'
          rw [h0]
          have : (List.replicate (emulated c) (⟨c, f, taskName c, some s.leaders.length⟩ : Worker)).filter (fun W => W.owner = some s.leaders.length) =
              List.replicate (emulated c) (⟨c, f, taskName c, some s.leaders.length⟩ : Worker) := by
            rw [List.filter_eq_self]
            intro x hx
            obtain ⟨_, rfl⟩ := List.mem_replicate.1 hx
            simp
          rw [this]; simp
    all_goals exact h
  case worker c =>
    split at hs <;> cases hs
    · rename_i f hf
      obtain ⟨hser, hpl⟩ := connect_ok hf
      have hpo : PlaceOk (if c.runtime = .inMemory then s.memories + 1 else s.memories) c f.place := by
        rcases hpl with hpl | ⟨h1, h2⟩
        · exact .inl hpl
        · rw [if_pos h1]; exact .inr ⟨h1, _, by omega, h2⟩
      have hfresh : ∀ (c' : Config) (p : Place) (n : Nat), PlaceOk s.memories c' p → p = .memory n → f.place = .memory n → False := by
        rintro c' p n (⟨_, u, _, rfl⟩ | ⟨_, k, hk, rfl⟩) hp hf'
        · cases hp
        · cases hp
          rcases hpl with ⟨_, u, _, hu⟩ | ⟨_, hu⟩ <;> rw [hu] at hf' <;> cases hf'
          omega
      refine ⟨?_, ?_, ?_, h.apart, ?_, ?_, ?_, ?_, h.lease, ?_⟩
      · intro l L hL
        obtain ⟨h1, h2, h3⟩ := h.leader l L hL; exact ⟨h1, h2, h3.mono he.memories⟩
      · intro w W hW
        rcases get_snoc hW with hW | ⟨_, rfl⟩
        · obtain ⟨h1, h2, h3⟩ := h.worker w W hW; exact ⟨h1, h2, h3.mono he.memories⟩
        · exact ⟨bus_taskName c, hser, hpo⟩
      · intro w W l hW hl
        rcases get_snoc hW with hW | ⟨_, rfl⟩
        · exact h.owner w W l hW hl
        · cases hl
      · intro l w L W n hL hW ho hn hn'
        rcases get_snoc hW with hW | ⟨_, rfl⟩
        · exact h.alone l w L W n hL hW ho hn hn'
        · exact hfresh _ _ n (h.leader l L hL).2.2 hn hn'
      · intro w w' W W' n hW hW' ho ho' hn hn'
        rcases get_snoc hW with hW | ⟨rfl, rfl⟩ <;> rcases get_snoc hW' with hW' | ⟨rfl, rfl⟩
        · exact h.single w w' W W' n hW hW' ho ho' hn hn'
        · exact (hfresh _ _ n (h.worker w W hW).2.2 hn hn').elim
        · exact (hfresh _ _ n (h.worker w' W' hW').2.2 hn' hn).elim
        · rfl
      · intro m y hy; exact (h.msg m y hy).mono he
      · intro c' m hc
        obtain ⟨y, hy, hq⟩ := h.got c' m hc
        exact ⟨y, hy, queueOf_ext he hq⟩
      · intro l L hL
        simp only [List.filter_append, List.length_append]
        rw [h.count l L hL]
        simp
    all_goals exact h
  case lease l k =>
    split at hs <;> cases hs
    rename_i L hL
    refine ⟨h.leader, h.worker, h.owner, h.apart, h.alone, h.single, ?_, ?_, ?_, h.count⟩
    · intro m y hy; exact (h.msg m y hy).mono he
    · intro c' m hc
      obtain ⟨y, hy, hq⟩ := h.got c' m hc
      exact ⟨y, hy, queueOf_ext he hq⟩
    · intro k' x hx
      rcases get_snoc hx with hx | ⟨_, rfl⟩
      · exact h.lease k' x hx
      · exact ⟨L, hL⟩
  case send l t =>
    split at hs <;> cases hs
    rename_i L hL
    exact push_inv h _ _ _ _ fun b' hb => ⟨L, hL, rfl, rfl, hb⟩
  case leaderCommand l t =>
    split at hs <;> cases hs
    rename_i L hL
    exact push_inv h _ _ _ _ fun b' hb => ⟨L, hL, rfl, rfl, hb⟩
  case workerCommand l t =>
    split at hs <;> cases hs
    rename_i L hL
    exact push_inv h _ _ _ _ fun b' hb => ⟨L, hL, rfl, rfl, hb⟩
  case result w m r =>
    split at hs <;> try (cases hs; done)
    rename_i hg
    split at hs <;> cases hs
    rename_i W t hW ht
    exact push_inv h _ _ _ _ fun b' hb => ⟨W, t, hW, hg, ht, rfl, rfl, hb⟩
  case recv c m =>
    split at hs <;> try (cases hs; done)
    rename_i q y hq hy
    split at hs <;> cases hs
    rename_i hqy
    refine ⟨h.leader, h.worker, h.owner, h.apart, h.alone, h.single, ?_, ?_, h.lease, h.count⟩
    · intro m' y' hy'; exact (h.msg m' y' hy').mono he
    · intro c' m' hc
      rcases List.mem_append.1 hc with hc | hc
      · obtain ⟨y', hy', hq'⟩ := h.got c' m' hc
        exact ⟨y', hy', queueOf_ext he hq'⟩
      · simp at hc
        obtain ⟨rfl, rfl⟩ := hc
        exact ⟨y, hy, by rw [queueOf_ext he hq, hqy]⟩

theorem run_setup_inv {s : St T C R B} {ls : List (Label T C R)} (h : Lts.run (step fm reachable) init ls = some s) : Inv fm s :=
  Lts.run_inv init_inv (fun _ _ _ h hs => step_inv h hs) h

theorem run_setup_ext {s s' : St T C R B} {ls : List (Label T C R)} (h : Lts.run (step fm reachable) s ls = some s') : Ext s s' :=
  Lts.run_rel Ext.refl (fun _ _ _ => Ext.trans) (fun _ _ _ h => step_ext h) h

/-- A leader and a worker have the same connection exactly when they should. -/
theorem near_iff {s : St T C R B} (h : Inv fm s) {l w : Nat} {L : Leader} {W : Worker} (hL : s.leaders[l]? = some L) (hW : s.workers[w]? = some W) :
    L.factory.place = W.factory.place ↔ Near W l L.cfg := by
  obtain ⟨hlt, hls, hlp⟩ := h.leader l L hL
  obtain ⟨hwt, hws, hwp⟩ := h.worker w W hW
  constructor
  · intro hp
    cases ho : W.owner with
    | some l' =>
      left
      obtain ⟨L', hL', hc, hf, hm⟩ := h.owner w W l' hW ho
      obtain ⟨_, _, hlp'⟩ := h.leader l' L' hL'
      rcases hlp' with ⟨h1, _⟩ | ⟨_, k, _, hk⟩
      · rw [h1] at hm; cases hm
      · rw [h.apart l l' L L' k hL hL' (by rw [hp, ← hf, hk]) hk]
        exact ho
    | none =>
      right
      refine ⟨ho, ?_⟩
      rcases hlp with ⟨h1, u, hu, hpu⟩ | ⟨h1, k, _, hk⟩
      · rcases hwp with ⟨h2, u', hu', hpu'⟩ | ⟨h2, k, _, hk⟩
        · rw [hpu, hpu'] at hp; cases hp
          exact ⟨h1, h2, by rw [hu, hu']⟩
        · rw [hpu, hk] at hp; cases hp
      · exact absurd (hp ▸ hk) (h.alone l w L W k hL hW ho hk)
  · rintro (ho | ⟨ho, h1, h2, h3⟩)
    · obtain ⟨L', hL', hc, hf, hm⟩ := h.owner w W l hW ho
      rw [hL] at hL'; cases hL'
      rw [hf]
    · rcases hlp with ⟨_, u, hu, hpu⟩ | ⟨h1', _⟩
      · rcases hwp with ⟨_, u', hu', hpu'⟩ | ⟨h2', _⟩
        · rw [hpu, hpu']; rw [hu, hu'] at h3; cases h3; rfl
        · rw [h2] at h2'; cases h2'
      · rw [h1] at h1'; cases h1'

/-- An emulated worker has its leader's bus. -/
theorem owner_bus {s : St T C R B} (h : Inv fm s) {l w : Nat} {L : Leader} {W : Worker} (hL : s.leaders[l]? = some L) (hW : s.workers[w]? = some W) (ho : W.owner = some l) :
    L.cfg = W.cfg ∧ L.cfg.runtime = .inMemory := by
  obtain ⟨L', hL', hc, _, hm⟩ := h.owner w W l hW ho
  rw [hL] at hL'; cases hL'
  exact ⟨hc, hm⟩

/-- A leader and a worker have the same connection and the same task queue exactly when the worker serves the leader. -/
theorem serves_iff {s : St T C R B} (h : Inv fm s) {l w : Nat} {L : Leader} {W : Worker} (hL : s.leaders[l]? = some L) (hW : s.workers[w]? = some W) :
    (L.factory.place = W.factory.place ∧ L.task = W.task) ↔ Serves W l L.cfg := by
  rw [near_iff h hL hW, (h.leader l L hL).1, (h.worker w W hW).1]
  constructor
  · rintro ⟨ho | ⟨ho, h1, h2, h3⟩, hb⟩
    · exact .inl ho
    · exact .inr ⟨ho, h1, h2, h3, hb⟩
  · rintro (ho | ⟨ho, h1, h2, h3, hb⟩)
    · exact ⟨.inl ho, by rw [(owner_bus h hL hW ho).1]⟩
    · exact ⟨.inr ⟨ho, h1, h2, h3⟩, hb⟩

/-- Two workers have the same connection exactly when they are peers. -/
theorem peers_iff {s : St T C R B} (h : Inv fm s) {w w' : Nat} {W W' : Worker} (hW : s.workers[w]? = some W) (hW' : s.workers[w']? = some W') :
    W.factory.place = W'.factory.place ↔ Peers w w' W W' := by
  have key : ∀ (w w' : Nat) (W W' : Worker) (l : Nat), s.workers[w]? = some W → s.workers[w']? = some W' → W.owner = some l → (W.factory.place = W'.factory.place ↔ W'.owner = some l) := by
    intro w w' W W' l hW hW' ho
    obtain ⟨L, hL, hc, hf, hm⟩ := h.owner w W l hW ho
    rw [← hf, near_iff h hL hW']
    constructor
    · rintro (h1 | ⟨_, h1, _⟩)
      · exact h1
      · rw [h1] at hm; cases hm
    · exact .inl
  cases ho : W.owner with
  | some l =>
    rw [key w w' W W' l hW hW' ho]
    unfold Peers
    rw [ho]
    constructor
    · intro h1; exact .inl ⟨by simp, h1.symm⟩
    · rintro (⟨_, h1⟩ | ⟨h1, _⟩)
      · exact h1.symm
      · cases h1
  | none =>
    cases ho' : W'.owner with
    | some l =>
      rw [eq_comm, key w' w W' W l hW' hW ho']
      unfold Peers
      rw [ho, ho']; simp
    | none =>
      unfold Peers
      rw [ho, ho']
      simp only [ne_eq, not_true_eq_false, false_and, true_and, false_or]
      rcases (h.worker w W hW).2.2 with ⟨h1, u, hu, hpu⟩ | ⟨h1, k, _, hk⟩
      · rcases (h.worker w' W' hW').2.2 with ⟨h2, u', hu', hpu'⟩ | ⟨h2, k, _, hk⟩
        · rw [hpu, hpu']
          constructor
          · intro hp; cases hp; exact .inr ⟨h1, h2, by rw [hu, hu']⟩
          · rintro (rfl | ⟨_, _, h3⟩)
            · rw [hW] at hW'; cases hW'; rw [hu] at hu'; cases hu'; rfl
            · rw [hu, hu'] at h3; cases h3; rfl
        · rw [hpu, hk]
          constructor
          · intro hp; cases hp
          · rintro (rfl | ⟨_, h3, _⟩)
            · rw [hW] at hW'; cases hW'; rw [h1] at h2; cases h2
            · rw [h3] at h2; cases h2
      · constructor
        · intro hp
          exact .inl (h.single w w' W W' k hW hW' ho ho' hk (hp ▸ hk))
        · rintro (rfl | ⟨h3, _⟩)
          · rw [hW] at hW'; cases hW'; rfl
          · rw [h3] at h1; cases h1

end Setup
end Paladin
