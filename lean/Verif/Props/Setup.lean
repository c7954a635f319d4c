import Verif.Proofs.Setup
/-!
# C77: who works for whom

Leaders and workers are created from configurations, in any number and order, on any number of brokers and in-memory connections. The statements tell which workers receive a leader's tasks, where the results go and
whom commands reach.
-/
namespace Paladin
namespace Setup
variable {T C R B : Type} {fm : Formats T C R B} {reachable : String → Bool}

/-- C77: when making a connection panics, and when it fails. -/
theorem C77_start (n : Nat) (c : Config) :
    ((∃ why, connect reachable n c = .panic why) ↔ c.runtime = .amqp ∧ c.amqpUri = none) ∧
    ((∃ why, connect reachable n c = .err why) ↔ c.runtime = .amqp ∧ ∃ uri, c.amqpUri = some uri ∧ reachable uri = false) := by
  unfold connect
  cases hr : c.runtime with
  | inMemory => simp
  | amqp =>
    cases hu : c.amqpUri with
    | none => simp
    | some uri => cases h : reachable uri <;> simp [h]

/-- C77, negative part: the default configuration (`Config::default()`) makes both `from_config`s panic, whatever brokers there are. -/
theorem C77_default_panics (n : Nat) : connect reachable n {} = .panic "amqp_uri is required" := rfl

/-- C77: a worker's task receiver yields a leader's task only if the worker serves that leader. Anything else it yields is a command, on the bus that has the commands' name, or a result
for a task whose routing key is the name of the bus. -/
theorem C77_tasks {ls : List (Label T C R)} {s : St T C R B} (hr : Lts.run (step fm reachable) init ls = some s) {w m : Nat} (hg : (Consumer.tasks w, m) ∈ s.got) :
    ∃ W y, s.workers[w]? = some W ∧ s.msgs[m]? = some y ∧
      match y.src with
      | .task l _ => ∃ L, s.leaders[l]? = some L ∧ Serves W l L.cfg
      | .leaderCommand _ _ | .workerCommand _ _ => bus W.cfg = "command-ipc-routing-key"
      | .result w' m' _ => ∃ t, asTask fm s w' m' = some t ∧ fm.keyOf t = bus W.cfg := by
  have h := run_setup_inv hr
  obtain ⟨y, hy, hq⟩ := h.got _ _ hg
  simp only [queueOf, Option.map_eq_some_iff, Prod.mk.injEq] at hq
  obtain ⟨W, hW, hp, hn⟩ := hq
  have hb := (h.worker w W hW).1
  have hsrc := h.msg m y hy
  refine ⟨W, y, hW, hy, ?_⟩
  unfold SrcOk at hsrc
  split at hsrc <;> rename_i heq <;> simp only [heq]
  · obtain ⟨L, hL, hp', hn', _⟩ := hsrc
    exact ⟨L, hL, (serves_iff h hL hW).1 ⟨by rw [hp, hp'], by rw [hn, hn']⟩⟩
  · obtain ⟨L, hL, hp', hn', _⟩ := hsrc
    rw [← hb, hn, hn']; rfl
  · obtain ⟨L, hL, hp', hn', _⟩ := hsrc
    rw [← hb, hn, hn']; rfl
  · obtain ⟨W', t, _, _, ht, _, hn', _⟩ := hsrc
    exact ⟨t, ht, by rw [← hb, hn, hn']⟩

/-- C77: with the same serializer, the worker sees the task the leader sent. -/
theorem C77_value (hf : Lawful fm) {ls : List (Label T C R)} {s : St T C R B} (hr : Lts.run (step fm reachable) init ls = some s) {w m l : Nat} {W : Worker} {L : Leader} {y : Msg T C R B} {t : T}
    (hW : s.workers[w]? = some W) (hy : s.msgs[m]? = some y) (hs : y.src = .task l t) (hL : s.leaders[l]? = some L) (hser : L.cfg.serializer = W.cfg.serializer) :
    asTask fm s w m = some t := by
  have h := run_setup_inv hr
  have hsrc := h.msg m y hy
  unfold SrcOk at hsrc
  rw [hs] at hsrc
  obtain ⟨L', hL', _, _, he⟩ := hsrc
  rw [hL] at hL'; cases hL'
  rw [(h.leader l L hL).2.1, hser] at he
  simp only [asTask, hW, hy, Option.bind_some, (h.worker w W hW).2.1]
  exact hf.task _ _ _ he

/-- C77: every worker that serves a leader can receive what the leader sends next. -/
theorem C77_reaches {ls : List (Label T C R)} {s : St T C R B} (hr : Lts.run (step fm reachable) init ls = some s) {w l : Nat} {W : Worker} {L : Leader} {t : T} {b : B}
    (hL : s.leaders[l]? = some L) (hW : s.workers[w]? = some W) (hsv : Serves W l L.cfg) (hb : fm.encT L.cfg.serializer t = some b) :
    ∃ s1 s2 y, step fm reachable s (.send l t) = some s1 ∧ s1.msgs[s.msgs.length]? = some y ∧ y.src = .task l t ∧
      step fm reachable s1 (.recv (.tasks w) s.msgs.length) = some s2 ∧ (Consumer.tasks w, s.msgs.length) ∈ s2.got := by
  have h := run_setup_inv hr
  obtain ⟨hp, ht⟩ := (serves_iff h hL hW).2 hsv
  refine ⟨{ s with msgs := s.msgs ++ [⟨L.factory.place, L.task, b, .task l t⟩] }, _, ⟨L.factory.place, L.task, b, .task l t⟩, ?_, by simp, rfl,
    (?_ : step fm reachable _ _ = some { s with msgs := s.msgs ++ [⟨L.factory.place, L.task, b, .task l t⟩], got := s.got ++ [(.tasks w, s.msgs.length)] }), by simp⟩
  · simp [step, hL, push, (h.leader l L hL).2.1, hb]
  · simp [step, queueOf, hW, hp, ht]

/-- C77: the receiver of a lease whose identifier is not the name of the command channel or of any leader's bus yields only results, of workers that share the leader's connection, for tasks that carry the lease's identifier. -/
theorem C77_results {ls : List (Label T C R)} {s : St T C R B} (hr : Lts.run (step fm reachable) init ls = some s) {k m l : Nat} {key : String}
    (hk : s.leases[k]? = some ⟨l, key⟩) (hg : (Consumer.results k, m) ∈ s.got) (hc : key ≠ "command-ipc-routing-key") (hb : ∀ (l' : Nat) (L' : Leader), s.leaders[l']? = some L' → bus L'.cfg ≠ key) :
    ∃ L y w W m' r t, s.leaders[l]? = some L ∧ s.msgs[m]? = some y ∧ y.src = .result w m' r ∧ s.workers[w]? = some W ∧ Near W l L.cfg ∧
      (Consumer.tasks w, m') ∈ s.got ∧ asTask fm s w m' = some t ∧ fm.keyOf t = key := by
  have h := run_setup_inv hr
  obtain ⟨y, hy, hq⟩ := h.got _ _ hg
  simp only [queueOf, hk, Option.bind_some, Option.map_eq_some_iff, Prod.mk.injEq] at hq
  obtain ⟨L, hL, hp, hn⟩ := hq
  have hsrc := h.msg m y hy
  unfold SrcOk at hsrc
  split at hsrc
  · obtain ⟨L', hL', _, hn', _⟩ := hsrc
    exact absurd (by rw [← (h.leader _ L' hL').1, hn, hn']) (hb _ L' hL')
  · obtain ⟨L', hL', _, hn', _⟩ := hsrc
    exact absurd (hn.trans hn') hc
  · obtain ⟨L', hL', _, hn', _⟩ := hsrc
    exact absurd (hn.trans hn') hc
  · rename_i w m' r hsrc'
    obtain ⟨W, t, hW, hg', ht, hp', hn', _⟩ := hsrc
    exact ⟨L, y, w, W, m', r, t, hL, hy, hsrc', hW, (near_iff h hL hW).1 (by rw [hp, hp']), hg', ht, by rw [hn, hn']⟩

/-- C77: the result of a task comes back: a worker that has received a task of a leader with the same serializer can publish a result, which the receiver of the leader's lease with the task's routing key can yield and decode. -/
theorem C77_returns (hf : Lawful fm) {ls : List (Label T C R)} {s : St T C R B} (hr : Lts.run (step fm reachable) init ls = some s) {w m l k : Nat} {W : Worker} {L : Leader} {y : Msg T C R B} {t : T} {r : R} {b : B}
    (hW : s.workers[w]? = some W) (hg : (Consumer.tasks w, m) ∈ s.got) (hy : s.msgs[m]? = some y) (hs : y.src = .task l t) (hL : s.leaders[l]? = some L) (hser : L.cfg.serializer = W.cfg.serializer)
    (hk : s.leases[k]? = some ⟨l, fm.keyOf t⟩) (hb : fm.encR W.cfg.serializer r = some b) :
    ∃ s1 s2, step fm reachable s (.result w m r) = some s1 ∧ step fm reachable s1 (.recv (.results k) s.msgs.length) = some s2 ∧ asResult fm s2 k s.msgs.length = some r := by
  have h := run_setup_inv hr
  have ht := C77_value hf hr hW hy hs hL hser
  obtain ⟨W', y', hW', hy', hm⟩ := C77_tasks hr hg
  rw [hW] at hW'; cases hW'
  rw [hy] at hy'; cases hy'
  rw [hs] at hm
  obtain ⟨L', hL', hsv⟩ := hm
  rw [hL] at hL'; cases hL'
  have hp := ((serves_iff h hL hW).2 hsv).1
  refine ⟨{ s with msgs := s.msgs ++ [⟨W.factory.place, fm.keyOf t, b, .result w m r⟩] },
    { s with msgs := s.msgs ++ [⟨W.factory.place, fm.keyOf t, b, .result w m r⟩], got := s.got ++ [(.results k, s.msgs.length)] }, ?_, ?_, ?_⟩
  · simp [step, hg, hW, ht, push, (h.worker w W hW).2.1, hb]
  · simp [step, queueOf, hk, hL, hp]
  · simp only [asResult, hk, hL, Option.bind_some, List.getElem?_concat_length, (h.leader l L hL).2.1]
    rw [hser]
    exact hf.result _ _ _ hb

/-- C77: commands. What a command receiver yields comes from a leader or a worker with the same connection, unless a bus or a task's routing key has the commands' name. -/
theorem C77_commands {ls : List (Label T C R)} {s : St T C R B} (hr : Lts.run (step fm reachable) init ls = some s) {w m : Nat} (hg : (Consumer.commands w, m) ∈ s.got) :
    ∃ W y, s.workers[w]? = some W ∧ s.msgs[m]? = some y ∧
      match y.src with
      | .leaderCommand l _ => ∃ L, s.leaders[l]? = some L ∧ Near W l L.cfg
      | .workerCommand w' _ => ∃ W', s.workers[w']? = some W' ∧ Peers w w' W W'
      | .task l _ => ∃ L, s.leaders[l]? = some L ∧ Near W l L.cfg ∧ bus L.cfg = "command-ipc-routing-key"
      | .result w' m' _ => ∃ t, asTask fm s w' m' = some t ∧ fm.keyOf t = "command-ipc-routing-key" := by
  have h := run_setup_inv hr
  obtain ⟨y, hy, hq⟩ := h.got _ _ hg
  simp only [queueOf, Option.map_eq_some_iff, Prod.mk.injEq] at hq
  obtain ⟨W, hW, hp, hn⟩ := hq
  have hsrc := h.msg m y hy
  refine ⟨W, y, hW, hy, ?_⟩
  unfold SrcOk at hsrc
  split at hsrc <;> rename_i heq <;> simp only [heq]
  · obtain ⟨L, hL, hp', hn', _⟩ := hsrc
    exact ⟨L, hL, (near_iff h hL hW).1 (by rw [hp, hp']), by rw [← (h.leader _ L hL).1, ← hn', ← hn]; rfl⟩
  · obtain ⟨L, hL, hp', hn', _⟩ := hsrc
    exact ⟨L, hL, (near_iff h hL hW).1 (by rw [hp, hp'])⟩
  · obtain ⟨W', hW', hp', hn', _⟩ := hsrc
    exact ⟨W', hW', (peers_iff h hW hW').1 (by rw [hp, hp'])⟩
  · obtain ⟨W', t, _, _, ht, _, hn', _⟩ := hsrc
    exact ⟨t, ht, by rw [← hn', ← hn]; rfl⟩

/-- C77: a worker's command can be yielded by the command receiver of each of its peers; the buses play no role. So the abort-all command that follows a fatal error reaches the workers of every other bus on the broker. -/
theorem C77_commands_reach (hf : Lawful fm) {ls : List (Label T C R)} {s : St T C R B} (hr : Lts.run (step fm reachable) init ls = some s) {w w' : Nat} {W W' : Worker} {c : C} {b : B}
    (hW : s.workers[w]? = some W) (hW' : s.workers[w']? = some W') (hpe : Peers w w' W W') (hb : fm.encC W'.cfg.serializer c = some b) :
    ∃ s1 s2, step fm reachable s (.workerCommand w' c) = some s1 ∧ step fm reachable s1 (.recv (.commands w) s.msgs.length) = some s2 ∧
      (W.cfg.serializer = W'.cfg.serializer → asCommand fm s2 w s.msgs.length = some c) := by
  have h := run_setup_inv hr
  have hp := (peers_iff h hW hW').2 hpe
  refine ⟨{ s with msgs := s.msgs ++ [⟨W'.factory.place, commandIpc, b, .workerCommand w' c⟩] },
    { s with msgs := s.msgs ++ [⟨W'.factory.place, commandIpc, b, .workerCommand w' c⟩], got := s.got ++ [(.commands w, s.msgs.length)] }, ?_, ?_, ?_⟩
  · simp [step, hW', push, (h.worker w' W' hW').2.1, hb]
  · simp [step, queueOf, hW, hp]
  · intro hser
    simp only [asCommand, hW, Option.bind_some, List.getElem?_concat_length, (h.worker w W hW).2.1]
    rw [hser]
    exact hf.command _ _ _ hb

/-- C77: how many workers a leader brings along: in memory the configured number, or three; none on AMQP. -/
theorem C77_emulated {ls : List (Label T C R)} {s : St T C R B} (hr : Lts.run (step fm reachable) init ls = some s) {l : Nat} {L : Leader} (hL : s.leaders[l]? = some L) :
    (s.workers.filter fun W => W.owner = some l).length =
      match L.cfg.runtime, L.cfg.numWorkers with
      | .inMemory, some n => n
      | .inMemory, none => 3
      | .amqp, _ => 0 := by
  rw [(run_setup_inv hr).count l L hL]
  unfold emulated
  cases L.cfg.runtime <;> cases L.cfg.numWorkers <;> rfl

/-- C77: a leader in memory is served by the workers it brings along and by no others; with `num_workers = Some(0)` its tasks are never received. -/
theorem C77_in_memory {ls : List (Label T C R)} {s : St T C R B} (hr : Lts.run (step fm reachable) init ls = some s) {w m l : Nat} {W : Worker} {L : Leader} {y : Msg T C R B} {t : T}
    (hL : s.leaders[l]? = some L) (hm : L.cfg.runtime = .inMemory) (hW : s.workers[w]? = some W) (hg : (Consumer.tasks w, m) ∈ s.got) (hy : s.msgs[m]? = some y) (hs : y.src = .task l t) :
    W.owner = some l ∧ L.cfg.numWorkers ≠ some 0 := by
  obtain ⟨W', y', hW', hy', hsv⟩ := C77_tasks hr hg
  rw [hW] at hW'; cases hW'
  rw [hy] at hy'; cases hy'
  rw [hs] at hsv
  obtain ⟨L', hL', hsv⟩ := hsv
  rw [hL] at hL'; cases hL'
  have ho : W.owner = some l := by
    rcases hsv with ho | ⟨_, h1, _⟩
    · exact ho
    · rw [h1] at hm; cases hm
  refine ⟨ho, fun h0 => ?_⟩
  have hc := C77_emulated hr hL
  rw [hm, h0] at hc
  have : W ∈ s.workers.filter fun W => W.owner = some l := List.mem_filter.2 ⟨List.mem_of_getElem? hW, by simpa using ho⟩
  rw [List.length_eq_zero_iff.1 hc] at this
  cases this

/-- C77: a worker started by itself with an in-memory configuration never receives any leader's task. -/
theorem C77_lonely_worker {ls : List (Label T C R)} {s : St T C R B} (hr : Lts.run (step fm reachable) init ls = some s) {w m : Nat} {W : Worker}
    (hW : s.workers[w]? = some W) (ho : W.owner = none) (hm : W.cfg.runtime = .inMemory) (hg : (Consumer.tasks w, m) ∈ s.got) (l : Nat) (t : T) :
    s.msgs[m]?.map (·.src) ≠ some (.task l t) := by
  intro hc
  obtain ⟨W', y, hW', hy, hsv⟩ := C77_tasks hr hg
  rw [hW] at hW'; cases hW'
  rw [hy] at hc
  simp only [Option.map_some, Option.some.injEq] at hc
  rw [hc] at hsv
  obtain ⟨L, _, h1 | ⟨_, _, h1, _⟩⟩ := hsv
  · rw [ho] at h1; cases h1
  · rw [hm] at h1; cases h1

namespace SetupDemo

/-- Tasks are their routing key and a number; bytes say which format they are in. -/
def form : Formats (String × Nat) String Nat (Ser × (String × Nat)) where
  encT s t := some (s, t)
  decT s b := if b.1 = s then some b.2 else none
  encC s c := some (s, (c, 0))
  decC s b := if b.1 = s ∧ b.2.2 = 0 then some b.2.1 else none
  encR s r := some (s, ("", r))
  decR s b := if b.1 = s ∧ b.2.1 = "" then some b.2.2 else none
  keyOf := Prod.fst

theorem form_lawful : Lawful form := by
  constructor <;> intro s t b h <;> simp [form] at h <;> subst h <;> simp [form]

def amqp (uri : String) (key : Option String) : Config := { amqpUri := some uri, taskKey := key }
def memory (n : Option Nat) : Config := { runtime := .inMemory, numWorkers := n }

/-- Two leaders and three workers on a broker, two of the workers on another bus; and a leader in memory with its three workers. -/
def labels : List (Label (String × Nat) String Nat) :=
  [.leader (amqp "amqp://a" none), .worker (amqp "amqp://a" (some "task-ipc-routing-key")), .worker (amqp "amqp://a" (some "other")), .leader (memory none), .leader (amqp "amqp://a" (some "other")),
   .leader {}, .worker (amqp "amqp://down" none),
   .lease 0 "k", .send 0 ("k", 7), .recv (.tasks 0) 0, .result 0 0 49, .recv (.results 0) 1, .workerCommand 1 "abort-all-key", .recv (.commands 0) 2, .send 1 ("j", 3), .recv (.tasks 4) 3]

def up (uri : String) : Bool := uri ≠ "amqp://down"

/-- The hypotheses of the theorems can be met: the run exists; a task is received by a worker that names the default bus, its result comes back; an abort crosses to another bus; the in-memory leader is served by its own workers. -/
example : (Lts.run (step form up) init labels).map (fun s => (s.leaders.length, s.workers.map (·.owner), s.got, asTask form s 0 0, asResult form s 0 1, asCommand form s 0 2, asTask form s 4 3)) =
    some (3, [none, none, some 1, some 1, some 1], [(.tasks 0, 0), (.results 0, 1), (.commands 0, 2), (.tasks 4, 3)], some ("k", 7), some 49, some "abort-all-key", some ("j", 3)) := by rfl

example : Together (amqp "amqp://a" none) (amqp "amqp://a" (some "task-ipc-routing-key")) := by decide
example : ¬ Together (amqp "amqp://a" none) (amqp "amqp://a" (some "other")) := by decide
example : Peers 0 1 ⟨amqp "amqp://a" none, ⟨.broker "amqp://a", .postcard⟩, "task-ipc-routing-key", none⟩ ⟨amqp "amqp://a" (some "other"), ⟨.broker "amqp://a", .postcard⟩, "other", none⟩ := .inr ⟨rfl, rfl, .inr (by decide)⟩

/-- C77, negative part: a bus with the commands' name mixes the two up: the command receiver of a worker yields a task, and its task receiver yields a command. -/
theorem C77_collision_witness : ∃ (ls : List (Label (String × Nat) String Nat)) (s : St (String × Nat) String Nat (Ser × (String × Nat))),
    Lts.run (step form up) init ls = some s ∧ s.got = [(.commands 0, 0), (.tasks 0, 1)] ∧ s.msgs.map (·.src) = [.task 0 ("k", 7), .leaderCommand 0 "k"] ∧
      asCommand form s 0 0 = none :=
  ⟨[.leader (amqp "amqp://a" (some "command-ipc-routing-key")), .worker (amqp "amqp://a" (some "command-ipc-routing-key")), .send 0 ("k", 7), .leaderCommand 0 "k", .recv (.commands 0) 0, .recv (.tasks 0) 1],
   _, rfl, by decide, by decide, by decide⟩

end SetupDemo
end Setup
end Paladin
