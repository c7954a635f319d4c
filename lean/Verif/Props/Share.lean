import Verif.Props.SystemAmqp
import Verif.Proofs.Share
/-!
# Property C94: who gets a task

Vocabulary: `Verif/Spec/Share.lean`. Several workers consume the queue of the bus, each with at most one unsettled message (`qos: Some(1)`, runtime/dynamic_channel.rs:132; `basic_qos`, queue/amqp.rs:179-181),
and a worker settles a task after it has executed it (runtime/mod.rs:771-805). So a task should wait in the queue, for whichever worker is free first, and not at a worker that is busy.
-/
namespace Paladin
namespace SystemAmqp
open Retry Paladin.System

section
variable {κ : Type} {σ ℓ : κ → Type} {T O ε χ ω : Type} [DecidableEq κ] {cl : (j : κ) → Client (σ j) (ℓ j) T (Except ε O)} {listens : (j : κ) → σ j → Bool} {nt : Net κ} {cfg : Worker.Cfg κ}
  {exec : ω → T → Except (OpError χ) O} {text : OpError χ → ε} {s s' : St κ σ T O ε χ} {ls ls' : List (Label κ ℓ T O ε χ ω)}

/-- **C94, first part** (the full claim is that a task sent to a worker is one the worker waits for, or waits in the queue; what is missing: see `C94_strands` and the witnesses): no task waits at a worker that has one
in hand which it has not settled, as long as the worker is connected. -/
theorem C94_busy_partial (hp : nt.prefetch = 1) (h : run cl listens nt cfg exec text (init cl) ls = some s) {w m : Nat} (hh : holdsTask (s.worker w).pc = true) (ho : nt.wconn w ∉ s.net.closed) :
    ¬ WaitsAt s w m := by
  obtain ⟨hw, hg⟩ := grasp_run h
  rintro ⟨k, c, hk, hc, hm⟩
  rw [(hands hw hg hk hc ho).1 hp hh] at hm
  cases hm

/-- **C94, second part**: as long as there is a task in the queue, a worker that waits for one is sent one, or has been sent one. -/
theorem C94_sent (h : run cl listens nt cfg exec text (init cl) ls = some s) {w m : Nat} (hpc : (s.worker w).pc = .waiting) (hm : Waiting nt s w m) :
    (∃ m', WaitsAt s w m') ∨ ∃ k s', step cl listens nt cfg exec text s (.net (.deliver k)) = some s' ∧ (s'.worker w).pc = .waiting ∧ ∃ m', WaitsAt s' w m' := by
  obtain ⟨hw, hg⟩ := grasp_run h
  obtain ⟨k, c, q, hk, hc, hca, ho, hq, hpr, hm⟩ := hm
  have hun := (hands hw hg hk hc ho).2 hpc
  cases hb : c.buffer with
  | cons x rest => exact .inl ⟨x, k, c, hk, hc, by rw [hb]; exact List.mem_cons_self⟩
  | nil =>
    rw [hb] at hun
    have hco : c.conn ∉ s.net.closed := by
      obtain ⟨c', q, g1, g2, -⟩ := hw.tie _ _ hk
      rw [hc] at g1; cases g1
      rw [g2]; exact ho
    have hcan : s.net.canDeliver c = true := by simp [Amqp.St.canDeliver, hca, hco, hq, hpr]
    have hlim : (decide (nt.prefetch = 0) || decide (c.unacked.length < nt.prefetch)) = true := by
      rw [hun.eq_nil]
      simp only [List.length_nil, Bool.or_eq_true, decide_eq_true_eq]; omega
    cases hr : q.ready with
    | nil => rw [hr] at hm; cases hm
    | cons x rest =>
      refine .inr ⟨k, { s with net := { s.net with
        queues := s.net.queues.set c.inst { q with ready := rest },
        consumers := s.net.consumers.set k { c with unacked := c.unacked ++ [x], buffer := c.buffer ++ [x], woken := c.woken || c.parked },
        dlv := s.net.dlv ++ [(x, k)] } }, ?_, hpc, x, k, _, hk, List.getElem?_set_self (List.getElem?_eq_some_iff.1 hc).1, by simp⟩
      simp only [step, others, Amqp.step, hc, hcan, hlim, hq, hr, Bool.and_self, if_true, Option.map_some]

/-- **C94, third part**: a worker that waits receives what it was sent. -/
theorem C94_received (h : run cl listens nt cfg exec text (init cl) ls = some s) {w m : Nat} (hpc : (s.worker w).pc = .waiting) (hm : WaitsAt s w m) :
    ∃ s', step cl listens nt cfg exec text s (.deliver w) = some s' ∧ holdsTask (s'.worker w).pc = true := by
  obtain ⟨hw, ha⟩ := alert_run h
  obtain ⟨k, c, hk, hc, hm⟩ := hm
  obtain ⟨x, b, n, h1, h2, h3⟩ := next_some (pf := nt.prefetch) hw ha hk hc (List.ne_nil_of_mem hm)
  have hf := hw.fits _ (List.mem_of_getElem? h3)
  cases b with
  | result r => simp [Fits, Owner.queue] at hf
  | task t =>
    refine ⟨_, by simp only [step, h1, Worker.step, hpc]; rfl, ?_⟩
    simp [holdsTask]

/-- **C94, fourth part**: a task that the broker has sent to a worker whose loop receives no more is received by nobody, whatever happens, as long as that worker's connection is there. -/
theorem C94_strands (h : run cl listens nt cfg exec text (init cl) ls = some s) {w m : Nat} (hl : leaving (s.worker w).pc = true) (hm : WaitsAt s w m) (hon : OnlyTo s w m)
    (h' : run cl listens nt cfg exec text s ls' = some s') (ho : nt.wconn w ∉ s'.net.closed) : WaitsAt s' w m ∧ ¬ Received s' m := by
  obtain ⟨hw, -⟩ := grasp_run h
  obtain ⟨k, c, hk, hc, hm⟩ := hm
  obtain ⟨e1, e2⟩ := stranded_run hw hk hl ⟨hw.sound, ⟨c, hc, hm⟩, fun k' hk' => by have := hon k' hk'; rw [hk] at this; exact (Option.some.inj this).symm⟩ h' ho
  obtain ⟨c', f1, f2⟩ := e2.here
  exact ⟨⟨k, c', e1, f1, f2⟩, fun ⟨k', hk'⟩ => e2.unread k' hk'⟩

end

namespace Demo
open System.Demo

/-- A map publishes two tasks; the broker sends the first to worker 0, which begins to execute it. Worker 1 waits. -/
def begunA : List ALab :=
  setUp ++ [.sleep (.worker 0), .sleep (.worker 1), mapA (.item 0 "a"), mapA (.send 0), mapA .confirm, mapA (.item 1 "b"), mapA (.send 0), .net (.deliver 0), .deliver 0, .work 0 .checkFlag, .work 0 .checkTerm,
    .work 0 .start]

def begun := (goA begunA).get (by decide +kernel)

/-- The command to abort all work reaches worker 0, which rejects its task; the broker sends it the other one. -/
def abortedA : List ALab := begunA ++ [.work 0 (.cmd (.inr false)), .work 0 .hMark, .work 0 .hSend, .work 0 .sigPoll, .work 0 .sigRead, .work 0 .intNack, .net (.deliver 0)]

def aborted := (goA abortedA).get (by decide +kernel)

/-- Worker 0 has executed its task and acknowledged it; while it publishes the result, the broker sends it the other one. -/
def ackedA : List ALab := begunA ++ [.finish 0 0, .work 0 .ack, .net (.deliver 0)]

def acked := (goA ackedA).get (by decide +kernel)

theorem goA_begun : goA begunA = some begun := by simp [begun]
theorem goA_aborted : goA abortedA = some aborted := by simp [aborted]
theorem goA_acked : goA ackedA = some acked := by simp [acked]

/-- **C94, the exception**: worker 0 is aborted; the second task is sent to it all the same, while worker 1 waits; it is received by nobody as long as worker 0's process keeps its connection. -/
theorem C94_aborted : ∃ (ls : List ALab) (s : _), goA ls = some s ∧ (s.worker 1).pc = .waiting ∧ leaving (s.worker 0).pc = true ∧ WaitsAt s 0 1 ∧
    ∀ (ls' : List ALab) (s' : _), goA (ls ++ ls') = some s' → nt.wconn 0 ∉ s'.net.closed → WaitsAt s' 0 1 ∧ ¬ Received s' 1 := by
  have hm : WaitsAt aborted 0 1 := ⟨0, _, rfl, rfl, by decide +kernel⟩
  refine ⟨abortedA, aborted, goA_aborted, rfl, rfl, hm, fun ls' s' h ho => ?_⟩
  obtain ⟨s1, h1, h2⟩ := Lts.run_append.1 h
  have h3 := goA_aborted.symm.trans h1
  simp only [Option.some.injEq] at h3
  subst h3
  refine C94_strands h1 rfl hm (fun k hk => ?_) h2 ho
  have : k = 0 := by
    have hd : aborted.net.dlv = [(0, 0), (1, 0)] := by decide +kernel
    rw [hd] at hk
    simp at hk
    exact hk
  subst this
  rfl

/-- **C94, the other exception**: worker 0 has acknowledged its task and publishes the result; the next task is sent to it, while worker 1 waits. -/
theorem C94_publishing : ∃ (ls : List ALab) (s : _), goA ls = some s ∧ (s.worker 1).pc = .waiting ∧ (s.worker 0).pc ≠ .waiting ∧ WaitsAt s 0 1 :=
  ⟨ackedA, acked, goA_acked, rfl, nofun, 0, _, rfl, rfl, by decide +kernel⟩

/-- The hypotheses of `C94_busy_partial`, of `C94_sent` and of `C94_received` are met: worker 0 executes the first task, the second waits in the queue, worker 1 waits for it, is sent it and receives it. -/
theorem C94_witness : holdsTask (begun.worker 0).pc = true ∧ nt.wconn 0 ∉ begun.net.closed ∧ (begun.worker 1).pc = .waiting ∧ Waiting nt begun 1 1 ∧
    ∃ s, goA (begunA ++ [.net (.deliver 1)]) = some s ∧ WaitsAt s 1 1 ∧ (s.worker 1).pc = .waiting ∧ (goA (begunA ++ [.net (.deliver 1), .deliver 1])).isSome = true := by
  refine ⟨rfl, by decide +kernel, rfl, ⟨1, _, _, rfl, rfl, rfl, by decide +kernel, rfl, rfl, by decide +kernel⟩, (goA (begunA ++ [.net (.deliver 1)])).get (by decide +kernel), by simp, ⟨1, _, rfl, rfl, by decide +kernel⟩, rfl, by decide +kernel⟩

end Demo
end SystemAmqp
end Paladin
