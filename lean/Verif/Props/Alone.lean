import Verif.Props.Share
import Verif.Proofs.Alone
/-!
# Property C95: no task is executed by two workers at a time

Vocabulary: `Verif/Spec/Alone.lean`. A task of the bus is in an exactly-once queue of the broker and is acknowledged when it has been executed (runtime/mod.rs:771-805). A user whose operations have effects outside
relies on it that a task is not executed by two workers at a time, nor a second time once it has been executed.
-/
namespace Paladin
namespace SystemAmqp
open Retry Paladin.System

section
variable {κ : Type} {σ ℓ : κ → Type} {T O ε χ ω : Type} [DecidableEq κ] {cl : (j : κ) → Client (σ j) (ℓ j) T (Except ε O)} {listens : (j : κ) → σ j → Bool} {nt : Net κ} {cfg : Worker.Cfg κ}
  {exec : ω → T → Except (OpError χ) O} {text : OpError χ → ε} {s s' : St κ σ T O ε χ} {ls ls' : List (Label κ ℓ T O ε χ ω)}

/-- **C95, first part** (the full claim is without the exception of lost connections, which is needed: `Demo.C95_overlap`): two workers that both have their connections never have the same task in hand. -/
theorem C95_alone_partial (h : run cl listens nt cfg exec text (init cl) ls = some s) {w w' m : Nat} (hne : w ≠ w') (h1 : Has s w m) (h2 : Has s w' m) :
    nt.wconn w ∈ s.net.closed ∨ nt.wconn w' ∈ s.net.closed := by
  obtain ⟨hw, hg⟩ := grasp_run h
  have key : ∀ {v : Nat}, Has s v m → nt.wconn v ∉ s.net.closed → ∃ k c, s.ties.lookup (.worker v) = some k ∧ s.net.consumers[k]? = some c ∧ m ∈ c.unacked := by
    rintro v ⟨e1, e2⟩ ho
    obtain ⟨x, f1, k, c, f2, f3, f4⟩ := hg.has v e2
    rw [e1] at f1; cases f1
    obtain ⟨c', q, g1, g2, -⟩ := hw.tie _ _ f2
    rw [f3] at g1; cases g1
    exact ⟨k, c, f2, f3, (hw.sound.inv.client.agree k c f3 (by rw [g2]; exact ho)).mem_iff.2 (by simp [f4])⟩
  by_cases o1 : nt.wconn w ∈ s.net.closed
  · exact .inl o1
  · by_cases o2 : nt.wconn w' ∈ s.net.closed
    · exact .inr o2
    · obtain ⟨k, c, a1, a2, a3⟩ := key h1 o1
      obtain ⟨k', c', b1, b2, b3⟩ := key h2 o2
      have hk := (hw.sound.inv.data.unacked_only a2 a3).2.2.2 k' c' b2 b3
      subst hk
      have := hw.inj _ _ _ a1 b1
      cases this
      exact absurd rfl hne

/-- **C95, second part** (partial as the first): of the workers that have received a task, whatever has become of it since, at most one has its connection. So a task that a worker with its connection has executed is not
executed by another one later. -/
theorem C95_one_partial (h : run cl listens nt cfg exec text (init cl) ls = some s) {w w' m : Nat} (hne : w ≠ w') (h1 : ReceivedBy s w m) (h2 : ReceivedBy s w' m) :
    nt.wconn w ∈ s.net.closed ∨ nt.wconn w' ∈ s.net.closed := by
  obtain ⟨hw, hs⟩ := single_sys h
  obtain ⟨k, a1, a2⟩ := h1
  obtain ⟨k', b1, b2⟩ := h2
  obtain ⟨c, q, e1, e2, -⟩ := hw.tie _ _ a1
  obtain ⟨c', q', f1, f2, -⟩ := hw.tie _ _ b1
  by_cases o1 : nt.wconn w ∈ s.net.closed
  · exact .inl o1
  · by_cases o2 : nt.wconn w' ∈ s.net.closed
    · exact .inr o2
    · have hk := hs m k k' c c' (yielded_sent hw.sound a2) (yielded_sent hw.sound b2) e1 f1 (by rw [e2]; exact o1) (by rw [f2]; exact o2)
      subst hk
      have := hw.inj _ _ _ a1 b1
      cases this
      exact absurd rfl hne

/-- **C95, third part**: no worker receives a task twice; and a task is received once, and once more for each time the broker has put it back because a connection was lost. -/
theorem C95_times (h : run cl listens nt cfg exec text (init cl) ls = some s) (m : Nat) :
    (∀ k, s.net.yielded.count (m, k) ≤ 1) ∧ (s.net.yielded.map Prod.fst).count m ≤ 1 + s.net.requeued.count m := by
  obtain ⟨hw, -⟩ := single_sys h
  refine ⟨fun k => List.nodup_iff_count.1 (yielded_nodup hw.sound) (m, k), ?_⟩
  have h1 := yielded_le hw.sound m
  have h2 := hw.sound.inv.data.once m
  have h3 : (if m < s.net.msgs.length then 1 else 0) ≤ 1 := by split <;> omega
  omega

/-- **C95, fourth part**: once a task has been acknowledged, no worker receives it any more, but perhaps one that has lost its connection (from what had been sent to it before). -/
theorem C95_done (h : run cl listens nt cfg exec text (init cl) ls = some s) {m : Nat} (hm : m ∈ s.net.acked) (h' : run cl listens nt cfg exec text s ls' = some s') {w : Nat} (ho : nt.wconn w ∉ s'.net.closed)
    (hr : ReceivedBy s' w m) : ReceivedBy s w m := by
  obtain ⟨hw, -⟩ := single_sys h
  obtain ⟨hw', e2, e3, e4, e5⟩ := acked_sys hw hm h'
  obtain ⟨k, a1, a2⟩ := hr
  have hd := e2 k (yielded_sent hw'.sound a2)
  have hlt : k < s.net.consumers.length := Nat.lt_of_not_le fun hle => (hw.sound.inv.client.fresh k hle m).1 hd
  obtain ⟨c', q, b1, b2, -⟩ := hw'.tie _ _ a1
  obtain ⟨d, f1, -, f3⟩ := e4.consumers k _ (List.getElem?_eq_getElem hlt)
  rw [b1] at f1; cases f1
  have hy := acked_yielded hw.sound hm hd (List.getElem?_eq_getElem hlt) (fun hx => ho (e5 _ (by rw [← f3, b2] at hx; exact hx)))
  obtain ⟨o, g⟩ := hw.yielded m k hy
  cases hw'.inj _ _ _ a1 (e3 o k g)
  exact ⟨k, g, hy⟩

end

namespace Demo
open System.Demo

/-- Worker 0 executes the first of two tasks. Its connection is lost, and the broker puts the task back and sends it to worker 1, which begins to execute it too. -/
def overlapA : List ALab := begunA ++ [.net (.lose 1), .net (.requeue 0), .net (.deliver 1), .deliver 1, .work 1 .checkFlag, .work 1 .checkTerm, .work 1 .start]

def overlap := (goA overlapA).get (by decide +kernel)

theorem goA_overlap : goA overlapA = some overlap := by simp [overlap]

/-- **C95, the exception**: two workers execute the same task at the same time, and both executions can come to their end. -/
theorem C95_overlap : ∃ (ls : List ALab) (s : _), goA ls = some s ∧ Executes s 0 0 ∧ Executes s 1 0 ∧ nt.wconn 0 ∈ s.net.closed ∧ nt.wconn 1 ∉ s.net.closed ∧
    (goA (ls ++ [.finish 0 0, .finish 1 0])).isSome = true :=
  ⟨overlapA, overlap, goA_overlap, ⟨rfl, _, _, _, _, rfl⟩, ⟨rfl, _, _, _, _, rfl⟩, by decide +kernel, by decide +kernel, by decide +kernel⟩

/-- The hypotheses of the theorems are met there: both workers have the task in hand, both have received it, and it was put back once. -/
theorem C95_witness : Has overlap 0 0 ∧ Has overlap 1 0 ∧ ReceivedBy overlap 0 0 ∧ ReceivedBy overlap 1 0 ∧ (overlap.net.yielded.map Prod.fst).count 0 = 2 ∧ overlap.net.requeued.count 0 = 1 :=
  ⟨⟨rfl, rfl⟩, ⟨rfl, rfl⟩, ⟨0, rfl, by decide +kernel⟩, ⟨1, rfl, by decide +kernel⟩, by decide +kernel, by decide +kernel⟩

/-- The first task is sent to worker 0, which does not get to read it before its connection is lost; worker 1 executes and acknowledges it. -/
def lateA : List ALab :=
  setUp ++ [mapA (.item 0 "a"), mapA (.send 0), .net (.deliver 0), .net (.lose 1), .net (.requeue 0), .net (.deliver 1), .deliver 1] ++ serveA 1

def late := (goA lateA).get (by decide +kernel)

theorem goA_late : goA lateA = some late := by simp [late]

/-- `C95_done`: its hypotheses are met, with worker 1; and the exception in it is needed: worker 0 reads the task after it was acknowledged, and executes it once more. -/
theorem C95_late : goA lateA = some late ∧ 0 ∈ late.net.acked ∧ ReceivedBy late 1 0 ∧ ¬ ReceivedBy late 0 0 ∧
    ∃ s, goA (lateA ++ [.deliver 0, .work 0 .checkFlag, .work 0 .checkTerm, .work 0 .start]) = some s ∧ Executes s 0 0 ∧ ReceivedBy s 0 0 := by
  refine ⟨goA_late, by decide +kernel, ⟨1, rfl, by decide +kernel⟩, ?_, (goA (lateA ++ [.deliver 0, .work 0 .checkFlag, .work 0 .checkTerm, .work 0 .start])).get (by decide +kernel), by simp, ⟨rfl, _, _, _, _, rfl⟩, 0, rfl, by decide +kernel⟩
  rintro ⟨k, h1, h2⟩
  have hd : late.net.yielded = [(0, 1)] := by decide +kernel
  rw [hd] at h2
  simp at h2
  subst h2
  have h3 : late.ties.lookup (.worker 0) = some 0 := rfl
  rw [h3] at h1
  cases h1

end Demo
end SystemAmqp
end Paladin
