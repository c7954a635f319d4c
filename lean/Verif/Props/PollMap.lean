import Verif.Spec.PollMap
import Verif.Proofs.PollMap
import Verif.Props.MapPoll
/-!
# Property C57: the polls of a mapped stream are executions of the model of map

`Verif/Model/MapPoll.lean` models the stream of `directive/indexed_stream/functor.rs` 40-67 poll by poll, with the alternation of `select`, but only counts messages; `Verif/Model/MapS.lean` keeps the
messages and lets the two sides interleave freely. Every execution of the first is one of the second, so what is proved of all executions of the second holds however the stream is polled.
-/
namespace Paladin
namespace MapPoll

variable {α β ε ω : Type}

theorem polls_sim (op : ω → α → Except ε β) (a : α) (e : ε) (w : ω) {ls : List Label} {s : St} (h : run init ls = some s) :
    ∃ (ms : List (MapS.Label α ε ω)) (m : MapS.St α β ε), MapS.run op MapS.init ms = some m ∧
      ((s.last ≠ some .done ∧ Core s m (yielded init ls)) ∨
        (s.last = some .done ∧ m.ended = true ∧ m.outs.length = yielded init ls ∧ m.tasks.length = 0 ∧ m.results.length = 0 ∧ m.closed = true)) := by
  refine Lts.run_induction (P := fun (ls : List Label) (s : St) => ∃ (ms : List (MapS.Label α ε ω)) (m : MapS.St α β ε), MapS.run op MapS.init ms = some m ∧
      ((s.last ≠ some .done ∧ Core s m (yielded init ls)) ∨
        (s.last = some .done ∧ m.ended = true ∧ m.outs.length = yielded init ls ∧ m.tasks.length = 0 ∧ m.results.length = 0 ∧ m.closed = true))) ?_ ?_ ls s h
  · exact ⟨[], MapS.init, rfl, .inl ⟨by simp [init], rfl, rfl, rfl, rfl, rfl, rfl, rfl, rfl, rfl, rfl, rfl, rfl⟩⟩
  · intro ls l s s' hrun ih hst
    obtain ⟨ms, m, h1, h2⟩ := ih
    have hy := yielded_snoc (ls := ls) hrun hst
    rcases h2 with ⟨hl, hc⟩ | ⟨hl, _⟩
    · cases l with
      | poll c now =>
        have hrun' : run init (ls ++ [.poll c now]) = some s' := Lts.run_snoc.2 ⟨s, hrun, hst⟩
        simp only [step, hl, if_false, Option.some.injEq] at hst
        obtain ⟨ms', m', g1, g2⟩ := select_sim op a e (s := { s with woken := false }) (hc.congr rfl rfl rfl rfl rfl rfl) c now
        have hr : MapS.run op MapS.init (ms ++ ms') = some m' := by rw [MapS.run_append, h1]; exact g1
        generalize pollSelect { s with woken := false } c now = r at g2 hst
        obtain ⟨s1, o⟩ := r
        have g3 : Core s' m' (yielded init ls + o.items) := by rw [← hst]; exact g2.congr rfl rfl rfl rfl rfl rfl
        have hlast : s'.last = some o := by rw [← hst]
        have ho : yielded init (ls ++ [.poll c now]) = yielded init ls + o.items := by
          rw [hy, hlast]
          cases o <;> rfl
        rw [← ho] at g3
        by_cases hd : o = .done
        · subst hd
          obtain ⟨k1, k2, k3, k4, k5, k6⟩ := C57_end hrun' hlast
          obtain ⟨c1, c2, c3, c4, c5, c6, c7, c8, c9, c10, c11, c12⟩ := g3
          rw [k2] at c6
          rw [k3] at c5
          rw [k1] at c7
          have e1 : MapS.step op m' (.recvEnd : MapS.Label α ε ω) = some { m' with recvEnded := true } := by simp [MapS.step, c10, c9, c6, c5]
          have e2 : MapS.step op { m' with recvEnded := true } (.finish : MapS.Label α ε ω) = some { m' with recvEnded := true, ended := true } := by
            have c7 : m'.sendDone = true := c7
            simp [MapS.step, c10, c7]
          refine ⟨(ms ++ ms') ++ [.recvEnd, .finish], { m' with recvEnded := true, ended := true }, ?_, .inr ⟨hlast, rfl, c11, by rw [c3, k4], by rw [c4, k5, k6]; rfl, c6⟩⟩
          rw [MapS.run_append, hr]
          simp [MapS.run, e1, e2]
        · exact ⟨_, _, hr, .inl ⟨by rw [hlast]; simpa using hd, g3⟩⟩
      | input =>
        simp only [step] at hst
        split at hst <;> simp only [Option.some.injEq, reduceCtorEq] at hst
        rename_i hleft
        subst hst
        obtain ⟨c1, c2, c3, c4, c5, c6, c7, c8, c9, c10, c11, c12⟩ := hc
        rw [hy]
        exact ⟨ms, m, h1, .inl ⟨hl, c1, c2, c3, c4, c5, c6, by rw [c7, hleft]; rfl, c8, c9, c10, c11, c12⟩⟩
      | arrive =>
        simp only [step] at hst
        split at hst <;> simp only [Option.some.injEq, reduceCtorEq] at hst
        rename_i hpos
        subst hst
        obtain ⟨c1, c2, c3, c4, c5, c6, c7, c8, c9, c10, c11, c12⟩ := hc
        rw [hy]
        cases ht : m.tasks with
        | nil => rw [ht] at c3; simp at c3; omega
        | cons t rest =>
          rw [ht] at c3
          have e1 : MapS.step op m (.exec 0 w : MapS.Label α ε ω) = some { m with tasks := rest, results := m.results ++ [(op w t.2).map fun b => (t.1, b)] } := by
            simp [MapS.step, c10, ht, Fold.takeAt]
          have e2 : MapS.run op MapS.init (ms ++ [.exec 0 w]) = some { m with tasks := rest, results := m.results ++ [(op w t.2).map fun b => (t.1, b)] } := by
            rw [MapS.run_append, h1]; exact run_one' e1
          simp only [List.length_cons] at c3
          refine ⟨_, _, e2, .inl ⟨hl, ?_⟩⟩
          exact ⟨c1, c2, by simp only; omega, by simp only [List.length_append, List.length_singleton, c4]; omega, c5, c6, c7, c8, c9, c10, c11, by simp only [c12]; omega⟩
      | acked =>
        simp only [step] at hst
        split at hst <;> simp only [Option.some.injEq, reduceCtorEq] at hst
        rename_i hack
        subst hst
        obtain ⟨c1, c2, c3, c4, c5, c6, c7, c8, c9, c10, c11, c12⟩ := hc
        rw [hy]
        exact ⟨ms, m, h1, .inl ⟨hl, c1, c2, c3, by rw [c4, hack]; rfl, c5, c6, c7, c8, c9, c10, c11, by simp only [c12, hack]; rfl⟩⟩
    · obtain ⟨k1, k2, k3, k4, k5, k6⟩ := C57_end hrun hl
      cases l <;> simp [step, hl, k1, k4, k6] at hst

/-- **C57, refinement.** However the stream of a map is polled, and in whatever order tasks are published and results arrive: it is an execution of the model of map. It has yielded as many items, as many tasks
are without a result and as many results on their way, and it has ended exactly if a poll said so. (`a`, `e`, `w`: there are inputs, errors and workers.) -/
theorem C57_refines (op : ω → α → Except ε β) (a : α) (e : ε) (w : ω) (ls : List Label) (s : St) (h : run init ls = some s) :
    ∃ (ms : List (MapS.Label α ε ω)) (m : MapS.St α β ε), MapS.run op MapS.init ms = some m ∧ m.outs.length = yielded init ls ∧ m.tasks.length = s.inflight ∧
      m.results.length = s.results + s.acking.isSome.toNat ∧ m.closed = s.closed ∧ (m.ended = true ↔ s.last = some .done) := by
  obtain ⟨ms, m, h1, ⟨h2, h3⟩ | ⟨h2, h3, h4, h5, h6, h7⟩⟩ := polls_sim op a e w h
  · exact ⟨ms, m, h1, h3.outs, h3.tasks, h3.results, h3.closed, by simp [h3.ended, h2]⟩
  · obtain ⟨k1, k2, k3, k4, k5, k6⟩ := C57_end h h2
    exact ⟨ms, m, h1, h4, by rw [h5, k4], by rw [h6, k5, k6]; rfl, by rw [h7, k2], by simp [h3, h2]⟩

/-- A case: two tasks are published and the input ends, both results come, one acknowledgement waits; the stream yields twice and ends. -/
theorem C57_refines_example : ∃ (ls : List Label) (s : St), run init ls = some s ∧ yielded init ls = 2 ∧ s.last = some .done :=
  ⟨[.poll (.ends 2) true, .arrive, .poll (.waits 0) false, .arrive, .acked, .poll (.waits 0) true, .poll (.waits 0) true, .poll (.waits 0) true], _, rfl, by decide +kernel, by decide +kernel⟩

end MapPoll
end Paladin
