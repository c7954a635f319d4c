import Verif.Model.PubAll
import Verif.Proofs.Lts
/-!
# Property C97: publishes that do not wait keep the order

The part of C97 about `publish_all` (`queue/publisher.rs` 58-74), over `Verif/Model/PubAll.lean`.
-/
namespace Paladin
namespace PubAll

/-- No poll of the set of publishes leaves one running: each is finished in the poll that follows its start. This is so in memory, where `publish` never waits (`queue/in_memory.rs` 146-151). -/
def Prompt (ls : List (Label α ε)) : Prop := ∀ l ∈ ls, match l with
  | .futPending | .futYield => False
  | _ => True

structure OrdInv (s : St α ε) : Prop where
  rest : s.pc = .top ∨ s.pc = .asleep → s.futs = []
  none : s.futs = [] → s.pc ≠ .returned → s.sent.length = s.items.length
  one : s.futs = [] ∨ ∃ f, s.futs = [f] ∧ f.idx + 1 = s.items.length ∧ s.sent.length = (if f.sent then f.idx + 1 else f.idx) ∧ ∀ u, f.res = some (.ok u) → f.sent = true
  range : s.sent = List.range s.sent.length
  le : s.sent.length ≤ s.items.length

theorem ordInv_run {limit : Option Nat} {ls : List (Label α ε)} {s : St α ε} (h : run limit init ls = some s) (hp : Prompt ls) : OrdInv s := by
  refine Lts.run_induction (P := fun (ls : List (Label α ε)) (s : St α ε) => Prompt ls → OrdInv s) ?_ ?_ ls s h hp
  · intro _; constructor <;> simp [init]
  · intro ls l s s' _ ih hst hp
    obtain ⟨h1, h2, h3, h4, h5⟩ := ih fun l hl => hp l (by simp [hl])
    have hl := hp l (by simp)
    cases l <;> simp only [step] at hst <;> simp only at hl
    case answer a =>
      split at hst <;> simp only [Option.some.injEq, reduceCtorEq] at hst
      subst hst
      exact ⟨h1, h2, h3, h4, h5⟩
    case send k =>
      split at hst <;> try simp only [reduceCtorEq] at hst
      rename_i f hf
      split at hst <;> simp only [Option.some.injEq, reduceCtorEq] at hst
      rename_i hc
      subst hst
      rcases h3 with h3 | ⟨g, h3, g1, g2, g3⟩
      · simp [h3] at hf
      · rw [h3] at hf
        obtain rfl : k = 0 := by cases k <;> simp at hf; rfl
        obtain rfl : g = f := by simpa using hf
        simp only [Bool.or_eq_true, not_or, Bool.not_eq_true] at hc
        simp only [hc.1, Bool.false_eq_true, if_false] at g2
        refine ⟨fun hpc => ?_, fun he => by simp [h3] at he, .inr ⟨{ g with sent := true }, by simp [h3], g1, by simp [g2], fun _ _ => rfl⟩, ?_, by simp; omega⟩
        · have := h1 hpc
          simp [h3] at this
        · rw [List.length_append, List.length_singleton, List.range_succ, ← h4, g2]
    case resolve k r =>
      split at hst <;> try simp only [reduceCtorEq] at hst
      rename_i f hf
      split at hst <;> simp only [Option.some.injEq, reduceCtorEq] at hst
      rename_i hc
      subst hst
      rcases h3 with h3 | ⟨g, h3, g1, g2, g3⟩
      · simp [h3] at hf
      · rw [h3] at hf
        obtain rfl : k = 0 := by cases k <;> simp at hf; rfl
        obtain rfl : g = f := by simpa using hf
        simp only [Bool.or_eq_true, Bool.and_eq_true, Bool.not_eq_true', not_or, not_and, Bool.not_eq_true, Bool.not_eq_false] at hc
        refine ⟨fun hpc => ?_, fun he => by simp [h3] at he, .inr ⟨{ g with res := some r }, by simp [h3], g1, g2, fun u hu => ?_⟩, h4, h5⟩
        · have := h1 hpc
          simp [h3] at this
        · simp only [Option.some.injEq] at hu
          subst hu
          exact hc.2 rfl
    case poll =>
      split at hst <;> simp only [Option.some.injEq, reduceCtorEq] at hst
      rename_i hpc
      subst hst
      exact ⟨fun _ => h1 (.inr hpc), fun he _ => h2 he (by simp [hpc]), h3, h4, h5⟩
    case stream =>
      split at hst <;> try simp only [reduceCtorEq] at hst
      rename_i hpc
      have he := h1 (.inl hpc)
      have hn := h2 he (by simp [hpc])
      (repeat' split at hst) <;> simp only [Option.some.injEq] at hst <;> subst hst
      · refine ⟨by simp, fun h => by simp at h, .inr ⟨⟨s.items.length, false, none⟩, by simp [he], by simp, by simp [hn], by simp⟩, h4, by simp; omega⟩
      · exact ⟨by simp, fun _ h => by simp at h, .inl rfl, h4, h5⟩
      all_goals exact ⟨by simp, fun _ _ => hn, .inl he, h4, h5⟩
    case fut k =>
      split at hst <;> try simp only [reduceCtorEq] at hst
      rename_i p f hpc hf
      rcases h3 with h3 | ⟨g, h3, g1, g2, g3⟩
      · simp [h3] at hf
      · rw [h3] at hf
        obtain rfl : k = 0 := by cases k <;> simp at hf; rfl
        obtain rfl : g = f := by simpa using hf
        split at hst <;> simp only [Option.some.injEq, reduceCtorEq] at hst <;> subst hst
        · rename_i u hres
          have := g3 _ hres
          rw [this] at g2
          simp only [if_true] at g2
          exact ⟨fun _ => by simp [h3], fun _ _ => by simp only; omega, .inl (by simp [h3]), h4, h5⟩
        · exact ⟨by simp, fun _ h => by simp at h, .inl rfl, h4, h5⟩
    case futNone =>
      split at hst <;> try simp only [reduceCtorEq] at hst
      rename_i p hpc
      split at hst <;> try simp only [reduceCtorEq] at hst
      rename_i hem
      have he : s.futs = [] := by simpa using hem
      split at hst <;> simp only [Option.some.injEq] at hst <;> subst hst
      · exact ⟨fun _ => he, fun _ _ => h2 he (by simp [hpc]), .inl he, h4, h5⟩
      · exact ⟨by simp, fun _ h => by simp at h, .inl he, h4, h5⟩
    case drop =>
      split at hst <;> simp only [Option.some.injEq, reduceCtorEq] at hst
      subst hst
      exact ⟨by simp, fun _ h => by simp at h, .inl rfl, h4, h5⟩

/-- **C97, publishing.** Where publishing does not wait, `publish_all` hands the messages over in the order of the stream, whatever the limit: at any time, those of the first items. -/
theorem C97_publish_all (limit : Option Nat) (ls : List (Label α ε)) (s : St α ε) (h : run limit init ls = some s) (hp : Prompt ls) : s.sent = List.range s.sent.length ∧ s.sent.length ≤ s.items.length :=
  ⟨(ordInv_run h hp).range, (ordInv_run h hp).le⟩

/-- Two items are published; the stream ends. -/
def two : List (Label Nat String) :=
  [.answer (.item 7), .poll, .stream, .send 0, .resolve 0 (.ok ()), .fut 0, .answer (.item 8), .stream, .send 0, .resolve 0 (.ok ()), .fut 0, .answer .fin, .stream, .futNone]

/-- The hypotheses are met. -/
theorem C97_publish_example : Prompt two ∧ (run (some 10) init two).map (fun s => (s.sent, s.ret.isSome)) = some ([0, 1], true) := ⟨by simp [Prompt, two], by decide +kernel⟩

/-- **Where publishing waits the order may change:** the second item is handed over first. -/
theorem C97_waits : ∃ (ls : List (Label Nat String)) (s : St Nat String), run (some 10) init ls = some s ∧ s.sent = [1, 0] :=
  ⟨[.answer (.item 7), .poll, .stream, .futPending, .answer (.item 8), .stream, .send 1, .send 0], _, rfl, by decide⟩

end PubAll
end Paladin
