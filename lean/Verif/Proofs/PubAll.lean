import Verif.Model.PubAll
import Verif.Proofs.Lts
import Verif.Proofs.Broadcast
/-! # Invariants of `publish_all` -/
namespace Paladin
namespace PubAll
open InMem (map_set_same mem_set_of_mem mem_eraseIdx_of_mem eraseIdx_ne)

variable {α ε : Type} {limit : Option Nat} {s s' : St α ε} {l : Label α ε} {ls : List (Label α ε)}

macro "pub_cases" h:ident l:ident : tactic =>
  `(tactic| (cases $l:ident <;> simp only [step, again] at $h:ident <;> (repeat' split at $h:ident) <;> simp only [Option.some.injEq, reduceCtorEq] at $h:ident <;> try subst $h:ident))

structure Inv (s : St α ε) : Prop where
  bound : ∀ f ∈ s.futs, f.idx < s.items.length
  nodupF : (s.futs.map Fut.idx).Nodup
  nodupS : s.sent.Nodup
  boundS : ∀ i ∈ s.sent, i < s.items.length
  flag : ∀ f ∈ s.futs, f.sent = true ↔ f.idx ∈ s.sent
  good : ∀ f ∈ s.futs, ∀ u, f.res = some (.ok u) → f.sent = true
  all : s.pc ≠ .returned → s.ret = none ∧ ∀ i < s.items.length, i ∈ s.sent ∨ i ∈ s.futs.map Fut.idx
  ok : ∀ u, s.ret = some (.ok u) → s.opened = false ∧ ∀ i < s.items.length, i ∈ s.sent
  over : s.pc = .returned → s.futs = [] ∧ s.opened = false

theorem inv_init : Inv (init : St α ε) := by constructor <;> simp [init]

theorem mem_set_cases {τ : Type} {l : List τ} {k : Nat} {x y : τ} (h : y ∈ l.set k x) : y = x ∨ y ∈ l := by
  rcases List.mem_or_eq_of_mem_set h with h | h
  · exact .inr h
  · exact .inl h

theorem idx_inj {l : List (Fut ε)} (hn : (l.map Fut.idx).Nodup) {k : Nat} {f g : Fut ε} (hf : l[k]? = some f) {x : Fut ε} (hg : g ∈ l.set k x)
    (he : g.idx = f.idx) : g = x := by
  obtain ⟨j, hj⟩ := List.mem_iff_getElem?.1 hg
  rw [List.getElem?_set] at hj
  split at hj
  · split at hj
    · simpa using hj.symm
    · simp at hj
  · rename_i hne
    exfalso
    apply hne
    have h1 : (l.map Fut.idx)[k]? = some f.idx := by simp [hf]
    have h2 : (l.map Fut.idx)[j]? = some f.idx := by simp [hj, he]
    have hk : k < (l.map Fut.idx).length := by have := (List.getElem?_eq_some_iff.1 hf).1; simpa using this
    have hjl : j < (l.map Fut.idx).length := by have := (List.getElem?_eq_some_iff.1 hj).1; simpa using this
    exact (List.getElem_inj (h₀ := hk) (h₁ := hjl) hn).1 (by
      rw [List.getElem?_eq_getElem hk] at h1; rw [List.getElem?_eq_getElem hjl] at h2
      simp only [Option.some.injEq] at h1 h2; rw [h1, h2])

theorem inv_step (hi : Inv s) (h : step limit s l = some s') : Inv s' := by
  obtain ⟨h1, h2, h3, h4, h5, h6, h7, h8, h9⟩ := hi
  pub_cases h l
  all_goals try exact ⟨h1, h2, h3, h4, h5, h6, h7, h8, h9⟩
  -- a message is handed over
  · rename_i k _ f hk hns
    simp only [Bool.or_eq_true, not_or, Bool.not_eq_true] at hns
    have hmem : f ∈ s.futs := List.mem_of_getElem? hk
    have hm : (s.futs.set k { f with sent := true }).map Fut.idx = s.futs.map Fut.idx := map_set_same hk rfl
    have hnot : f.idx ∉ s.sent := fun hc => by have := (h5 f hmem).2 hc; simp [hns.1] at this
    refine ⟨?_, by simpa only [hm] using h2, ?_, ?_, ?_, ?_, ?_, ?_, ?_⟩
    · intro g hg
      rcases mem_set_cases hg with rfl | hg
      · exact h1 f hmem
      · exact h1 g hg
    · rw [List.nodup_append]; simp only [List.nodup_cons, List.not_mem_nil, not_false_iff, List.nodup_nil, and_true, true_and]
      exact ⟨h3, fun a ha b hb => by simp at hb; subst hb; rintro rfl; exact hnot ha⟩
    · intro i hi; simp at hi; rcases hi with hi | rfl
      · exact h4 i hi
      · exact h1 f hmem
    · intro g hg
      by_cases he : g.idx = f.idx
      · have := idx_inj h2 hk hg he
        subst this; simp
      · rcases mem_set_cases hg with rfl | hg
        · exact absurd rfl he
        · rw [h5 g hg]; simp [he]
    · intro g hg u hu
      rcases mem_set_cases hg with rfl | hg
      · rfl
      · exact h6 g hg u hu
    · intro hp; obtain ⟨a, b⟩ := h7 hp
      refine ⟨a, fun i hi => ?_⟩
      simp only [hm, List.mem_append]
      rcases b i hi with b | b
      · exact .inl (.inl b)
      · exact .inr b
    · intro u hu; obtain ⟨a, b⟩ := h8 u hu
      exact ⟨a, fun i hi => by simp [b i hi]⟩
    · intro hp; have := h9 hp; simp [this.1] at hmem
  -- a publish finishes
  · rename_i k r _ f hk hr
    have hmem : f ∈ s.futs := List.mem_of_getElem? hk
    have hm : (s.futs.set k { f with res := some r }).map Fut.idx = s.futs.map Fut.idx := map_set_same hk rfl
    refine ⟨?_, by simpa only [hm] using h2, h3, h4, ?_, ?_, ?_, h8, ?_⟩
    · intro g hg
      rcases mem_set_cases hg with rfl | hg
      · exact h1 f hmem
      · exact h1 g hg
    · intro g hg
      rcases mem_set_cases hg with rfl | hg
      · exact h5 f hmem
      · exact h5 g hg
    · intro g hg u hu
      rcases mem_set_cases hg with rfl | hg
      · simp only [Option.some.injEq] at hu; subst hu
        have hok : (Except.ok u : Except ε Unit).isOk = true := rfl
        show f.sent = true
        cases hfs : f.sent
        · simp [hok, hfs] at hr
        · rfl
      · exact h6 g hg u hu
    · intro hp; obtain ⟨a, b⟩ := h7 hp
      exact ⟨a, fun i hi => by simp only [hm]; exact b i hi⟩
    · intro hp; have := h9 hp; simp [this.1] at hmem
  -- the rest leaves the publishes as they are, adds one, removes one or drops all
  all_goals
    have hlive := h7 (by first | assumption | (simp [*]; done))
    obtain ⟨hret, hall⟩ := hlive
  case h_1 =>
    refine ⟨?_, ?_, h3, ?_, ?_, ?_, ?_, by simp [hret], by simp⟩
    · intro g hg; simp at hg ⊢
      rcases hg with hg | rfl
      · have := h1 g hg; omega
      · simp
    · simp only [List.map_append, List.map_cons, List.map_nil]
      rw [List.nodup_append]
      refine ⟨h2, by simp, fun a ha b hb => ?_⟩
      obtain ⟨g, hg, rfl⟩ := List.mem_map.1 ha
      simp at hb; subst hb; have := h1 g hg; omega
    · intro i hi; have := h4 i hi; simp; omega
    · intro g hg; simp only [List.mem_append, List.mem_singleton] at hg
      rcases hg with hg | rfl
      · exact h5 g hg
      · simp only [Bool.false_eq_true, false_iff]; intro hc; have := h4 _ hc; omega
    · intro g hg u hu; simp only [List.mem_append, List.mem_singleton] at hg
      rcases hg with hg | rfl
      · exact h6 g hg u hu
      · simp at hu
    · refine fun _ => ⟨hret, fun i hi => ?_⟩
      simp at hi
      by_cases hn : i = s.items.length
      · subst hn; simp
      · rcases hall i (by omega) with h | h
        · exact .inl h
        · exact .inr (by simp at h ⊢; exact .inl h)
  case h_1 =>
    rename_i k _ _ _ f hpc hk _ u hres
    have hmem : f ∈ s.futs := List.mem_of_getElem? hk
    have hsub : ∀ g ∈ s.futs.eraseIdx k, g ∈ s.futs := fun g hg => List.mem_of_mem_eraseIdx hg
    refine ⟨fun g hg => h1 g (hsub g hg), ?_, h3, h4, fun g hg => h5 g (hsub g hg), fun g hg => h6 g (hsub g hg), ?_, ?_, by simp⟩
    · exact h2.sublist ((List.eraseIdx_sublist _ _).map _)
    · refine fun _ => ⟨hret, fun i hi => ?_⟩
      rcases hall i hi with h | h
      · exact .inl h
      · obtain ⟨g, hg, rfl⟩ := List.mem_map.1 h
        rcases mem_eraseIdx_of_mem hk hg with rfl | hg
        · exact .inl ((h5 g hmem).1 (h6 g hmem u hres))
        · exact .inr (List.mem_map_of_mem hg)
    · simp [hret]
  all_goals try (refine ⟨h1, h2, h3, h4, h5, h6, fun _ => ⟨hret, hall⟩, ?_, ?_⟩ <;> simp [hret] <;> done)
  case h_1.isTrue.isFalse =>
    rename_i hemp hop
    have hemp' : s.futs = [] := by simpa using hemp
    refine ⟨h1, h2, h3, h4, h5, h6, by simp, fun _ _ => ⟨by simpa using hop, fun i hi => ?_⟩, fun _ => ⟨hemp', by simpa using hop⟩⟩
    rcases hall i hi with h | h
    · exact h
    · simp [hemp'] at h
  all_goals (refine ⟨?_, ?_, h3, h4, ?_, ?_, ?_, ?_, ?_⟩ <;> simp [hret] <;> done)

theorem inv_run (h : run limit init ls = some s) : Inv s := Lts.run_inv inv_init (fun _ _ _ hi hs => inv_step hi hs) h

/-- Nobody sleeps through an answer. -/
structure SleepInv (limit : Option Nat) (s : St α ε) : Prop where
  scanned : s.pc = .futures false → s.opened = true → room limit s.futs.length = true → s.parked = true ∧ (s.ready = none ∨ s.woken = true)
  asleep : s.pc = .asleep → s.woken = false → (∀ f ∈ s.futs, f.res = none) ∧ (s.opened = true → room limit s.futs.length = true → s.parked = true ∧ s.ready = none) ∧
    (s.opened = true ∨ s.futs ≠ [])

theorem sleepInv_init : SleepInv limit (init : St α ε) := by constructor <;> simp [init]

theorem sleepInv_step (hi : SleepInv limit s) (h : step limit s l = some s') : SleepInv limit s' := by
  obtain ⟨h1, h2⟩ := hi
  pub_cases h l
  all_goals try (constructor <;> simp <;> done)
  all_goals try (constructor <;> grind)
  · rename_i p hpc hg hp
    simp only [Bool.and_eq_true, Bool.not_eq_true', List.isEmpty_eq_false_iff, List.all_eq_true, Option.isNone_iff_eq_none] at hg
    have hp' : p = false := by simpa using hp
    subst hp'
    refine ⟨by simp, fun _ hw => ⟨hg.2, fun ho hr => ?_, .inr hg.1⟩⟩
    obtain ⟨a, b⟩ := h1 hpc ho hr
    exact ⟨a, by rcases b with b | b; exact b; exact absurd b (by simp only at hw; simp [hw])⟩

theorem sleepInv_run (h : run limit init ls = some s) : SleepInv limit s := Lts.run_inv sleepInv_init (fun _ _ _ hi hs => sleepInv_step hi hs) h

theorem room_inv (h : run limit init ls = some s) : ∀ n, limit = some (n + 1) → s.futs.length ≤ n + 1 := by
  refine Lts.run_inv (P := fun s : St α ε => ∀ n, limit = some (n + 1) → s.futs.length ≤ n + 1) (by simp [init]) ?_ h
  intro s l s' ih0 hst n hn
  have ih := ih0 n hn
  clear ih0 h
  subst hn
  pub_cases hst l
  all_goals try exact ih
  all_goals try (simp; done)
  all_goals try (rw [List.length_set]; exact ih)
  · rename_i hr _ _ _ _
    simp only [room, decide_eq_true_eq] at hr
    simp only [List.length_append, List.length_cons, List.length_nil]; omega
  · rw [List.length_eraseIdx]; split <;> omega

end PubAll
end Paladin
