import Verif.Proofs.PubAll
import Verif.Spec.PubAll
/-! # Property C53: `publish_all` -/
namespace Paladin
namespace PubAll

variable {α ε : Type} {limit : Option Nat} {s s' : St α ε} {ls : List (Label α ε)}

theorem itemsOf_snoc (ls : List (Label α ε)) (l : Label α ε) : itemsOf (ls ++ [l]) = itemsOf ls ++ itemsOf [l] := by
  induction ls with
  | nil => simp [itemsOf]
  | cons x ls ih =>
    cases x with
    | answer a => cases a <;> simp [itemsOf, ih]
    | _ => simp [itemsOf, ih]

/-- The item the stream has ready. -/
def readyItem : Option (Answer α ε) → List α
  | some (.item a) => [a]
  | _ => []

structure TraceInv (ls : List (Label α ε)) (s : St α ε) : Prop where
  items : itemsOf ls = s.items ++ readyItem s.ready
  fin : s.ready = some .fin → ends ls
  closed : s.pc ≠ .returned → s.opened = false → ends ls
  ok : ∀ u, s.ret = some (.ok u) → ends ls
  gone : s.pc ≠ .returned → s.opened = false → s.ready = none
  okGone : ∀ u, s.ret = some (.ok u) → s.ready = none

theorem traceInv_run (h : run limit init ls = some s) : TraceInv ls s := by
  refine Lts.run_induction (P := fun (ls : List (Label α ε)) (s : St α ε) => TraceInv ls s) (by constructor <;> simp [init, itemsOf, readyItem]) ?_ ls s h
  intro ls l s s' hr ih hst
  obtain ⟨h1, h2, h3, h4, h5, h6⟩ := ih
  have hinv := inv_run hr
  have e1 : ends ls → ends (ls ++ [l]) := fun h => List.mem_append_left _ h
  cases l with
  | answer a =>
    simp only [step] at hst
    split at hst <;> simp only [Option.some.injEq, reduceCtorEq] at hst
    subst hst
    rename_i hg
    simp only [Bool.and_eq_true, Option.isNone_iff_eq_none] at hg
    have hret : ∀ u, s.ret ≠ some (.ok u) := fun u hu => by have := (hinv.ok u hu).1; simp [hg.2] at this
    refine ⟨?_, ?_, ?_, ?_, ?_, ?_⟩
    · rw [itemsOf_snoc, h1, hg.1]; cases a <;> simp [itemsOf, readyItem]
    · intro hf; simp at hf; subst hf; simp [ends]
    · simp [hg.2]
    · intro u hu; exact absurd hu (hret u)
    · simp [hg.2]
    · intro u hu; exact absurd hu (hret u)
  | _ =>
    simp only [step, again] at hst
    (repeat' split at hst) <;> simp only [Option.some.injEq, reduceCtorEq] at hst <;> try subst hst
    all_goals
      refine ⟨?_, ?_, ?_, ?_, ?_, ?_⟩ <;> (try rw [itemsOf_snoc, h1]) <;> simp_all [itemsOf, readyItem] <;> done

/-- **C53.** If `publish_all` has returned `Ok`, the stream has ended, and every item it yielded has been published exactly
once. -/
theorem C53_ok (h : run limit init ls = some s) {u : Unit} (hok : s.ret = some (.ok u)) :
    ends ls ∧ s.items = itemsOf ls ∧ s.sent.Perm (List.range (itemsOf ls).length) := by
  have ht := traceInv_run h
  have hi := inv_run h
  have h1 : s.items = itemsOf ls := by rw [ht.items, ht.okGone u hok]; simp [readyItem]
  refine ⟨ht.ok u hok, h1, ?_⟩
  rw [← h1]
  refine (List.perm_ext_iff_of_nodup hi.nodupS List.nodup_range).2 fun i => ?_
  rw [List.mem_range]
  exact ⟨hi.boundS i, (hi.ok u hok).2 i⟩

/-- **C53.** At every moment, however it ends: no item is published twice and only items of the stream are published. -/
theorem C53_at_most_once (h : run limit init ls = some s) : s.sent.Nodup ∧ (∀ i ∈ s.sent, i < s.items.length) ∧ s.items <+: itemsOf ls :=
  ⟨(inv_run h).nodupS, (inv_run h).boundS, ⟨_, (traceInv_run h).items.symm⟩⟩

theorem room_iff {n : Nat} : room limit n = true ↔ MayStart limit n := by
  unfold room MayStart
  split <;> simp
  rename_i hx
  exact fun h => (hx h).elim

/-- **C53.** With a limit other than 0, at no time are more publishes running than the limit. -/
theorem C53_bounded_partial (h : run limit init ls = some s) {n : Nat} (hl : limit = some n) (hn : n ≠ 0) : s.futs.length ≤ n := by
  obtain ⟨m, rfl⟩ : ∃ m, n = m + 1 := ⟨n - 1, by omega⟩
  exact room_inv h m hl

/-- **C53** is false for the limit 0, which means no limit: two publishes run at the same time. -/
theorem C53_zero_witness : ∃ (ls : List (Label Nat String)) (s : St Nat String), run (some 0) init ls = some s ∧ s.futs.length = 2 :=
  ⟨[.answer (.item 7), .poll, .stream, .answer (.item 8), .futPending, .stream], _, rfl, by decide⟩

/-- The stream yields the error `e`, or a publish returns it. -/
def errorIn (e : ε) (ls : List (Label α ε)) : Prop := Label.answer (.err e) ∈ ls ∨ ∃ k, Label.resolve k (.error e) ∈ ls

structure ErrInv (ls : List (Label α ε)) (s : St α ε) : Prop where
  ready : ∀ e, s.ready = some (.err e) → errorIn e ls
  res : ∀ f ∈ s.futs, ∀ e, f.res = some (.error e) → errorIn e ls
  ret : ∀ e, s.ret = some (.error e) → errorIn e ls
  kept : ∀ e, errorIn e ls → (∃ e, s.ready = some (.err e)) ∨ (∃ f ∈ s.futs, ∃ e, f.res = some (.error e)) ∨ (s.pc = .returned ∧ ∀ u, s.ret ≠ some (.ok u))

theorem errInv_run (h : run limit init ls = some s) : ErrInv ls s := by
  refine Lts.run_induction (P := fun (ls : List (Label α ε)) (s : St α ε) => ErrInv ls s) (by constructor <;> simp [init, errorIn]) ?_ ls s h
  intro ls l s s' hr ih hst
  obtain ⟨h1, h2, h3, h4⟩ := ih
  have hinv := inv_run hr
  have htr := traceInv_run hr
  have e1 : ∀ e, errorIn e ls → errorIn e (ls ++ [l]) := by
    rintro e (h | ⟨k, h⟩)
    · exact .inl (List.mem_append_left _ h)
    · exact .inr ⟨k, List.mem_append_left _ h⟩
  have e2 : ∀ e, errorIn e (ls ++ [l]) → errorIn e ls ∨ l = .answer (.err e) ∨ ∃ k, l = .resolve k (.error e) := by
    rintro e (h | ⟨k, h⟩)
    · simp only [List.mem_append, List.mem_singleton] at h
      rcases h with h | h
      · exact .inl (.inl h)
      · exact .inr (.inl h.symm)
    · simp only [List.mem_append, List.mem_singleton] at h
      rcases h with h | h
      · exact .inl (.inr ⟨k, h⟩)
      · exact .inr (.inr ⟨k, h.symm⟩)
  have e3 : ∀ e, l = .answer (.err e) ∨ (∃ k, l = .resolve k (.error e)) → errorIn e (ls ++ [l]) := by
    rintro e (rfl | ⟨k, rfl⟩)
    · exact .inl (by simp)
    · exact .inr ⟨k, by simp⟩
  have h1' := fun e h => e1 e (h1 e h)
  have h2' := fun f hf e h => e1 e (h2 f hf e h)
  have h3' := fun e h => e1 e (h3 e h)
  generalize hL : ls ++ [l] = L at e1 e2 e3 h1' h2' h3' ⊢
  pub_cases hst l
  -- the stream's answer
  · rename_i a hg
    simp only [Bool.and_eq_true, Option.isNone_iff_eq_none] at hg
    refine ⟨?_, h2', h3', ?_⟩
    · intro e he; simp at he; subst he; exact e3 e (.inl rfl)
    · intro e he
      rcases e2 e he with he | he | ⟨k, he⟩
      · rcases h4 e he with ⟨e', h'⟩ | h' | h'
        · simp [hg.1] at h'
        · exact .inr (.inl h')
        · exact .inr (.inr h')
      · simp at he; subst he; exact .inl ⟨e, rfl⟩
      · simp at he
  -- send
  · rename_i k _ f hk hns
    simp only [Bool.or_eq_true, not_or, Bool.not_eq_true] at hns
    have hmem : f ∈ s.futs := List.mem_of_getElem? hk
    refine ⟨h1', ?_, h3', ?_⟩
    · intro g hg e he
      rcases mem_set_cases hg with rfl | hg
      · exact h2' f hmem e he
      · exact h2' g hg e he
    · intro e he
      rcases e2 e he with he | he | ⟨k, he⟩
      · rcases h4 e he with h' | ⟨g, hg, e', h'⟩ | h'
        · exact .inl h'
        · refine .inr (.inl ⟨g, ?_, e', h'⟩)
          rcases InMem.mem_set_of_mem (x := { f with sent := true }) hk hg with rfl | hg
          · simp [h'] at hns
          · exact hg
        · exact .inr (.inr h')
      · simp at he
      · simp at he
  -- resolve
  · rename_i k r _ f hk hr
    have hmem : f ∈ s.futs := List.mem_of_getElem? hk
    have hnone : f.res = none := by
      simp only [Bool.or_eq_true, not_or, Bool.not_eq_true] at hr
      simpa using hr.1
    have hset : ({ f with res := some r } : Fut ε) ∈ s.futs.set k { f with res := some r } := InMem.mem_set_self hk
    refine ⟨h1', ?_, h3', ?_⟩
    · intro g hg e he
      rcases mem_set_cases hg with rfl | hg
      · simp only [Option.some.injEq] at he; subst he; exact e3 e (.inr ⟨k, rfl⟩)
      · exact h2' g hg e he
    · intro e he
      rcases e2 e he with he | he | ⟨k', he⟩
      · rcases h4 e he with h' | ⟨g, hg, e', h'⟩ | h'
        · exact .inl h'
        · refine .inr (.inl ⟨g, ?_, e', h'⟩)
          rcases InMem.mem_set_of_mem (x := { f with res := some r }) hk hg with rfl | hg
          · simp [h'] at hnone
          · exact hg
        · exact .inr (.inr h')
      · simp at he
      · simp at he; obtain ⟨rfl, rfl⟩ := he
        exact .inr (.inl ⟨_, hset, e, rfl⟩)
  all_goals
    have hk : ∀ e, errorIn e L → errorIn e ls := fun e he => by
      rcases e2 e he with h | h | ⟨_, h⟩
      · exact h
      · simp at h
      · simp at h
  case h_1 =>
    refine ⟨by simp, ?_, h3', ?_⟩
    · intro g hg e he; simp only [List.mem_append, List.mem_singleton] at hg
      rcases hg with hg | rfl
      · exact h2' g hg e he
      · simp at he
    · intro e he
      rcases h4 e (hk e he) with ⟨e', h'⟩ | ⟨g, hg, h'⟩ | h'
      · simp_all
      · exact .inr (.inl ⟨g, by simp [hg], h'⟩)
      · simp_all
  case h_1 =>
    rename_i k _ _ _ f hpc hkf _ u hres
    refine ⟨h1', fun g hg => h2' g (List.mem_of_mem_eraseIdx hg), h3', ?_⟩
    intro e he
    rcases h4 e (hk e he) with h' | ⟨g, hg, e', h'⟩ | h'
    · exact .inl h'
    · rcases InMem.mem_eraseIdx_of_mem hkf hg with rfl | hg
      · simp [hres] at h'
      · exact .inr (.inl ⟨g, hg, e', h'⟩)
    · simp_all
  all_goals try (refine ⟨h1', h2', h3', fun e he => ?_⟩ <;> have := h4 e (hk e he) <;> simp_all <;> done)
  · rename_i e0 hready
    exact ⟨by simp, by simp, fun e he => by simp at he; subst he; exact h1' e0 hready, fun _ _ => .inr (.inr ⟨rfl, by simp⟩)⟩
  · rename_i hready
    refine ⟨by simp, h2', h3', fun e he => ?_⟩
    rcases h4 e (hk e he) with ⟨e', h'⟩ | h' | h'
    · simp [hready] at h'
    · exact .inr (.inl h')
    · simp_all
  · rename_i f _ hkf _ e0 hres
    exact ⟨h1', by simp, fun e he => by simp at he; subst he; exact h2' f (List.mem_of_getElem? hkf) e0 hres, fun _ _ => .inr (.inr ⟨rfl, by simp⟩)⟩
  · rename_i hpc hemp hop
    have hemp' : s.futs = [] := by simpa using hemp
    refine ⟨h1', h2', by simp, fun e he => ?_⟩
    have hready := htr.gone (by simp [hpc]) (by simpa using hop)
    rcases h4 e (hk e he) with ⟨e', h'⟩ | ⟨f, hf, _⟩ | h'
    · simp [hready] at h'
    · simp [hemp'] at hf
    · simp [hpc] at h'
  · rename_i hpc
    exact ⟨h1', by simp, h3', fun _ _ => .inr (.inr ⟨rfl, by simp [(hinv.all hpc).1]⟩)⟩

/-- **C53.** If it has returned an error, it is one the stream yielded or a publish returned. -/
theorem C53_error_real (h : run limit init ls = some s) {e : ε} (he : s.ret = some (.error e)) : errorIn e ls := (errInv_run h).ret e he

/-- **C53.** No error is lost: if the stream has yielded an error or a publish has failed, `publish_all` does not return `Ok`. -/
theorem C53_error_kept (h : run limit init ls = some s) {u : Unit} (hok : s.ret = some (.ok u)) (e : ε) : ¬ errorIn e ls := by
  intro he
  have hi := inv_run h
  rcases (errInv_run h).kept e he with ⟨e', h'⟩ | ⟨f, hf, h'⟩ | h'
  · simp [(traceInv_run h).okGone u hok] at h'
  · by_cases hp : s.pc = .returned
    · simp [(hi.over hp).1] at hf
    · simp [(hi.all hp).1] at hok
  · exact h'.2 u hok

/-- **C53.** An error ends it at once: the poll of the stream that yields an error, or of a failed publish, makes it return this error. -/
theorem C53_first_error : (∀ e, s.pc = .top → s.opened = true → MayStart limit s.futs.length → s.ready = some (.err e) →
      ∃ s', step limit s .stream = some s' ∧ s'.pc = .returned ∧ s'.ret = some (.error e)) ∧
    (∀ k f e p, s.pc = .futures p → s.futs[k]? = some f → f.res = some (.error e) → ∃ s', step limit s (.fut k) = some s' ∧ s'.pc = .returned ∧ s'.ret = some (.error e)) := by
  constructor
  · intro e h1 h2 h3 h4
    simp [step, h1, h2, room_iff.2 h3, h4]
  · intro k f e p h1 h2 h3
    simp [step, h1, h2, h3]

/-- **C53.** After it has returned (or was dropped) nothing more is taken from the stream or published. -/
theorem C53_stops (h : run limit init ls = some s) (hp : s.pc = .returned) {ls' : List (Label α ε)} (h' : run limit s ls' = some s') :
    s'.items = s.items ∧ s'.sent = s.sent ∧ s'.ret = s.ret := by
  have ho := (inv_run h).over hp
  have key : s'.pc = .returned ∧ s'.futs = [] ∧ s'.items = s.items ∧ s'.sent = s.sent ∧ s'.ret = s.ret := by
    refine Lts.run_inv (P := fun s' : St α ε => s'.pc = .returned ∧ s'.futs = [] ∧ s'.items = s.items ∧ s'.sent = s.sent ∧ s'.ret = s.ret)
      ⟨hp, ho.1, rfl, rfl, rfl⟩ ?_ h'
    rintro a l b ⟨h1, h2, h3⟩ hst
    pub_cases hst l
    all_goals simp_all
  exact key.2.2

/-- **C53, never left asleep.** If the future is pending and nobody has woken the task, then it waits for something: no running publish has finished, and the stream,
unless it has ended or there is no room, has been polled and has no answer; and there is something to wait for. -/
theorem C53_not_asleep (h : run limit init ls = some s) (hp : s.pc = .asleep) (hw : s.woken = false) :
    (∀ f ∈ s.futs, f.res = none) ∧ (s.opened = true → MayStart limit s.futs.length → s.parked = true ∧ s.ready = none) ∧ (s.opened = true ∨ s.futs ≠ []) :=
  have key := (sleepInv_run h).asleep hp hw
  ⟨key.1, fun h1 h2 => key.2.1 h1 (room_iff.2 h2), key.2.2⟩

/-- A step of the loop inside one `poll`, as opposed to the environment's. -/
def Label.inPoll : Label α ε → Bool
  | .stream | .fut _ | .futNone | .futPending | .futYield => true
  | _ => false

/-- Decreases with every step of the loop. -/
def left (s : St α ε) : Nat := 4 * s.ready.isSome.toNat + 2 * s.futs.length + match s.pc with
  | .top => 2
  | .futures true => 3
  | .futures false => 1
  | .asleep | .returned => 0

theorem left_step (hl : l.inPoll = true) (h : step limit s l = some s') : left s' < left s := by
  pub_cases h l
  all_goals try (simp [Label.inPoll] at hl; done)
  all_goals simp_all [left]
  all_goals try omega
  · rename_i hk _ _ _
    have := List.length_eraseIdx_of_lt (List.getElem?_eq_some_iff.1 hk).1
    have := (List.getElem?_eq_some_iff.1 hk).1
    split <;> simp_all <;> omega
  all_goals (split <;> simp_all <;> omega)

/-- **C53, a poll ends.** The loop makes only so many steps before the poll returns, if nothing happens outside meanwhile. -/
theorem C53_poll_ends {ls' : List (Label α ε)} (hl : ∀ l ∈ ls', l.inPoll = true) (h : run limit s ls' = some s') : ls'.length ≤ 2 * s.futs.length + 7 := by
  have key : ∀ (ls' : List (Label α ε)) (s : St α ε), (∀ l ∈ ls', l.inPoll = true) → run limit s ls' = some s' → ls'.length ≤ left s := by
    intro ls'
    induction ls' with
    | nil => intro _ _ _; exact Nat.zero_le _
    | cons l ls' ih =>
      intro s hl h
      obtain ⟨s1, h1, h2⟩ := Lts.run_cons.1 h
      have := left_step (hl l List.mem_cons_self) h1
      have := ih s1 (fun l hm => hl l (List.mem_cons_of_mem _ hm)) h2
      simp only [List.length_cons]; omega
  have h1 := key ls' s hl h
  have h2 : left s ≤ 2 * s.futs.length + 7 := by
    unfold left
    cases s.ready <;> simp only [Option.isSome, Bool.toNat] <;> split <;> simp <;> omega
  omega

/-- **C53, no dead end.** While a poll is running the loop can go on. -/
theorem C53_progress (hp : s.pc = .top ∨ ∃ b, s.pc = .futures b) : ∃ l s', step limit s l = some s' ∧ (l = .stream ∨ (∃ k, l = .fut k) ∨ l = .futNone ∨ l = .futPending) := by
  rcases hp with hp | ⟨b, hp⟩
  · refine ⟨.stream, ?_⟩
    simp only [step, hp]
    cases room limit s.futs.length <;> cases s.opened <;> simp
    rcases s.ready with _ | (_ | _ | _) <;> simp
  · by_cases he : s.futs = []
    · refine ⟨.futNone, ?_⟩
      simp only [step, hp, he]
      cases s.opened <;> simp
    · by_cases hall : s.futs.all (fun f => f.res.isNone) = true
      · exact ⟨.futPending, by simp only [step, hp]; simp [he, hall]⟩
      · simp only [List.all_eq_true, Option.isNone_iff_eq_none, Classical.not_forall] at hall
        obtain ⟨f, hf, hres⟩ := hall
        obtain ⟨k, hk⟩ := List.mem_iff_getElem?.1 hf
        refine ⟨.fut k, ?_⟩
        simp only [step, hp, hk]
        rcases h : f.res with _ | (_ | _)
        · exact absurd h hres
        · simp
        · simp

/-- A run with limit 1 that returns `Ok`, and one in which the second publish fails. -/
def exOk : List (Label Nat String) :=
  [.answer (.item 7), .poll, .stream, .answer (.item 8), .futPending, .stream, .futPending, .send 0, .resolve 0 (.ok ()), .poll, .stream, .fut 0, .stream, .answer .fin,
   .send 0, .futPending, .stream, .futPending, .resolve 0 (.ok ()), .poll, .stream, .fut 0, .stream, .futNone]

example : ∃ s, run (some 1) init exOk = some s ∧ s.ret = some (.ok ()) ∧ s.items = [7, 8] ∧ s.sent = [0, 1] :=
  ⟨_, rfl, by decide, by decide, by decide⟩

/-- The second of two publishes fails first, while the first is still running. -/
def exErr : List (Label Nat String) :=
  [.answer (.item 7), .poll, .stream, .answer (.item 8), .futPending, .stream, .futPending, .stream, .futPending, .send 0, .resolve 1 (.error "no"), .poll, .stream, .fut 1]

/-- With no limit three publishes run at the same time. -/
example : ∃ s, run none init ([.answer (.item 7), .poll, .stream, .answer (.item 8), .futPending, .stream, .answer (.item 9), .futPending, .stream] : List (Label Nat String)) = some s ∧ s.futs.length = 3 :=
  ⟨_, rfl, by decide⟩

example : ∃ s, run (some 2) init exErr = some s ∧ s.ret = some (.error "no") ∧ s.futs = [] ∧ s.sent = [0] := ⟨_, rfl, by decide, by decide, by decide⟩

end PubAll
end Paladin
