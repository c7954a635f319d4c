import Verif.Spec.MapLong
import Verif.Proofs.PubAll
/-! # The map's stream with the loop inside each poll -/
namespace Paladin
namespace MapLong

variable {α ε : Type} {limit : Option Nat} {s s' : St α ε} {l : Label α ε} {ls : List (Label α ε)}

/-! ## Endless inputs -/

/-- What a running publish still needs: sending, finishing, being collected. -/
def need (f : PubAll.Fut ε) : Nat := 3 - f.sent.toNat - f.res.isSome.toNat

/-- The executions with an input that is always there: before the first poll, or at one of two places in the loop of the first poll. -/
inductive Shape : St α ε → Prop
  | before (s : St α ε) (hp : s.pos = .outside) (hf : s.leftFirst = true) (h1 : s.pub.pc = .asleep) (h2 : s.pub.items = []) (h3 : s.pub.sent = []) (h4 : s.pub.futs = []) (h5 : s.pub.opened = true)
      (h6 : ∀ r, s.pub.ready = some r → ∃ a, r = .item a) (ho : s.outs = []) (hy : s.yielded = 0) : Shape s
  | top (s : St α ε) (hp : s.pos = .left false) (h1 : s.pub.pc = .top) (h3 : s.pub.sent.length = s.pub.items.length) (h4 : s.pub.futs = []) (h5 : s.pub.opened = true)
      (h6 : ∀ r, s.pub.ready = some r → ∃ a, r = .item a) (ho : s.outs = []) (hy : s.yielded = 0) : Shape s
  | futures (s : St α ε) (f : PubAll.Fut ε) (hp : s.pos = .left false) (h1 : s.pub.pc = .futures true) (h3 : 0 < s.pub.items.length ∧ s.pub.sent.length + 1 = s.pub.items.length + f.sent.toNat)
      (h4 : s.pub.futs = [f]) (hr : f.res = none ∨ f.sent = true ∧ f.res = some (.ok ())) (h5 : s.pub.opened = true)
      (h6 : ∀ r, s.pub.ready = some r → ∃ a, r = .item a) (ho : s.outs = []) (hy : s.yielded = 0) : Shape s

theorem room_zero (limit : Option Nat) : PubAll.room limit 0 = true := by
  rcases limit with _ | (_ | n) <;> simp [PubAll.room]

/-- Number of steps made so far, arrivals apart. -/
def made (s : St α ε) : Nat :=
  (match s.pos with | .outside => 0 | _ => 1) + (5 * s.pub.items.length + s.pub.ready.isSome.toNat) - (s.pub.futs.map need).sum

theorem shape_step (hi : Shape s) (he : l.isEnd = false) (h : stepReady limit s l = some s') : Shape s' ∧ made s' = made s + (if l.isArrive then 0 else 1) := by
  unfold stepReady at h
  split at h
  case isFalse => simp at h
  rename_i hal
  cases l with
  | poll =>
    cases hi with
    | before hp hf h1 h2 h3 h4 h5 h6 ho hy =>
      simp [step, hp, St.leftOver, h1, hf] at h
      subst h
      exact ⟨.top _ rfl rfl (by simp [St.enterLeft, h2, h3]) h4 h5 h6 ho hy, by simp [made, St.enterLeft, hp, h2, h4, Label.isArrive]; omega⟩
    | top hp => simp [step, hp] at h
    | futures f hp => simp [step, hp] at h
  | leave =>
    cases hi with
    | before hp => simp [step, hp] at h
    | top hp h1 => simp [step, hp, h1] at h
    | futures f hp h1 => simp [step, hp, h1] at h
  | recv =>
    cases hi with
    | before hp => simp [step, hp] at h
    | top hp h1 => simp [step, hp] at h
    | futures f hp h1 => simp [step, hp] at h
  | arrive =>
    simp only [step] at h
    split at h
    case isFalse => simp at h
    simp at h
    subst h
    refine ⟨?_, by simp [made, Label.isArrive]⟩
    cases hi with
    | before hp hf h1 h2 h3 h4 h5 h6 ho hy => exact .before _ hp hf h1 h2 h3 h4 h5 h6 ho hy
    | top hp h1 h3 h4 h5 h6 ho hy => exact .top _ hp h1 h3 h4 h5 h6 ho hy
    | futures f hp h1 h3 h4 hr h5 h6 ho hy => exact .futures _ f hp h1 h3 h4 hr h5 h6 ho hy
  | inner l =>
    cases hi with
    | before hp => simp [step, hp] at h
    | top hp h1 h3 h4 h5 h6 ho hy =>
      cases l with
      | stream =>
        simp only [allowed] at hal
        obtain ⟨r, hr⟩ := Option.isSome_iff_exists.1 hal
        obtain ⟨a, rfl⟩ := h6 r hr
        simp [step, hp, isLoop, PubAll.step, h1, h4, h5, hr, room_zero] at h
        subst h
        refine ⟨.futures _ ⟨s.pub.items.length, false, none⟩ rfl rfl (by simp [h3]) rfl (.inl rfl) rfl (by simp) ho hy, ?_⟩
        simp [made, hp, hr, h4, need, Label.isArrive]; omega
      | futPending => simp [allowed] at hal
      | futYield => simp [allowed] at hal
      | _ => simp [step, hp, isLoop, PubAll.step, h1] at h
    | futures f hp h1 h3 h4 hr h5 h6 ho hy =>
      cases l with
      | fut k =>
        cases k with
        | succ k => simp [step, hp, isLoop, PubAll.step, h1, h4] at h
        | zero =>
          rcases hr with hr | ⟨hs, hr⟩
          · simp [step, hp, isLoop, PubAll.step, h1, h4, hr] at h
          · simp [step, hp, isLoop, PubAll.step, h1, h4, hr] at h
            subst h
            refine ⟨.top _ rfl rfl (by simp [hs] at h3; exact h3.2) (by simp) h5 h6 ho hy, ?_⟩
            simp [made, hp, h4, need, hs, hr, Label.isArrive]
            exact Nat.add_comm _ _
      | futPending => simp [allowed] at hal
      | futYield => simp [allowed] at hal
      | futNone => simp [step, hp, isLoop, PubAll.step, h1, h4] at h
      | _ => simp [step, hp, isLoop, PubAll.step, h1] at h
  | outer l =>
    cases l with
    | answer a =>
      cases a with
      | item a =>
        simp only [step, isOuter, PubAll.step, if_true] at h
        split at h
        case isFalse => simp at h
        rename_i hno
        simp at hno h
        subst h
        refine ⟨?_, ?_⟩
        rotate_left
        · cases hi with
          | before hp hf h1 h2 h3 h4 => simp [made, hno.1, Label.isArrive, h2, h4, hp]
          | top hp h1 h3 h4 => simp [made, hno.1, Label.isArrive, h4, hp]; omega
          | futures f hp h1 h3 h4 =>
            have := h3.1
            simp [made, hno.1, Label.isArrive, h4, hp, need]
            omega
        cases hi with
        | before hp hf h1 h2 h3 h4 h5 h6 ho hy => exact .before _ hp hf h1 h2 h3 h4 h5 (by simp) ho hy
        | top hp h1 h3 h4 h5 h6 ho hy => exact .top _ hp h1 h3 h4 h5 (by simp) ho hy
        | futures f hp h1 h3 h4 hr h5 h6 ho hy => exact .futures _ f hp h1 h3 h4 hr h5 (by simp) ho hy
      | err e => simp [allowed] at hal
      | fin => simp [Label.isEnd] at he
    | send k =>
      cases hi with
      | before hp hf h1 h2 h3 h4 h5 h6 ho hy => simp [step, isOuter, PubAll.step, h4] at h
      | top hp h1 h3 h4 h5 h6 ho hy => simp [step, isOuter, PubAll.step, h4] at h
      | futures f hp h1 h3 h4 hr h5 h6 ho hy =>
        cases k with
        | succ k => simp [step, isOuter, PubAll.step, h4] at h
        | zero =>
          simp only [step, isOuter, PubAll.step, h4, if_true, List.getElem?_cons_zero] at h
          split at h
          case isTrue => simp at h
          rename_i hns
          simp at hns h
          subst h
          refine ⟨.futures _ { f with sent := true } hp h1 (by simp [hns.1] at h3 ⊢; omega) (by simp) (.inl hns.2) h5 h6 ho hy, ?_⟩
          have := h3.1
          simp [made, hp, h4, need, hns.1, hns.2, Label.isArrive]; omega
    | resolve k r =>
      cases hi with
      | before hp hf h1 h2 h3 h4 h5 h6 ho hy => simp [step, isOuter, PubAll.step, h4] at h
      | top hp h1 h3 h4 h5 h6 ho hy => simp [step, isOuter, PubAll.step, h4] at h
      | futures f hp h1 h3 h4 hr h5 h6 ho hy =>
        cases k with
        | succ k => simp [step, isOuter, PubAll.step, h4] at h
        | zero =>
          simp only [step, isOuter, PubAll.step, h4, if_true, List.getElem?_cons_zero] at h
          split at h
          case isTrue => simp at h
          rename_i hns
          have hok : r = .ok () := by
            cases r with
            | ok u => rfl
            | error e => simp [allowed, Except.isOk, Except.toBool] at hal
          subst hok
          simp [Except.isOk, Except.toBool] at hns h
          subst h
          refine ⟨.futures _ { f with res := some (.ok ()) } hp h1 h3 (by simp) (.inr ⟨hns.2, rfl⟩) h5 h6 ho hy, ?_⟩
          have := h3.1
          simp [made, hp, h4, need, hns.1, hns.2, Label.isArrive]
          generalize s.pub.ready.isSome.toNat = r
          omega
    | _ => simp [step, isOuter] at h

theorem shape_run (h : Lts.run (stepReady limit) init ls = some s) (he : ∀ l ∈ ls, l.isEnd = false) : Shape s ∧ made s = ls.countP (fun l => !l.isArrive) := by
  refine Lts.run_induction (step := stepReady limit) (P := fun ls s => (∀ l ∈ ls, l.isEnd = false) → Shape s ∧ made s = ls.countP (fun l => !l.isArrive)) ?_ ?_ ls s h he
  · intro _
    refine ⟨.before _ rfl rfl rfl rfl rfl rfl rfl (by simp [init, PubAll.init]) rfl rfl, by simp [made, init, PubAll.init]⟩
  · intro ls l s s' _ ih hs he
    have ih := ih (fun x hx => he x (List.mem_append_left _ hx))
    obtain ⟨h1, h2⟩ := shape_step ih.1 (he l (by simp)) hs
    refine ⟨h1, ?_⟩
    rw [h2, ih.2, List.countP_append]
    cases hl : l.isArrive <;> simp [hl]

theorem shape_next (a : α) (hi : Shape s) : ∃ l s', l.isEnd = false ∧ l.isArrive = false ∧ stepReady limit s l = some s' := by
  have ans : s.pub.ready = none → s.pub.opened = true → ∃ l s', l.isEnd = false ∧ l.isArrive = false ∧ stepReady limit s l = some s' := by
    intro h1 h2
    exact ⟨.outer (.answer (.item a)), { s with pub := { s.pub with ready := some (.item a), woken := s.pub.woken || s.pub.parked } }, rfl, rfl, by simp [stepReady, allowed, step, isOuter, PubAll.step, h1, h2]⟩
  cases hi with
  | before hp hf h1 h2 h3 h4 h5 h6 ho hy =>
    exact ⟨.poll, { s with leftFirst := false }.enterLeft false, rfl, rfl, by simp [stepReady, allowed, step, hp, St.leftOver, h1, hf]⟩
  | top hp h1 h3 h4 h5 h6 ho hy =>
    cases hr : s.pub.ready with
    | none => exact ans hr h5
    | some r =>
      obtain ⟨b, rfl⟩ := h6 r hr
      refine ⟨.inner .stream, ?_⟩
      simp [stepReady, allowed, hr, step, hp, isLoop, PubAll.step, h1, h4, h5, room_zero, Label.isArrive, Label.isEnd]
  | futures f hp h1 h3 h4 hr h5 h6 ho hy =>
    rcases hr with hr | ⟨hs, hr⟩
    · by_cases hs : f.sent = true
      · refine ⟨.outer (.resolve 0 (.ok ())), ?_⟩
        simp [stepReady, allowed, step, isOuter, PubAll.step, h4, hr, hs, Label.isArrive, Label.isEnd, Except.isOk, Except.toBool]
      · refine ⟨.outer (.send 0), ?_⟩
        simp [stepReady, allowed, step, isOuter, PubAll.step, h4, hr, hs, Label.isArrive, Label.isEnd]
    · refine ⟨.inner (.fut 0), ?_⟩
      simp [stepReady, allowed, step, hp, isLoop, PubAll.step, h1, h4, hr, Label.isArrive, Label.isEnd]

/-! ## A poll returns -/

/-- Outside the sending side its loop is not running. -/
def PosInv (s : St α ε) : Prop := match s.pos with
  | .outside | .right true => s.pub.pc = .asleep ∨ s.pub.pc = .returned
  | .right false => s.pub.pc = .asleep
  | .left _ => True

theorem outer_pc {p p' : PubAll.St α ε} {l : PubAll.Label α ε} (ho : isOuter l = true) (h : PubAll.step limit p l = some p') : p'.pc = p.pc := by
  cases l with
  | answer | send | resolve =>
    simp only [PubAll.step] at h
    repeat' split at h
    all_goals simp at h
    all_goals subst h; rfl
  | _ => simp [isOuter] at ho

theorem posInv_step (hi : PosInv s) (h : step limit s l = some s') : PosInv s' := by
  cases l with
  | poll =>
    simp only [step] at h
    repeat' split at h
    all_goals simp at h
    all_goals subst h
    all_goals simp_all [PosInv, St.enterLeft, St.leftOver]
  | inner l =>
    simp only [step] at h
    split at h
    · rename_i hp
      split at h
      · simp at h
        obtain ⟨p, _, rfl⟩ := h
        simp [PosInv, hp]
      · simp at h
    · simp at h
  | leave =>
    simp only [step] at h
    repeat' split at h
    all_goals simp at h
    all_goals subst h
    all_goals try split
    all_goals simp_all [PosInv, St.give]
  | recv =>
    simp only [step] at h
    split at h
    · rename_i second hp
      have hpc : s.pub.pc = .asleep ∨ s.pub.pc = .returned := by
        unfold PosInv at hi; rw [hp] at hi; cases second <;> simp_all
      repeat' split at h
      all_goals simp at h
      all_goals subst h
      all_goals simp_all [PosInv, St.give, St.enterLeft]
    · simp at h
  | outer l =>
    simp only [step] at h
    split at h
    · rename_i ho
      simp at h
      obtain ⟨p, hp, rfl⟩ := h
      have := outer_pc ho hp
      simpa [PosInv, this] using hi
    · simp at h
  | arrive =>
    simp only [step] at h
    split at h
    · simp at h; subst h; exact hi
    · simp at h

theorem posInv_run (h : run limit init ls = some s) : PosInv s :=
  Lts.run_inv (P := PosInv) (by simp [PosInv, init, PubAll.init]) (fun _ _ _ hi hs => posInv_step hi hs) h

/-- Finished publishes not yet collected. -/
def through (p : PubAll.St α ε) : Nat := p.futs.countP fun f => f.res.isSome

def pcWeight : PubAll.Pc → Nat
  | .top => 2
  | .futures true => 3
  | .futures false => 1
  | .asleep | .returned => 0

def posWeight : At → Nat
  | .outside => 0
  | .right true => 1
  | .left true => 1
  | .left false => 2
  | .right false => 4

/-- How long the loop can go on with room for `n` publishes. -/
def loopLeft (n : Nat) (p : PubAll.St α ε) : Nat := if p.pc = .returned then 0 else 4 * (n - p.futs.length) + 6 * through p + pcWeight p.pc

def pollLeft (n : Nat) (s : St α ε) : Nat := loopLeft n s.pub + posWeight s.pos

theorem through_set {p : PubAll.St α ε} {k : Nat} {f g : PubAll.Fut ε} (hk : p.futs[k]? = some f) (hf : f.res = none) :
    (p.futs.set k g).countP (fun f => f.res.isSome) ≤ p.futs.countP (fun f => f.res.isSome) + g.res.isSome.toNat := by
  obtain ⟨hlt, he⟩ := List.getElem?_eq_some_iff.1 hk
  rw [List.countP_set]
  · subst he
    simp [hf]
    cases g.res <;> simp
  · exact hlt

theorem loop_step {n : Nat} {p p' : PubAll.St α ε} {l : PubAll.Label α ε} (hn : n ≠ 0) (hl : isLoop l = true) (h : PubAll.step (some n) p l = some p') :
    loopLeft n p' + 1 ≤ loopLeft n p := by
  cases l with
  | stream =>
    simp only [PubAll.step] at h
    split at h
    case h_2 => simp at h
    rename_i hpc
    split at h
    · rename_i hroom
      have hlt : p.futs.length < n := by
        simp only [PubAll.room] at hroom
        cases n with
        | zero => exact absurd rfl hn
        | succ n => simpa using hroom
      repeat' split at h
      all_goals simp at h
      all_goals subst h
      all_goals simp [loopLeft, hpc, pcWeight, through]
      all_goals omega
    · simp at h; subst h
      simp [loopLeft, hpc, pcWeight, through]
  | fut k =>
    simp only [PubAll.step] at h
    split at h
    case h_2 => simp at h
    rename_i b f hpc hk
    obtain ⟨hlt, he⟩ := List.getElem?_eq_some_iff.1 hk
    have hpos : 1 ≤ pcWeight p.pc := by rw [hpc]; cases b <;> simp [pcWeight]
    split at h
    · rename_i hres
      simp at h; subst h
      have hc : (p.futs.eraseIdx k).countP (fun f => f.res.isSome) + 1 = p.futs.countP (fun f => f.res.isSome) := by
        have := InMem.countP_eraseIdx' (f := fun f : PubAll.Fut ε => f.res.isSome) hk
        simp [hres] at this
        omega
      have hl := List.length_eraseIdx_of_lt hlt
      simp only [loopLeft, hpc, through, reduceCtorEq, if_false, pcWeight, hl]
      rw [hpc] at hpos
      simp only [pcWeight] at hpos
      omega
    · simp at h; subst h
      simp only [loopLeft, if_true, hpc, reduceCtorEq, if_false]
      rw [hpc] at hpos
      omega
    · simp at h
  | futNone =>
    simp only [PubAll.step] at h
    repeat' split at h
    all_goals simp at h
    all_goals subst h
    all_goals (rename_i b hpc _ _; cases b <;> simp [loopLeft, PubAll.again, hpc, pcWeight, through])
    all_goals omega
  | futPending =>
    simp only [PubAll.step] at h
    repeat' split at h
    all_goals simp at h
    all_goals subst h
    all_goals (rename_i b hpc _; cases b <;> simp [loopLeft, PubAll.again, hpc, pcWeight, through])
  | futYield =>
    simp only [PubAll.step] at h
    repeat' split at h
    all_goals simp at h
    all_goals subst h
    all_goals (rename_i b hpc _; cases b <;> simp [loopLeft, PubAll.again, hpc, pcWeight, through])
  | _ => simp [isLoop] at hl

theorem outer_left {n : Nat} {p p' : PubAll.St α ε} {l : PubAll.Label α ε} (ho : isOuter l = true) (h : PubAll.step (some n) p l = some p') :
    loopLeft n p' ≤ loopLeft n p + (if (Label.outer l).isResolve then 6 else 0) := by
  have hpc := outer_pc ho h
  cases l with
  | answer a =>
    simp only [PubAll.step] at h
    split at h <;> simp at h
    subst h; simp [loopLeft, through]
  | send k =>
    simp only [PubAll.step] at h
    repeat' split at h
    all_goals simp at h
    rename_i f hk hns
    simp at hns
    have := through_set (g := { f with sent := true }) hk hns.2
    subst h
    simp only [loopLeft, through, List.length_set]
    simp only [hns.2] at this ⊢
    simp at this
    split <;> simp [Label.isResolve] <;> omega
  | resolve k r =>
    simp only [PubAll.step] at h
    repeat' split at h
    all_goals simp at h
    rename_i f hk hns
    simp at hns
    have := through_set (g := { f with res := some r }) hk hns.1
    subst h
    simp only [loopLeft, through, List.length_set, Label.isResolve]
    simp at this
    split <;> simp <;> omega
  | _ => simp [isOuter] at ho

theorem pollLeft_step {n : Nat} (hn : n ≠ 0) (hi : PosInv s) (hp : l.isPoll = false) (h : step (some n) s l = some s') :
    pollLeft n s' + l.isOwn.toNat ≤ pollLeft n s + (if l.isResolve then 6 else 0) := by
  cases l with
  | poll => simp [Label.isPoll] at hp
  | inner l =>
    simp only [step] at h
    split at h
    · rename_i second hpos
      split at h
      · rename_i hl
        simp at h
        obtain ⟨p, hp', rfl⟩ := h
        have := loop_step hn hl hp'
        simp [pollLeft, Label.isOwn, Label.isResolve]; omega
      · simp at h
    · simp at h
  | leave =>
    simp only [step] at h
    split at h
    · rename_i second hpos
      have hw : pollLeft n s = loopLeft n s.pub + posWeight (.left second) := by simp [pollLeft, hpos]
      rw [hw]
      repeat' split at h
      all_goals simp at h
      all_goals subst h
      all_goals cases second <;> simp_all [pollLeft, St.give, posWeight, Label.isOwn, Label.isResolve]
    · simp at h
  | recv =>
    simp only [step] at h
    split at h
    · rename_i second hpos
      have hw : pollLeft n s = loopLeft n s.pub + posWeight (.right second) := by simp [pollLeft, hpos]
      rw [hw]
      repeat' split at h
      all_goals simp at h
      all_goals subst h
      · cases second <;> simp [pollLeft, St.give, posWeight, Label.isOwn, Label.isResolve]
      · cases second <;> simp [pollLeft, St.give, posWeight, Label.isOwn, Label.isResolve]
      · rename_i hs
        subst hs
        simp [pollLeft, St.give, posWeight, Label.isOwn, Label.isResolve]
      · rename_i hs
        have hs : second = false := by simpa using hs
        subst hs
        have hpc : s.pub.pc = .asleep := by unfold PosInv at hi; rw [hpos] at hi; exact hi
        simp [pollLeft, St.enterLeft, posWeight, Label.isOwn, Label.isResolve, loopLeft, hpc, pcWeight, through]
    · simp at h
  | outer l =>
    simp only [step] at h
    split at h
    · rename_i ho
      simp at h
      obtain ⟨p, hp', rfl⟩ := h
      have := outer_left ho hp'
      simp [pollLeft, Label.isOwn]; omega
    · simp at h
  | arrive =>
    simp only [step] at h
    split at h
    · simp at h; subst h; simp [pollLeft, Label.isOwn, Label.isResolve]
    · simp at h

theorem pollLeft_run {n : Nat} (hn : n ≠ 0) (hi : PosInv s) (hp : ∀ l ∈ ls, l.isPoll = false) (h : run (some n) s ls = some s') :
    pollLeft n s' + ls.countP Label.isOwn ≤ pollLeft n s + 6 * ls.countP Label.isResolve := by
  induction ls generalizing s with
  | nil => simp at h; subst h; simp
  | cons l ls ih =>
    obtain ⟨s1, h1, h2⟩ := Lts.run_cons.1 h
    have ha := pollLeft_step hn hi (hp l (by simp)) h1
    have hb := ih (posInv_step hi h1) (fun x hx => hp x (by simp [hx])) h2
    rw [List.countP_cons, List.countP_cons]
    cases hl : l.isOwn <;> cases hr : l.isResolve <;> simp [hl, hr] at ha ⊢ <;> omega

/-- The sending side alone, as an execution of `publish_all`. -/
theorem pub_run (h : run limit init ls = some s) : ∃ ps, PubAll.run limit PubAll.init ps = some s.pub := by
  refine Lts.run_induction (step := step limit) (P := fun _ (s : St α ε) => PosInv s ∧ ∃ ps, PubAll.run limit PubAll.init ps = some s.pub) ?_ ?_ ls s h |>.2
  · exact ⟨by simp [PosInv, init, PubAll.init], [], rfl⟩
  · rintro ls l s s' _ ⟨hi, ps, ih⟩ hs
    refine ⟨posInv_step hi hs, ?_⟩
    have ent : ∀ {t : St α ε} {b : Bool}, t.pub = s.pub → s.pub.pc = .asleep → ∃ ps, PubAll.run limit PubAll.init ps = some (t.enterLeft b).pub := by
      intro t b ht hpc
      refine ⟨ps ++ [.poll], Lts.run_snoc.2 ⟨_, ih, ?_⟩⟩
      simp [PubAll.step, hpc, St.enterLeft, ht]
    cases l with
    | poll =>
      simp only [step] at hs
      repeat' split at hs
      all_goals simp at hs
      all_goals subst hs
      · exact ⟨ps, ih⟩
      · rename_i hpos hlo _
        have hpc : s.pub.pc = .asleep := by
          unfold PosInv at hi; rw [hpos] at hi
          simp [St.leftOver] at hlo
          exact hi.resolve_right hlo
        exact ent (t := { s with leftFirst := false }) rfl hpc
      · exact ⟨ps, ih⟩
    | inner l =>
      simp only [step] at hs
      repeat' split at hs
      all_goals simp at hs
      obtain ⟨p, hp, rfl⟩ := hs
      exact ⟨ps ++ [l], Lts.run_snoc.2 ⟨_, ih, hp⟩⟩
    | leave =>
      simp only [step] at hs
      repeat' split at hs
      all_goals simp at hs
      all_goals subst hs
      all_goals first | exact ⟨ps, ih⟩ | (split <;> exact ⟨ps, ih⟩)
    | recv =>
      simp only [step] at hs
      split at hs
      · rename_i second hpos
        repeat' split at hs
        all_goals simp at hs
        all_goals subst hs
        · exact ⟨ps, ih⟩
        · exact ⟨ps, ih⟩
        · exact ⟨ps, ih⟩
        · rename_i hsec
          have hsec : second = false := by simpa using hsec
          subst hsec
          have hpc : s.pub.pc = .asleep := by unfold PosInv at hi; rw [hpos] at hi; exact hi
          exact ent rfl hpc
      · simp at hs
    | outer l =>
      simp only [step] at hs
      split at hs
      · simp at hs
        obtain ⟨p, hp, rfl⟩ := hs
        exact ⟨ps ++ [l], Lts.run_snoc.2 ⟨_, ih, hp⟩⟩
      · simp at hs
    | arrive =>
      simp only [step] at hs
      split at hs
      · simp at hs; subst hs; exact ⟨ps, ih⟩
      · simp at hs

/-! ## A result that is there is yielded -/

/-- Inside a poll that began when a result was there. -/
def Due (s0 : St α ε) (s : St α ε) : Prop :=
  (0 < s.results ∧ s.yielded = s0.yielded ∧ s.outs = s0.outs ∧ ((∃ b, s.pos = .right b) ∨ s.pos = .left false)) ∨
    s.pos = .outside ∧ ((s.yielded = s0.yielded + 1 ∧ s.outs = .result :: s0.outs) ∨ s.yielded = s0.yielded ∧ ∃ e, s.outs = .err e :: s0.outs)

theorem due_step {s0 : St α ε} (hi : Due s0 s) (hp : l.isPoll = false) (h : step limit s l = some s') : Due s0 s' := by
  rcases hi with ⟨h1, h2, h3, h4⟩ | ⟨h1, h2⟩
  · cases l with
    | poll => simp [Label.isPoll] at hp
    | inner l =>
      simp only [step] at h
      repeat' split at h
      all_goals simp at h
      obtain ⟨p, _, rfl⟩ := h
      exact .inl ⟨h1, h2, h3, h4⟩
    | leave =>
      simp only [step] at h
      split at h
      · rename_i second hpos
        have : second = false := by rcases h4 with ⟨b, h4⟩ | h4 <;> rw [hpos] at h4 <;> simp_all
        subst this
        simp only [Bool.false_eq_true, if_false] at h
        split at h
        all_goals simp at h
        all_goals subst h
        · exact .inl ⟨h1, h2, h3, .inl ⟨true, rfl⟩⟩
        · exact .inr ⟨rfl, .inr ⟨h2, _, by simp only [St.give, h3]; rfl⟩⟩
        · exact .inl ⟨h1, h2, h3, .inl ⟨true, rfl⟩⟩
      · simp at h
    | recv =>
      simp only [step, h1, if_true] at h
      split at h
      · simp at h; subst h
        exact .inr ⟨rfl, .inl ⟨by simp [St.give, h2], by simp [St.give, h3]⟩⟩
      · simp at h
    | outer l =>
      simp only [step] at h
      split at h
      · simp at h
        obtain ⟨p, _, rfl⟩ := h
        exact .inl ⟨h1, h2, h3, h4⟩
      · simp at h
    | arrive =>
      simp only [step] at h
      split at h
      · simp at h; subst h; exact .inl ⟨Nat.succ_pos _, h2, h3, h4⟩
      · simp at h
  · cases l with
    | poll => simp [Label.isPoll] at hp
    | inner l => simp [step, h1] at h
    | leave => simp [step, h1] at h
    | recv => simp [step, h1] at h
    | outer l =>
      simp only [step] at h
      split at h
      · simp at h
        obtain ⟨p, _, rfl⟩ := h
        exact .inr ⟨h1, h2⟩
      · simp at h
    | arrive =>
      simp only [step] at h
      split at h
      · simp at h; subst h; exact .inr ⟨h1, h2⟩
      · simp at h

theorem due_run {s0 : St α ε} (hi : Due s0 s) (hp : ∀ l ∈ ls, l.isPoll = false) (h : run limit s ls = some s') : Due s0 s' := by
  induction ls generalizing s with
  | nil => simp at h; subst h; exact hi
  | cons l ls ih =>
    obtain ⟨s1, h1, h2⟩ := Lts.run_cons.1 h
    exact ih (due_step hi (hp l (by simp)) h1) (fun x hx => hp x (by simp [hx])) h2


/-! ## The two sides take turns -/

/-- The sending side is being polled and has done nothing yet. -/
def AtTop (s : St α ε) : Prop := (∃ b, s.pos = .left b) ∧ s.pub.pc = .top

/-- The sending side is over and the poll is not in it. -/
def Over (s : St α ε) : Prop := s.pub.pc = .returned ∧ (s.pos = .right true ∨ s.pos = .outside)

/-- It is the sending side's turn next. -/
def Turn (s : St α ε) : Prop := (s.leftFirst = true ∧ s.pub.pc ≠ .returned ∧ (s.pos = .right false ∨ s.pos = .outside)) ∨ AtTop s

theorem outer_eq (h : step limit s (.outer x) = some s') : s'.pos = s.pos ∧ s'.leftFirst = s.leftFirst ∧ s'.pub.pc = s.pub.pc := by
  simp only [step] at h
  split at h
  · rename_i ho
    simp only [Option.map_eq_some_iff] at h
    obtain ⟨p, hp, rfl⟩ := h
    exact ⟨rfl, rfl, outer_pc ho hp⟩
  · cases h

theorem over_step (hi : Over s) (h : step limit s l = some s') : Over s' := by
  obtain ⟨h1, h2⟩ := hi
  cases l with
  | outer x => obtain ⟨e1, -, e3⟩ := outer_eq h; exact ⟨e3.trans h1, by rw [e1]; exact h2⟩
  | arrive => simp only [step] at h; split at h <;> simp only [Option.some.injEq, reduceCtorEq] at h; subst h; exact ⟨h1, h2⟩
  | _ =>
    rcases h2 with h2 | h2 <;> simp only [step, h2, St.leftOver, h1, beq_self_eq_true, if_true, Bool.true_and] at h <;> (repeat' split at h) <;>
      simp only [Option.some.injEq, reduceCtorEq] at h <;> subst h <;> first | exact ⟨h1, .inl rfl⟩ | exact ⟨h1, .inr rfl⟩

theorem top_step (hi : AtTop s) (hl : l.isInner = false) (h : step limit s l = some s') : AtTop s' := by
  obtain ⟨⟨b, h1⟩, h2⟩ := hi
  cases l with
  | outer x => obtain ⟨e1, -, e3⟩ := outer_eq h; exact ⟨⟨b, e1.trans h1⟩, e3.trans h2⟩
  | arrive => simp only [step] at h; split at h <;> simp only [Option.some.injEq, reduceCtorEq] at h; subst h; exact ⟨⟨b, h1⟩, h2⟩
  | inner x => simp [Label.isInner] at hl
  | poll => simp [step, h1] at h
  | leave => simp [step, h1, h2] at h
  | recv => simp [step, h1] at h

theorem turn_step (hi : Turn s) (hl : l.isInner = false) (hp : l.isPoll = false) (h : step limit s l = some s') : Turn s' := by
  rcases hi with ⟨h1, h2, h3⟩ | hi
  · cases l with
    | outer x => obtain ⟨e1, e2, e3⟩ := outer_eq h; exact .inl ⟨e2.trans h1, by rw [e3]; exact h2, by rw [e1]; exact h3⟩
    | arrive => simp only [step] at h; split at h <;> simp only [Option.some.injEq, reduceCtorEq] at h; subst h; exact .inl ⟨h1, h2, h3⟩
    | inner x => simp [Label.isInner] at hl
    | poll => simp [Label.isPoll] at hp
    | leave => rcases h3 with h3 | h3 <;> simp [step, h3] at h
    | recv =>
      rcases h3 with h3 | h3 <;> simp only [step, h3, reduceCtorEq] at h
      (repeat' split at h) <;> simp only [Option.some.injEq, reduceCtorEq] at h
      · subst h; exact .inl ⟨h1, h2, .inr rfl⟩
      · rename_i hc; simp [St.leftOver, h2] at hc
      · simp at *
      · subst h; exact .inr ⟨⟨true, rfl⟩, rfl⟩
  · exact .inr (top_step hi hl h)

theorem seg {P : St α ε → Prop} {Q : Label α ε → Prop} (hstep : ∀ s l s', P s → Q l → step limit s l = some s' → P s') :
    ∀ {ls : List (Label α ε)} {s s' : St α ε}, P s → (∀ l ∈ ls, Q l) → run limit s ls = some s' → P s'
  | [], s, s', hi, _, h => by simp only [Lts.run_nil, Option.some.injEq] at h; subst h; exact hi
  | l :: ls, s, s', hi, hq, h => by
    obtain ⟨s1, h1, h2⟩ := Lts.run_cons.1 h
    exact seg hstep (hstep _ _ _ hi (hq l (by simp)) h1) (fun x hx => hq x (by simp [hx])) h2

theorem turns {ls1 ls2 : List (Label α ε)} (h : run limit s (.poll :: ls1 ++ .poll :: ls2) = some s') (hp1 : ∀ l ∈ ls1, l.isPoll = false)
    (hn : ∀ l ∈ ls1 ++ ls2, l.isInner = false) : s'.pos ≠ .outside ∨ s'.leftOver = true := by
  obtain ⟨a, ha, hb⟩ := Lts.run_append.1 h
  obtain ⟨s1, h1, h2⟩ := Lts.run_cons.1 ha
  obtain ⟨a1, h3, h4⟩ := Lts.run_cons.1 hb
  have n1 : ∀ l ∈ ls1, l.isInner = false := fun l hl => hn l (by simp [hl])
  have n2 : ∀ l ∈ ls2, l.isInner = false := fun l hl => hn l (by simp [hl])
  have over : ∀ {t t' : St α ε} {ls : List (Label α ε)}, Over t → run limit t ls = some t' → Over t' := fun ho hr => Lts.run_inv (P := Over) ho (fun _ _ _ hi hs => over_step hi hs) hr
  have out : ∀ {t : St α ε}, AtTop t → t.pos ≠ .outside := by rintro t ⟨⟨b, hb⟩, -⟩ hx; rw [hx] at hb; cases hb
  have nopoll : ∀ {t t' : St α ε}, step limit t .poll = some t' → t.pos = .outside := by
    intro t t' hs
    simp only [step] at hs
    split at hs
    · assumption
    · cases hs
  have fin : ∀ {t t' : St α ε}, Over t → t.leftOver = true := by rintro t t' ⟨e, -⟩; simp [St.leftOver, e]
  simp only [step, nopoll h1] at h1
  split at h1
  · rename_i ho
    simp only [Option.some.injEq] at h1
    subst h1
    have hov : Over { s with pos := At.right true } := ⟨by simpa [St.leftOver] using ho, .inl rfl⟩
    exact .inr (fin (t' := s') (over (over_step (over hov h2) h3) h4))
  · rename_i ho
    split at h1
    · simp only [Option.some.injEq] at h1
      subst h1
      have := seg (P := AtTop) (Q := fun l => l.isInner = false) (fun _ _ _ hi hl hs => top_step hi hl hs) ⟨⟨false, rfl⟩, rfl⟩ n1 h2
      exact absurd (nopoll h3) (out this)
    · simp only [Option.some.injEq] at h1
      subst h1
      have ht := seg (P := Turn) (Q := fun l => l.isInner = false ∧ l.isPoll = false) (fun _ _ _ hi hl hs => turn_step hi hl.1 hl.2 hs)
        (.inl ⟨rfl, by simpa [St.leftOver] using ho, .inl rfl⟩) (fun l hl => ⟨n1 l hl, hp1 l hl⟩) h2
      rcases ht with ⟨e1, e2, e3⟩ | ht
      · simp only [step, nopoll h3] at h3
        rw [if_neg (by simpa [St.leftOver] using e2), if_pos e1] at h3
        simp only [Option.some.injEq] at h3
        subst h3
        exact .inl (out (seg (P := AtTop) (Q := fun l => l.isInner = false) (fun _ _ _ hi hl hs => top_step hi hl hs) ⟨⟨false, rfl⟩, rfl⟩ n2 h4))
      · exact absurd (nopoll h3) (out ht)

end MapLong
end Paladin
