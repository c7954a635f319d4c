import Verif.Proofs.MapLong
import Verif.Props.PubAll
/-!
# A map yields results while its input goes on (C93)

False where neither the input nor publishing ever makes the sending side wait: `C93_endless`, `C93_goes_on`. The others say when it is true.
-/
namespace Paladin
namespace MapLong

variable {α ε : Type} {lim : Option Nat} {s s' : St α ε} {l : Label α ε} {ls : List (Label α ε)}

/-- **C93** is false: if the next item of the input is there whenever it is asked for and publishing does not wait, then as long as the input has not ended no poll of the map's stream has
returned and nothing has been yielded, whatever results have arrived; the first poll takes item after item and publishes it: of the steps made (arrivals apart) every fifth is a publish. -/
theorem C93_endless (h : Lts.run (stepReady lim) init ls = some s) (he : ∀ l ∈ ls, l.isEnd = false) :
    s.outs = [] ∧ s.yielded = 0 ∧ ls.countP (fun l => !l.isArrive) ≤ 5 * s.pub.sent.length + 7 := by
  obtain ⟨hs, hm⟩ := shape_run h he
  rw [← hm]
  have hr : s.pub.ready.isSome.toNat ≤ 1 := by cases s.pub.ready.isSome <;> simp
  cases hs with
  | before hp hf h1 h2 h3 h4 h5 h6 ho hy => exact ⟨ho, hy, by simp [made, hp, h2, h4]; omega⟩
  | top hp h1 h3 h4 h5 h6 ho hy => exact ⟨ho, hy, by simp [made, hp, h4]; omega⟩
  | futures f hp h1 h3 h4 hr' h5 h6 ho hy =>
    refine ⟨ho, hy, ?_⟩
    have := h3.2
    have hle : f.sent.toNat ≤ 1 := by cases f.sent <;> simp
    simp only [made, hp]
    omega

/-- And such an execution can always go on without the input ending: with an endless input, the first poll never returns and the number of tasks in the queue has no bound. -/
theorem C93_goes_on [Inhabited α] (h : Lts.run (stepReady lim) (init : St α ε) ls = some s) (he : ∀ l ∈ ls, l.isEnd = false) :
    ∃ l s', l.isEnd = false ∧ l.isArrive = false ∧ stepReady lim s l = some s' := shape_next default (shape_run h he).1

/-- **C93**, what holds (partial: no publish finishes during the poll that started it, or only so many do): with a limit of `n` concurrent publishes, a poll of the map's stream returns after at
most `10 * n + 7` steps, and 6 more for each publish that finishes meanwhile, however many items the input has ready. -/
theorem C93_returns_partial {n : Nat} {ls0 : List (Label α ε)} (hn : n ≠ 0) (h0 : run (some n) init ls0 = some s) (h : run (some n) s ls = some s')
    (hp : ∀ l ∈ ls, l.isPoll = false) : ls.countP Label.isOwn ≤ 10 * n + 7 + 6 * ls.countP Label.isResolve := by
  have hk := pollLeft_run hn (posInv_run h0) hp h
  obtain ⟨ps, hps⟩ := pub_run h0
  have hfuts : s.pub.futs.length ≤ n := PubAll.C53_bounded_partial hps rfl hn
  have hth : through s.pub ≤ s.pub.futs.length := List.countP_le_length
  have hw : loopLeft n s.pub ≤ 10 * n + 3 := by
    unfold loopLeft
    have : pcWeight s.pub.pc ≤ 3 := by unfold pcWeight; split <;> omega
    split <;> omega
  have hpw : posWeight s.pos ≤ 4 := by unfold posWeight; split <;> omega
  simp only [pollLeft] at hk
  omega

/-- While a poll is running, the thread that polls can go on. -/
theorem C93_no_dead_end (hp : s.pos ≠ .outside) : ∃ l s', l.isOwn = true ∧ step lim s l = some s' := by
  cases hpos : s.pos with
  | outside => exact absurd hpos hp
  | right second =>
    refine ⟨.recv, ?_⟩
    simp only [step, hpos, Label.isOwn]
    split
    · simp
    · split
      · simp
      · split <;> simp
  | left second =>
    have loop : (s.pub.pc = .top ∨ ∃ b, s.pub.pc = .futures b) → ∃ l s', l.isOwn = true ∧ step lim s l = some s' := by
      intro hpc
      obtain ⟨l, p, hl, hk⟩ := PubAll.C53_progress (limit := lim) hpc
      refine ⟨.inner l, { s with pub := p }, rfl, ?_⟩
      have : isLoop l = true := by rcases hk with rfl | ⟨k, rfl⟩ | rfl | rfl <;> rfl
      simp [step, hpos, this, hl]
    cases hpc : s.pub.pc with
    | top => exact loop (.inl hpc)
    | futures b => exact loop (.inr ⟨b, hpc⟩)
    | asleep => exact ⟨.leave, if second then s.give .pending else { s with pos := .right true }, rfl, by simp [step, hpos, hpc]⟩
    | returned =>
      rcases hr : s.pub.ret with _ | (e | u)
      · exact ⟨.leave, if second then s.give .pending else { s with pos := .right true }, rfl, by simp [step, hpos, hpc, hr]⟩
      · exact ⟨.leave, s.give (.err e), rfl, by simp [step, hpos, hpc, hr]⟩
      · exact ⟨.leave, if second then s.give .pending else { s with pos := .right true }, rfl, by simp [step, hpos, hpc, hr]⟩

/-- **C93**, what holds (partial: for polls that return): a poll that begins when a result has arrived, and returns, yields a result, or the error of the sending side. -/
theorem C93_yields_partial (hr : 0 < s.results) (h : run lim s (.poll :: ls) = some s') (hp : ∀ l ∈ ls, l.isPoll = false) (ho : s'.pos = .outside) :
    (s'.yielded = s.yielded + 1 ∧ s'.outs = .result :: s.outs) ∨ s'.yielded = s.yielded ∧ ∃ e, s'.outs = .err e :: s.outs := by
  obtain ⟨s1, h1, h2⟩ := Lts.run_cons.1 h
  have hd : Due s s1 := by
    simp only [step] at h1
    repeat' split at h1
    all_goals simp at h1
    all_goals subst h1
    · exact .inl ⟨hr, rfl, rfl, .inl ⟨true, rfl⟩⟩
    · exact .inl ⟨hr, rfl, rfl, .inr rfl⟩
    · exact .inl ⟨hr, rfl, rfl, .inl ⟨false, rfl⟩⟩
  rcases due_run hd hp h2 with ⟨_, _, _, hc⟩ | ⟨_, hc⟩
  · rcases hc with ⟨b, hc⟩ | hc <;> rw [ho] at hc <;> simp at hc
  · exact hc

/-- **C93**, what holds: results do not keep the map from sending. Of two polls of the map's stream in a row at least one runs the sending side, even if both yield a result, unless the sending side is over. -/
theorem C93_fair {ls1 ls2 : List (Label α ε)} (h : run lim s (.poll :: ls1 ++ .poll :: ls2) = some s') (hp : ∀ l ∈ ls1, l.isPoll = false) (ho : s'.pos = .outside) (hn : s'.leftOver = false) :
    ∃ l ∈ ls1 ++ ls2, l.isInner = true := by
  refine Decidable.byContradiction fun hx => ?_
  rcases turns h hp (fun l hl => by cases hi : l.isInner with | false => rfl | true => exact absurd ⟨l, hl, hi⟩ hx) with h1 | h1
  · exact h1 ho
  · rw [hn] at h1; cases h1

namespace Demo

/-- The next item of an input that is always ready goes through `publish_all` without waiting. -/
def item (a : Nat) : List (Label Nat String) := [.outer (.answer (.item a)), .inner .stream, .outer (.send 0), .outer (.resolve 0 (.ok ())), .inner (.fut 0)]

/-- One poll: three items are published, their results arrive, and a fourth item is taken. -/
def endless : List (Label Nat String) := .poll :: (item 5 ++ item 6 ++ item 7 ++ [.arrive, .arrive, .arrive] ++ item 8)

theorem C93_witness : ∃ s, Lts.run (stepReady limit) init endless = some s ∧ s.pub.sent = [0, 1, 2, 3] ∧ s.results = 3 ∧ s.yielded = 0 ∧ s.pos = .left false ∧
    (endless.all fun l => !l.isEnd) = true := ⟨_, rfl, by decide, by decide, by decide, by decide, by decide⟩

/-- With a broker that confirms later: the first poll takes ten items and returns although the eleventh is ready; a result arrives; the next poll yields it. -/
def broker : List (Label Nat String) :=
  .poll :: ((List.range 10).flatMap fun a => [.outer (.answer (.item a)), .inner .stream, .inner .futPending]) ++
    [.outer (.answer (.item 10)), .inner .stream, .inner .futPending, .leave, .recv, .outer (.send 0), .outer (.resolve 0 (.ok ())), .arrive, .poll, .recv]

example : ∃ s, run limit init broker = some s ∧ s.pub.items = List.range 10 ∧ s.pub.ready = some (.item 10) ∧ s.yielded = 1 ∧ s.outs = [.result, .pending] :=
  ⟨_, rfl, by decide, by decide, by decide, by decide⟩

/-- Two results are there, and the user polls twice: the first poll runs the sending side, which takes one more item, and yields a result; the second yields the other at once. -/
def twoPolls : List (Label Nat String) := [.poll, .inner .stream, .inner (.fut 0), .inner .stream, .inner .futPending, .inner .stream, .inner .futPending, .leave, .recv] ++ [.poll, .recv]

example : ∃ s s', run limit init (broker ++ [.outer (.send 1), .outer (.send 2), .arrive, .arrive]) = some s ∧ run limit s twoPolls = some s' ∧ s'.pos = .outside ∧ s'.leftOver = false ∧ s'.yielded = s.yielded + 2 :=
  ⟨_, _, rfl, rfl, by decide, by decide, by decide⟩

end Demo

end MapLong
end Paladin
