import Verif.Spec.PubMap
import Verif.Proofs.PubMap
import Verif.Proofs.MapPub
import Verif.Props.InOrder
/-!
# Properties C53, C97: the sending side of a map is `publish_all`

`Verif/Model/PubAll.lean` models the future `publish_all` poll by poll; the sending side of `Verif/Model/MapS.lean` (`item`, `send`, `confirm`, …) is coarser. Every execution of the first,
with the limit `map` gives it (`MAX_CONCURRENCY`, `directive/indexed_stream/functor.rs` 24, 48-50), is one of the second; and the other way round.
-/
namespace Paladin
namespace PubAll

variable {α β ε ω : Type} {op : ω → α → Except ε β}

theorem sends_run {ls : List (Label (Nat × α) ε)} {s : St (Nat × α) ε} (h : run (some MapS.limit) init ls = some s) (hd : ∀ l ∈ ls, dropped l = false) :
    ∃ (ms : List (MapS.Label α ε ω)) (m : MapS.St α β ε), MapS.run op MapS.init ms = some m ∧ Sends s m ∧ MapS.inputs ms = s.items ∧ (∀ l ∈ ms, sending l = true) ∧
      (Prompt ls → ∀ k, .send k ∈ ms → k = 0) := by
  refine Lts.run_induction (P := fun (ls : List (Label (Nat × α) ε)) (s : St (Nat × α) ε) => (∀ l ∈ ls, dropped l = false) → ∃ (ms : List (MapS.Label α ε ω)) (m : MapS.St α β ε),
      MapS.run op MapS.init ms = some m ∧ Sends s m ∧ MapS.inputs ms = s.items ∧ (∀ l ∈ ms, sending l = true) ∧ (Prompt ls → ∀ k, .send k ∈ ms → k = 0)) ?_ ?_ ls s h hd
  · intro _
    exact ⟨[], MapS.init, rfl, ⟨rfl, rfl, rfl, rfl, rfl, fun _ => rfl, rfl, rfl⟩, rfl, by simp, by simp⟩
  · intro ls l s s' hrun ih hst hd
    obtain ⟨ms, m, h1, h2, h3, h4, h5⟩ := ih fun l hl => hd l (by simp [hl])
    obtain ⟨ms', m', g1, g2, g3, g4, g5⟩ := sends_step (op := op) (inv_run hrun) h2 (hd l (by simp)) hst
    refine ⟨ms ++ ms', m', by rw [MapS.run_append, h1]; exact g1, g2, by rw [MapS.inputs_append, h3, g3], ?_, ?_⟩
    · intro l hl
      rcases List.mem_append.1 hl with hl | hl
      · exact h4 l hl
      · exact g4 l hl
    · intro hp k hk
      have hp' : Prompt ls := fun l hl => hp l (by simp [hl])
      rcases List.mem_append.1 hk with hk | hk
      · exact h5 hp' k hk
      · have := g5 k hk
        rcases (ordInv_run hrun hp').one with he | ⟨f, he, _⟩ <;> rw [he] at this <;> simp at this
        exact this

/-- **C53, C97, refinement.** Every execution of `publish_all` with the limit of a map, up to any moment, and as long as it is not dropped, is an execution of the sending side of the map: with the
same input, the same messages handed over in the same order; what it returned, if an error, is what the map yields; the channel is closed if it has returned; and where publishing does
not wait, it is always the first of the waiting publishes that hands over its message. -/
theorem C53_refines (op : ω → α → Except ε β) (ls : List (Label (Nat × α) ε)) (s : St (Nat × α) ε) (h : run (some MapS.limit) init ls = some s) (hd : Label.drop ∉ ls) :
    ∃ (ms : List (MapS.Label α ε ω)) (m : MapS.St α β ε), MapS.run op MapS.init ms = some m ∧ (∀ l ∈ ms, sending l = true) ∧ MapS.inputs ms = s.items ∧
      m.tasks.map some = s.sent.map (s.items[·]?) ∧ m.outs = forwarded s.ret ∧ m.closed = s.ret.isSome ∧ (Prompt ls → ∀ k, .send k ∈ ms → k = 0) := by
  have hd' : ∀ l ∈ ls, dropped l = false := by
    intro l hl
    cases l <;> first | rfl | exact absurd hl hd
  obtain ⟨ms, m, h1, h2, h3, h4, h5⟩ := sends_run (op := op) h hd'
  refine ⟨ms, m, h1, h4, h3, ?_, h2.outs, h2.closed, h5⟩
  rw [h2.tasks]
  have hb := (inv_run h).boundS
  clear h2
  generalize s.sent = l at hb
  induction l with
  | nil => rfl
  | cons i is ih =>
    have hi := hb i (by simp)
    simp only [List.filterMap_cons, List.getElem?_eq_getElem hi, List.map_cons, ih fun j hj => hb j (by simp [hj])]

/-- **C97, the two parts joined.** Where publishing does not wait, the messages handed over are the first items of the map's input, in their order. -/
theorem C97_sending (op : ω → α → Except ε β) (ls : List (Label (Nat × α) ε)) (s : St (Nat × α) ε) (h : run (some MapS.limit) init ls = some s) (hd : Label.drop ∉ ls) (hp : Prompt ls) :
    ∃ (ms : List (MapS.Label α ε ω)) (m : MapS.St α β ε), MapS.run op MapS.init ms = some m ∧ MapS.inputs ms = s.items ∧ (∀ k, .send k ∈ ms → k = 0) ∧ m.tasks = s.items.take s.sent.length := by
  obtain ⟨ms, m, h1, _, h3, h4, _, _, h7⟩ := C53_refines op ls s h hd
  refine ⟨ms, m, h1, h3, h7 hp, ?_⟩
  obtain ⟨hr, hle⟩ := C97_publish_all _ ls s h hp
  rw [hr] at h4
  have key : ∀ (n : Nat), n ≤ s.items.length → (List.range n).map (s.items[·]?) = (s.items.take n).map some := by
    intro n
    induction n with
    | zero => intro _; rfl
    | succ n ih =>
      intro hn
      rw [List.range_succ, List.map_append, ih (by omega), List.take_succ_eq_append_getElem (by omega), List.map_append]
      simp [List.getElem?_eq_getElem (show n < s.items.length by omega)]
  rw [key _ hle] at h4
  exact List.map_inj_right (fun _ _ h => Option.some.inj h) |>.1 h4

theorem realized {ms : List (MapS.Label α ε ω)} {m : MapS.St α β ε} (h : MapS.run op MapS.init ms = some m) (hs : ∀ l ∈ ms, sending l = true)
    (hr : ∀ pre e post m1, ms = pre ++ .inputErr e :: post → MapS.run op MapS.init pre = some m1 → m1.inflight.length + m1.unconf < MapS.limit) :
    ∃ (ls : List (Label (Nat × α) ε)) (s : St (Nat × α) ε), run (some MapS.limit) init ls = some s ∧ Label.drop ∉ ls ∧ Sends s m ∧ s.items = MapS.inputs ms ∧ (Idle s ∨ m.sendDone = true) := by
  refine MapS.run_induction (P := fun (ms : List (MapS.Label α ε ω)) (m : MapS.St α β ε) => (∀ l ∈ ms, sending l = true) →
      (∀ pre e post m1, ms = pre ++ .inputErr e :: post → MapS.run op MapS.init pre = some m1 → m1.inflight.length + m1.unconf < MapS.limit) →
      ∃ (ls : List (Label (Nat × α) ε)) (s : St (Nat × α) ε), run (some MapS.limit) init ls = some s ∧ Label.drop ∉ ls ∧ Sends s m ∧ s.items = MapS.inputs ms ∧ (Idle s ∨ m.sendDone = true)) ?_ ?_ ms m h hs hr
  · intro _ _
    exact ⟨[], init, rfl, by simp, ⟨rfl, rfl, rfl, rfl, rfl, fun _ => rfl, rfl, rfl⟩, rfl, .inl ⟨rfl, rfl, rfl, by simp [init]⟩⟩
  · intro ms l m m' hrun ih hst hs hr
    obtain ⟨ls, s, h1, h2, h3, h4, h5⟩ := ih (fun l hl => hs l (by simp [hl])) (fun pre e post m1 he hm => hr pre e (post ++ [l]) m1 (by rw [he]; simp) hm)
    have hi := inv_run h1
    have hl := hs l (by simp)
    rcases h5 with h5 | h5
    · obtain ⟨ls', s', g1, g2, g3, g4, g5⟩ := realize_step (op := op) hi h3 h5 hl (fun e he => hr ms e [] m (by rw [he]) hrun) hst
      exact ⟨ls ++ ls', s', Lts.run_append.2 ⟨s, h1, g1⟩, by simp [h2, g2], g3, by rw [g4, h4, MapS.inputs_append], g5⟩
    · have hpc : s.pc = .returned := by have := h3.done; rw [h5] at this; exact of_decide_eq_true this.symm
      obtain ⟨hf, _⟩ := hi.over hpc
      have e1 : m.inflight = [] := by rw [h3.infl, hf]; rfl
      have e2 : m.unconf = 0 := by rw [h3.unc, hf]; rfl
      exfalso
      cases l <;> simp [sending] at hl <;> simp [MapS.step, h3.ended, h5, e1, e2, Fold.takeAt] at hst

/-- **C53, the other way round.** Every execution of the sending side of a map is one of `publish_all`, with the same input, the same messages handed over in the same order and the same outcome: what the model
of map lets the sending side do (publishes handing over their messages in any order, say) does happen. Except for an error of the input stream while ten publishes are running: `publish_all` does not look at the
stream then. -/
theorem C53_realized (op : ω → α → Except ε β) (ms : List (MapS.Label α ε ω)) (m : MapS.St α β ε) (h : MapS.run op MapS.init ms = some m) (hs : ∀ l ∈ ms, sending l = true)
    (hr : ∀ pre e post m1, ms = pre ++ .inputErr e :: post → MapS.run op MapS.init pre = some m1 → m1.inflight.length + m1.unconf < MapS.limit) :
    ∃ (ls : List (Label (Nat × α) ε)) (s : St (Nat × α) ε), run (some MapS.limit) init ls = some s ∧ Label.drop ∉ ls ∧ s.items = MapS.inputs ms ∧
      m.tasks.map some = s.sent.map (s.items[·]?) ∧ m.outs = forwarded s.ret ∧ m.closed = s.ret.isSome := by
  obtain ⟨ls, s, h1, h2, h3, h4, _⟩ := realized h hs hr
  refine ⟨ls, s, h1, h2, h4, ?_, h3.outs, h3.closed⟩
  rw [h3.tasks]
  have hb := (inv_run h1).boundS
  clear h3
  generalize s.sent = l at hb
  induction l with
  | nil => rfl
  | cons i is ih =>
    have hi := hb i (by simp)
    simp only [List.filterMap_cons, List.getElem?_eq_getElem hi, List.map_cons, ih fun j hj => hb j (by simp [hj])]

namespace Demo

/-- The hypotheses of `C53_realized` are met: two messages handed over in the other order, one publish returns, then the input stream fails. -/
theorem C53_realized_example : ∃ ms : List (MapS.Label String String Unit), (∀ l ∈ ms, sending l = true) ∧
    (∀ pre e post m1, ms = pre ++ .inputErr e :: post → MapS.run (fun _ a => (.ok a : Except String String)) MapS.init pre = some m1 → m1.inflight.length + m1.unconf < MapS.limit) ∧
    (MapS.run (fun _ a => (.ok a : Except String String)) MapS.init ms).map (fun m => (m.tasks, m.outs.length, m.closed)) = some ([(1, "b"), (0, "a")], 1, true) := by
  refine ⟨[.item 0 "a", .item 1 "b", .send 1, .send 0, .confirm, .inputErr "broken"], by simp [sending], ?_, by decide +kernel⟩
  intro pre e post m1 he hm
  have hp : pre = [.item 0 "a", .item 1 "b", .send 1, .send 0, .confirm] := by
    rcases pre with _ | ⟨a, _ | ⟨b, _ | ⟨c, _ | ⟨d, _ | ⟨f, _ | ⟨g, pre⟩⟩⟩⟩⟩⟩ <;> simp at he
    simp [he]
  subst hp
  obtain rfl := Option.some.inj ((rfl : MapS.run (fun _ a => (.ok a : Except String String)) MapS.init _ = some _).symm.trans hm)
  decide

/-- Two items; the second is handed over first, then its publish fails after the first has returned. -/
def swapped : List (Label (Nat × String) String) :=
  [.answer (.item (0, "a")), .poll, .stream, .futPending, .answer (.item (1, "b")), .stream, .send 1, .send 0, .resolve 0 (.ok ()), .fut 0, .resolve 0 (.error "lost"), .stream, .fut 0]

/-- The hypotheses of `C53_refines` are met, by an execution with messages in another order and an error. -/
theorem C53_refines_example : Label.drop ∉ swapped ∧ (run (some MapS.limit) init swapped).map (fun s => (s.items, s.sent, s.ret.map (·.isOk))) = some ([(0, "a"), (1, "b")], [1, 0], some false) :=
  ⟨by simp [swapped], by decide +kernel⟩

/-- The hypotheses of `C97_sending` are met. -/
theorem C97_sending_example : ∃ ls : List (Label (Nat × String) String), Label.drop ∉ ls ∧ Prompt ls ∧ (run (some MapS.limit) init ls).map (fun s => (s.items, s.sent)) = some ([(0, "a"), (1, "b")], [0, 1]) :=
  ⟨[.answer (.item (0, "a")), .poll, .stream, .send 0, .resolve 0 (.ok ()), .fut 0, .answer (.item (1, "b")), .stream, .send 0], by simp, by simp [Prompt], by decide +kernel⟩

end Demo
end PubAll
end Paladin
