import Verif.Props.SystemMem
import Verif.Proofs.Crowd
/-!
# Property C96: a job with few tasks beside one with many

Vocabulary: `Verif/Spec/SystemMem.lean`. All jobs of a runtime share one task queue (`runtime/mod.rs` 164-170, `queue/in_memory.rs` 146-151, 541-565), and a map publishes its tasks without waiting
for results (`indexed_stream/functor.rs` 40-55). The claim that a job of one task is served after a time that does not depend on the other jobs is false: it is served after everything published before it
(`C96_crowd`). It holds that it never waits for anything published after it (`C96_turn_partial`).
-/
namespace Paladin
namespace SystemMem
open Retry Paladin.System

section
variable {A B : Type} [DecidableEq A] [DecidableEq B] {α β : A → Type} {γ : B → Type} {T O ε χ ω : Type} {op : (a : A) → ω → α a → Except ε (β a)}
  {comb : (b : B) → ω → γ b → γ b → Except ε (γ b)} {empty : (b : B) → γ b} {dupErr : ε} {encM : (a : A) → Nat × α a → Option T} {decM : (a : A) → O → Except ε (Nat × β a)}
  {encF : (b : B) → Fold.CTask (γ b) → Option T} {decF : (b : B) → O → Except ε (Seg (γ b))} {cfg : Worker.Cfg (A ⊕ B)} {exec : ω → T → Except (OpError χ) O} {text : OpError χ → ε}

/-- **C96, the turn of a task, the part that holds.** A task `t` of any job waits in the queue behind the tasks `xs`. Whatever is published afterwards, by whatever job: after the workers have been handed `d`
more tasks, those were the first `d` of `xs ++ [t]` as far as this reaches. So while `d ≤ xs.length`, `t` waits behind exactly `xs.length - d` tasks, and the task handed out next after `xs` is `t`.
Missing for the full claim: a bound on `xs.length` (false: `C96_crowd`). -/
theorem C96_turn_partial (ls ls' : List (Label (A ⊕ B) (DirLabel α γ ε ω) O χ ω)) (s s' : St (A ⊕ B) (DirSt α β γ ε) T O ε χ)
    (h : memRun op comb empty dupErr encM decM encF decF cfg exec text ls = some s) (h' : memRun op comb empty dupErr encM decM encF decF cfg exec text (ls ++ ls') = some s')
    (xs ys : List (Msg (A ⊕ B) T)) (t : Msg (A ⊕ B) T) (hq : s.tq.msgs = xs ++ t :: ys) :
    ∃ d, s'.sys.dels.length = s.sys.dels.length + d ∧
      (d ≤ xs.length → ∃ zs, s'.tq.msgs = xs.drop d ++ t :: zs ∧ (s'.sys.dels.map Del.msg).drop s.sys.dels.length = xs.take d) ∧
      (xs.length < d → ∃ zs, (s'.sys.dels.map Del.msg).drop s.sys.dels.length = xs ++ t :: zs) := by
  obtain ⟨s1, h1, h2⟩ := Lts.run_append.1 h'
  cases h.symm.trans h1
  have hi := (inv_run local_dirs h).1
  obtain ⟨d, hd⟩ := Nat.le.dest (dels_run local_dirs hi h2)
  obtain ⟨us, hu⟩ := sent_run local_dirs hi h2
  simp only [St.sent, hq] at hu
  have e : (s'.sys.dels.map Del.msg).drop s.sys.dels.length ++ s'.tq.msgs = xs ++ t :: (ys ++ us) := by
    have e0 := congrArg (List.drop s.sys.dels.length) hu.symm
    rw [List.drop_append_of_le_length (by simp [← hd])] at e0
    rw [e0]
    simp
  have hl : ((s'.sys.dels.map Del.msg).drop s.sys.dels.length).length = d := by simp [← hd]
  refine ⟨d, hd.symm, fun hle => ?_, fun hlt => ?_⟩
  · have e1 := congrArg (List.take d) e
    have e2 := congrArg (List.drop d) e
    rw [List.take_append_of_le_length (by omega), List.take_of_length_le (by omega), List.take_append_of_le_length hle] at e1
    rw [List.drop_append_of_le_length (by omega), List.drop_of_length_le (by omega), List.drop_append_of_le_length hle] at e2
    exact ⟨ys ++ us, by simpa using e2, e1⟩
  · have e1 := congrArg (List.take d) e
    rw [List.take_append_of_le_length (by omega), List.take_of_length_le (by omega), List.take_append, List.take_of_length_le (Nat.le_of_lt hlt)] at e1
    obtain ⟨k, rfl⟩ : ∃ k, d = xs.length + (k + 1) := ⟨d - xs.length - 1, by omega⟩
    rw [Nat.add_sub_cancel_left, List.take_succ_cons] at e1
    exact ⟨_, e1⟩

/-- **C96 is false as stated: a job of one task waits for as many tasks as another job has.** Two maps `a` and `a'` whose inputs can be serialized. For every list `xs`, however long, there is an execution, in
which no worker takes part, after which the task of the only item `y` of `a'` waits behind one task for every item of `xs`: `a` has published all of them without any result. And however the execution goes on,
a worker is handed a task of `a'` only after the workers have been handed all tasks of `xs`. -/
theorem C96_crowd (a a' : A) (hne : a' ≠ a) (he : ∀ i x, (encM a (i, x)).isSome) (he' : ∀ i x, (encM a' (i, x)).isSome) (xs : List (α a)) (y : α a') :
    ∃ (ls : List (Label (A ⊕ B) (DirLabel α γ ε ω) O χ ω)) (s : St (A ⊕ B) (DirSt α β γ ε) T O ε χ) (ts : List (Msg (A ⊕ B) T)) (u : T),
      memRun op comb empty dupErr encM decM encF decF cfg exec text ls = some s ∧ s.sys.dels = [] ∧ s.tq.msgs = ts ++ [⟨.inl a', u⟩] ∧ encM a' (0, y) = some u ∧ ts.length = xs.length ∧
      (∀ i x, xs[i]? = some x → ∃ t, encM a (i, x) = some t ∧ ts[i]? = some ⟨.inl a, t⟩) ∧
      ∀ ls' s', memRun op comb empty dupErr encM decM encF decF cfg exec text (ls ++ ls') = some s' → (∃ d ∈ s'.sys.dels, d.msg.key = .inl a') → ∃ zs, s'.sys.dels.map Del.msg = ts ++ ⟨.inl a', u⟩ :: zs := by
  let s0 : St (A ⊕ B) (DirSt α β γ ε) T O ε χ := init (dirs op comb empty dupErr encM decM encF decF)
  obtain ⟨s1, ts, a1, b1, c1, d1, e1, f1, g1, h1⟩ := several_run (op := op) (comb := comb) (empty := empty) (dupErr := dupErr) (decM := decM) (encF := encF) (decF := decF) (cfg := cfg) (exec := exec) (text := text)
    he xs 0 (s := s0) ⟨rfl, rfl, rfl, rfl⟩ rfl rfl
  obtain ⟨u, hu⟩ := Option.isSome_iff_exists.1 (he' 0 y)
  have hf : Free (s1.sys.lead (.inl a') : MapS.St (α a') (β a') ε) := by
    rw [h1 (.inl a') (by simpa using hne)]
    exact ⟨rfl, rfl, rfl, rfl⟩
  obtain ⟨s2, a2, _, _, _, e2, f2, _⟩ := one_run (op := op) (comb := comb) (empty := empty) (dupErr := dupErr) (decM := decM) (encF := encF) (decF := decF) (cfg := cfg) (exec := exec) (text := text) hf b1 c1 hu
  have hr : memRun op comb empty dupErr encM decM encF decF cfg exec text (several a 0 xs ++ one a' 0 y) = some s2 := Lts.run_append.2 ⟨s1, a1, a2⟩
  have hq : s2.tq.msgs = ts ++ [⟨.inl a', u⟩] := by rw [e2, f1]; rfl
  have hd : s2.sys.dels = [] := by rw [f2, g1]; rfl
  refine ⟨_, s2, ts, u, hr, hd, hq, hu, e1, fun i x hx => by simpa using d1 i x hx, ?_⟩
  intro ls' s' h' ⟨d, hm, hk⟩
  obtain ⟨n, hn, hlo, hhi⟩ := C96_turn_partial _ ls' s2 s' hr h' ts [] ⟨.inl a', u⟩ hq
  simp only [hd, List.length_nil, List.drop_zero] at hlo hhi
  by_cases hle : n ≤ ts.length
  · exfalso
    obtain ⟨_, _, h3⟩ := hlo hle
    have h4 : d.msg ∈ ts := List.mem_of_mem_take (h3 ▸ List.mem_map_of_mem hm)
    obtain ⟨i, hi⟩ := List.getElem?_of_mem h4
    have hlt : i < xs.length := e1 ▸ (List.getElem?_eq_some_iff.1 hi).1
    obtain ⟨t, _, ht⟩ := d1 i xs[i] (List.getElem?_eq_getElem hlt)
    rw [hi, Option.some.injEq] at ht
    rw [ht] at hk
    exact hne (Sum.inl.inj hk).symm
  · exact hhi (by omega)

end

/-! ## Hypotheses met -/

namespace Demo
open System.Demo

/-- Two tasks of the map and one of a fold wait. -/
def crowd3 : List MLab := [.taskPoll 0, mapM (.item 0 "a"), mapM (.send 0), mapM (.item 1 "b"), mapM (.send 0), foldM (.item 0 3), foldM (.item 1 4), foldM (.publish 0)]

/-- Worker 0 is handed the first, and the map publishes a further one. -/
def crowd4 : List MLab := [mapM (.item 2 "c"), mapM (.send 0), .taskRelease, .taskPoll 0, .deliver 0]

/-- The task of the fold waits behind two tasks; after one has been handed out, and another was published, it waits behind one. -/
theorem C96_turn_example : ((goM crowd3).map fun s => (s.tq.msgs.map Msg.key, s.sys.dels.length)) = some ([.inl (), .inl (), .inr true], 0) ∧
    ((goM (crowd3 ++ crowd4)).map fun s => (s.tq.msgs.map Msg.key, s.sys.dels.length)) = some ([.inl (), .inr true, .inl ()], 1) := by decide +kernel

/-- Two maps over strings. -/
example (xs : List String) :=
  C96_crowd (A := Bool) (B := Empty) (α := fun _ => String) (β := fun _ => String) (γ := fun _ => Nat) (T := Nat × String) (O := Nat × String) (ε := String) (χ := String) (ω := Nat)
    (op := fun _ _ x => .ok x) (comb := fun _ _ x _ => .ok x) (empty := fun _ => 0) (dupErr := "twice") (encM := fun _ t => some t) (decM := fun _ o => .ok o) (encF := fun b _ => b.elim) (decF := fun b _ => b.elim)
    (cfg := ⟨.inl false, 3⟩) (exec := fun _ t => .ok t) (text := fun _ => "failed") false true (by decide) (fun _ _ => rfl) (fun _ _ => rfl) xs "y"

end Demo
end SystemMem
end Paladin
