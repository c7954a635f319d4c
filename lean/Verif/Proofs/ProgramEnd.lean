import Verif.Proofs.Program
/-! # Lemmas about the programs of `hello-world-rabbitmq`: phases, timers, commands, workers -/
set_option linter.unusedSectionVars false
namespace Paladin

namespace Worker
variable {κ ο χ : Type} [DecidableEq κ] {c : Cfg κ}

/-- A worker that has heard of no command. -/
structure Undisturbed (v : St κ ο χ) : Prop where
  flag : v.flag = false
  watch : v.watch = []
  handler : v.handler = .idle ∨ v.handler = .finished
  pc : match v.pc with
    | .running _ _ _ true | .interrupted _ _ | .draining _ _ => False
    | _ => True

theorem undisturbed_init : Undisturbed (init : St κ ο χ) := ⟨rfl, rfl, .inl rfl, trivial⟩

theorem undisturbed_step {v v' : St κ ο χ} {l : Label κ ο χ} (h : Undisturbed v) (hst : step c v l = some v') (h1 : ∀ k, l ≠ .cmd k) (h2 : l ≠ .setFlag) : Undisturbed v' := by
  obtain ⟨hf, hw, hh, hp⟩ := h
  cases l <;> simp only [step] at hst <;> (repeat' split at hst) <;> simp only [Option.some.injEq, reduceCtorEq] at hst <;> try subst hst
  all_goals first
    | exact absurd rfl (h1 _)
    | exact absurd rfl h2
    | (refine ⟨?_, ?_, ?_, ?_⟩ <;> simp_all)
end Worker

namespace SystemAmqp
open Retry _root_.Paladin.System
section
variable {κ : Type} {σ ℓ : κ → Type} [DecidableEq κ] {T O ε χ ω : Type} {cl : (j : κ) → Client (σ j) (ℓ j) T (Except ε O)} {listens : (j : κ) → σ j → Bool} {nt : Net κ} {cfg : Worker.Cfg κ}
  {exec : ω → T → Except (OpError χ) O} {text : OpError χ → ε}

theorem undisturbed_run (ls : List (Label κ ℓ T O ε χ ω)) (s : St κ σ T O ε χ) (h : run cl listens nt cfg exec text (init cl) ls = some s) (w : Nat) (h1 : ∀ k, .work w (.cmd k) ∉ ls) (h2 : .work w .setFlag ∉ ls) :
    Worker.Undisturbed (s.worker w) := by
  revert h1 h2
  refine Lts.run_induction (P := fun ls (s : St κ σ T O ε χ) => (∀ k, .work w (.cmd k) ∉ ls) → .work w .setFlag ∉ ls → Worker.Undisturbed (s.worker w)) ?_ ?_ ls s h
  · exact fun _ _ => Worker.undisturbed_init
  · intro ls l s s' _ ih hst h1 h2
    have ih := ih (fun k hk => h1 k (by simp [hk])) (fun hk => h2 (by simp [hk]))
    rcases worker_label hst w with h3 | ⟨wl, h3, h4⟩
    · rw [h3]; exact ih
    · refine Worker.undisturbed_step ih h3 ?_ ?_
      · rintro k rfl
        rcases h4 with ⟨rfl, -⟩ | ⟨_, -, h5⟩ | ⟨_, _, -, h5⟩
        · exact h1 k (by simp)
        · cases h5
        · cases h5
      · rintro rfl
        rcases h4 with ⟨rfl, -⟩ | ⟨_, -, h5⟩ | ⟨_, _, -, h5⟩
        · exact h2 (by simp)
        · cases h5
        · cases h5
end

section
open Hello Exec Wire
variable {ε L : Type} [DecidableEq L] [Anyhow ε] {join dupErr : ε} {ops : List (OpDef ε)} {k kt : Serializer} {flag : Nat → Nat → Bool} {dbg : Char → String} {keyM keyF : L → Str} {idM idF : U8}
  {nt : Net (L ⊕ L)} {cfg : Worker.Cfg (L ⊕ L)}

/-- If no operation finds the abort signal set, no worker with an open connection has an error to report. -/
theorem no_failure (input : String) (hin : input.utf8ByteSize < 2 ^ 63) (hM : ops[idM.1]? = some (charOp flag dbg)) (hF : ops[idF.1]? = some concatOp) (ls) (s)
    (h : helloRun join dupErr ops k kt flag dbg keyM keyF idM idF nt cfg ls = some s) (hr : ∀ l, Runs (ε := ε) l input flag dbg keyM keyF idM idF ls s)
    (hu : ∀ w x, .finish w x ∈ ls → ¬ Sees flag x) (w : Nat) (ho : nt.wconn w ∉ s.net.closed) (i : Nat) (j : L ⊕ L) (x : OpError ε) (n p q : Bool) : (s.worker w).pc ≠ .settleErr i j x n p q := by
  intro hpc
  obtain ⟨bs, u, ids, Q, R, h1, -, h2, -, h3, -, -, h8⟩ := sim_run (any := dirAny) indexed_dirs h
  have hpc' : (u.worker w).pc = .settleErr i j x n p q := by rw [h2.worker w ho]; exact hpc
  have hb : busy (u.worker w).pc = true := by rw [hpc']; rfl
  obtain ⟨d, hd, -, hlink⟩ := inv_run h1 w hb
  rw [hpc'] at hlink
  have hmem := List.mem_of_getElem? hd
  cases hj : d.msg.key with
  | inl l =>
    have ht := map_trail l (map_faithful (registered_map (key := keyM l) hM)) h1
    have hE := ht.w w d hb hd
    rw [hpc'] at hE
    obtain ⟨w', y, g1, g2⟩ := hE
    obtain ⟨pr, -, g4⟩ := ht.d d hmem hj
    obtain ⟨v, hv⟩ := run_unseen (ε := ε) (join := join) (k := k) (kt := kt) (dbg := dbg) (key := keyM l) (i := idM) (c := pr.2) (hu w' y (h8 w' y g1))
    have := map_faithful (join := join) (k := k) (kt := kt) (registered_map (key := keyM l) hM) y pr.1 pr.2 d.msg.task g4
    rw [hv] at this
    simp [System.outcome, g2, Except.mapError, Except.bind, Except.map] at this
  | inr l =>
    have ht := fold_trail l (fold_faithful (registered_fold (key := keyF l) hF)) h1
    have hE := ht.w w d hb hd
    rw [hpc'] at hE
    obtain ⟨w', y, g1, g2⟩ := hE
    obtain ⟨c, g3, g4⟩ := ht.d d hmem hj
    have hf := fold_faithful (join := join) (k := k) (kt := kt) (registered_fold (key := keyF l) hF) y c d.msg.task g4
    cases hc : (foldJob (ε := ε) (keyF l) idF).run join k kt y c.a c.b with
    | ok v =>
      rw [hc] at hf
      simp [System.outcome, g2, Except.mapError, Except.bind, Except.map] at hf
    | error z =>
      obtain ⟨x', st, xs, ys, a, b, t1, t2, t3, t4⟩ := Fold.CombineFails.ofTask g3 hc
      have hfi := Hello.fold_inputs l input hM bs u h1 (runs_sys h2.lead h3 (hr l))
      have hsz := combine_size (input := input) (t1.mono fun _ _ _ => gives_fold) (t2.mono fun _ _ _ => gives_fold) fun p hp => hfi p (t3 p hp)
      obtain ⟨v', hv'⟩ := localOp_first (join := join) (k := k) (kt := kt) (d := (foldJob (ε := ε) (keyF l) idF).d) (op := ()) (a := (a, b))
        (fun m => concat_runs (key := keyF l) (i := idF) (m := m) (Nat.lt_of_le_of_lt hsz hin)) x'
      exact absurd (hv'.symm.trans t4) nofun
end
end SystemAmqp

namespace Program
open Retry Exec Wire _root_.Paladin.System Hello

section
variable {ε L : Type} [DecidableEq L] [DecidableEq ε] [Anyhow ε] {e : Env ε L}

/-- What has been computed stays. -/
theorem outcome_step {s s' : St ε L} {x : Label ε L} {l : L} {o : Fold.Outcome Str ε} (hst : step e s x = some s') (ho : outcome s l = some o) : outcome s' l = some o := by
  by_cases hx : ∀ y, x ≠ .sys y
  · unfold outcome at ho ⊢
    rw [(own_sys (step_own hst hx)).1]; exact ho
  · simp only [ne_eq, not_forall, not_not] at hx
    obtain ⟨x, rfl⟩ := hx
    obtain ⟨s1, -, hs, -⟩ := step_sys hst
    rcases SystemAmqp.lead_any hs (.inr l) with ⟨h1, -⟩ | ⟨y, rs, ts, rs', -, h2⟩
    · unfold outcome SystemAmqp.foldOf at ho ⊢
      rw [h1]; exact ho
    · have h3 : outcome s l = none := (fold_takes h2).2.1
      rw [h3] at ho; cases ho

/-- Steps of the system leave phases and timers alone. -/
theorem noted_phase {s s1 : St ε L} {x : SysLabel ε L} (h : Noted e s x s1) (a : L) : (s1.proc a).phase = (s.proc a).phase ∧ (s1.proc a).timer = (s.proc a).timer ∧ s1.clock = s.clock := by
  cases h with
  | map l | fold l =>
    by_cases hl : a = l
    · subst hl; simp
    · simp [Function.update_of_ne hl]
  | _ => exact ⟨rfl, rfl, rfl⟩

/-- Where a leader's `main` is, and how it came there. -/
def At (e : Env ε L) (l : L) (ls : List (Label ε L)) (s : St ε L) : Phase ε → Prop
  | .starting => ∀ r, .start l r ∉ ls
  | .computing => .start l (.ok ()) ∈ ls ∧ ∀ r, .close l r ∉ ls
  | .closing o => .start l (.ok ()) ∈ ls ∧ (∀ r, .close l r ∉ ls) ∧ outcome s l = some o ∧ o ≠ .panic
  | .ended x => (.start l (.ok ()) ∉ ls ∧ ∃ z, x = .err z ∧ .start l (.error z) ∈ ls) ∨
    .start l (.ok ()) ∈ ls ∧ ∃ o, outcome s l = some o ∧ (o = .panic ∧ x = .panicked ∨ o ≠ .panic ∧ ∃ r, .close l r ∈ ls ∧ x = exit e.input o r)

theorem At.mono {l : L} {ls : List (Label ε L)} {s s' : St ε L} {x : Label ε L} {p : Phase ε} (h : At e l ls s p) (h1 : ∀ r, x ≠ .start l r) (h2 : ∀ r, x ≠ .close l r)
    (h3 : ∀ o, outcome s l = some o → outcome s' l = some o) : At e l (ls ++ [x]) s' p := by
  have k1 : ∀ r, .start l r ∈ ls ++ [x] ↔ .start l r ∈ ls := fun r => by
    rw [List.mem_append, List.mem_singleton]
    exact ⟨fun h => h.resolve_right fun h => h1 r h.symm, .inl⟩
  have k2 : ∀ r, .close l r ∈ ls ++ [x] ↔ .close l r ∈ ls := fun r => by
    rw [List.mem_append, List.mem_singleton]
    exact ⟨fun h => h.resolve_right fun h => h2 r h.symm, .inl⟩
  cases p with
  | starting => intro r; rw [k1]; exact h r
  | computing => exact ⟨(k1 _).2 h.1, fun r => by rw [k2]; exact h.2 r⟩
  | closing o => exact ⟨(k1 _).2 h.1, fun r => by rw [k2]; exact h.2.1 r, h3 o h.2.2.1, h.2.2.2⟩
  | ended y =>
    rcases h with ⟨g1, z, g2, g3⟩ | ⟨g1, o, g2, g3⟩
    · exact .inl ⟨by rw [k1]; exact g1, z, g2, (k1 _).2 g3⟩
    · refine .inr ⟨(k1 _).2 g1, o, h3 o g2, g3.imp id ?_⟩
      rintro ⟨g4, r, g5, g6⟩
      exact ⟨g4, r, (k2 r).2 g5, g6⟩

/-- Until it has started, a leader has not been closed. -/
theorem at_run (l : L) (ls : List (Label ε L)) (s : St ε L) (h : run e (init e) ls = some s) : At e l ls s (s.proc l).phase ∧ ((s.proc l).phase = .starting → ∀ r, .close l r ∉ ls) := by
  refine Lts.run_induction (P := fun ls (s : St ε L) => At e l ls s (s.proc l).phase ∧ ((s.proc l).phase = .starting → ∀ r, .close l r ∉ ls)) ?_ ?_ ls s h
  · exact ⟨fun _ => List.not_mem_nil, fun _ _ => List.not_mem_nil⟩
  · intro ls x s s' _ ih hst
    have ho : ∀ o, outcome s l = some o → outcome s' l = some o := fun o => outcome_step hst
    have keep : (s'.proc l).phase = (s.proc l).phase → (∀ r, x ≠ .start l r) → (∀ r, x ≠ .close l r) →
        At e l (ls ++ [x]) s' (s'.proc l).phase ∧ ((s'.proc l).phase = .starting → ∀ r, .close l r ∉ ls ++ [x]) := by
      intro hp h1 h2
      rw [hp]
      refine ⟨ih.1.mono h1 h2 ho, fun hs r hr => ?_⟩
      rcases List.mem_append.1 hr with hr | hr
      · exact ih.2 hs r hr
      · exact h2 r (List.mem_singleton.1 hr).symm
    by_cases hx : ∀ y, x ≠ .sys y
    · have hown := step_own hst hx
      cases hown with
      | tick n => exact keep rfl nofun nofun
      | again => exact keep rfl nofun nofun
      | start l' hp =>
        by_cases hl : l' = l
        · subst hl
          rw [show ((Function.update s.proc l' _ : L → Proc ε) l').phase = .computing by simp]
          refine ⟨⟨by simp, fun r hr => ?_⟩, nofun⟩
          rcases List.mem_append.1 hr with hr | hr
          · exact ih.2 hp r hr
          · cases List.mem_singleton.1 hr
        · refine keep (by simp [Function.update_of_ne (Ne.symm hl)]) ?_ nofun
          rintro r ⟨⟩; exact hl rfl
      | startErr l' z hp =>
        by_cases hl : l' = l
        · subst hl
          rw [show ((Function.update s.proc l' _ : L → Proc ε) l').phase = .ended (.err z) by simp]
          refine ⟨.inl ⟨fun hr => ?_, z, rfl, by simp⟩, nofun⟩
          have hstart := ih.1
          rw [hp] at hstart
          rcases List.mem_append.1 hr with hr | hr
          · exact hstart _ hr
          · cases List.mem_singleton.1 hr
        · refine keep (by simp [Function.update_of_ne (Ne.symm hl)]) ?_ nofun
          rintro r ⟨⟩; exact hl rfl
      | sender l' =>
        refine keep ?_ nofun nofun
        by_cases hl : l' = l
        · subst hl; simp
        · simp [Function.update_of_ne (Ne.symm hl)]
      | fire l' =>
        refine keep ?_ nofun nofun
        by_cases hl : l' = l
        · subst hl; simp
        · simp [Function.update_of_ne (Ne.symm hl)]
      | panicked l' hp hpo =>
        by_cases hl : l' = l
        · subst hl
          have hc := ih.1
          rw [hp] at hc
          rw [show ((Function.update s.proc l' _ : L → Proc ε) l').phase = .ended .panicked by simp]
          exact ⟨.inr ⟨by simp [hc.1], .panic, ho _ hpo, .inl ⟨rfl, rfl⟩⟩, nofun⟩
        · exact keep (by simp [Function.update_of_ne (Ne.symm hl)]) nofun nofun
      | computed l' o hp hpo hne =>
        by_cases hl : l' = l
        · subst hl
          have hc := ih.1
          rw [hp] at hc
          rw [show ((Function.update s.proc l' _ : L → Proc ε) l').phase = .closing o by simp]
          refine ⟨⟨by simp [hc.1], fun r hr => ?_, ho _ hpo, hne⟩, nofun⟩
          rcases List.mem_append.1 hr with hr | hr
          · exact hc.2 r hr
          · cases List.mem_singleton.1 hr
        · exact keep (by simp [Function.update_of_ne (Ne.symm hl)]) nofun nofun
      | close l' r o hp =>
        by_cases hl : l' = l
        · subst hl
          have hc := ih.1
          rw [hp] at hc
          rw [show ((Function.update s.proc l' _ : L → Proc ε) l').phase = .ended (exit e.input o r) by simp]
          exact ⟨.inr ⟨by simp [hc.1], o, ho _ hc.2.2.1, .inr ⟨hc.2.2.2, r, by simp, rfl⟩⟩, nofun⟩
        · refine keep (by simp [Function.update_of_ne (Ne.symm hl)]) nofun ?_
          rintro r ⟨⟩; exact hl rfl
    · simp only [ne_eq, not_forall, not_not] at hx
      obtain ⟨y, rfl⟩ := hx
      obtain ⟨s1, hn, -, hs'⟩ := step_sys hst
      exact keep (by rw [hs']; exact (noted_phase hn l).1) nofun nofun

/-! ## Timers -/

theorem elapsed_append (xs ys : List (Label ε L)) : elapsed (xs ++ ys) = elapsed xs + elapsed ys := by
  induction xs with
  | nil => simp [elapsed]
  | cons x xs ih => cases x <;> simp [elapsed, ih, Nat.add_assoc]

theorem clock_run (ls : List (Label ε L)) (s : St ε L) (h : run e (init e) ls = some s) : s.clock = elapsed ls := by
  refine Lts.run_induction (P := fun ls (s : St ε L) => s.clock = elapsed ls) rfl ?_ ls s h
  intro ls x s s' _ ih hst
  rw [elapsed_append]
  by_cases hx : ∀ y, x ≠ .sys y
  · cases step_own hst hx <;> simp [elapsed, ih]
  · simp only [ne_eq, not_forall, not_not] at hx
    obtain ⟨y, rfl⟩ := hx
    obtain ⟨s1, hn, -, hs'⟩ := step_sys hst
    rw [hs']
    cases hn <;> simp [elapsed, ih]

/-- What the state of a leader's timer tells. -/
def Timed (e : Env ε L) (l : L) (ls : List (Label ε L)) : Timer → Prop
  | .off => ls.countP (Label.fires l) = 0
  | .asking => ls.countP (Label.fires l) = 0 ∧ (e.timeout l).isSome ∧ ∃ p0 p1, ls = p0 ++ .start l (.ok ()) :: p1
  | .sleeping til => ls.countP (Label.fires l) = 0 ∧ ∃ t p0 p1 p2, e.timeout l = some t ∧ ls = p0 ++ .start l (.ok ()) :: (p1 ++ .sender l true :: p2) ∧
    til = elapsed (p0 ++ .start l (.ok ()) :: p1) + t
  | .over => ls.countP (Label.fires l) ≤ 1

theorem Timed.mono {l : L} {ls : List (Label ε L)} {x : Label ε L} {t : Timer} (h : Timed e l ls t) (hx : x.fires l = false) : Timed e l (ls ++ [x]) t := by
  have k : (ls ++ [x]).countP (Label.fires l) = ls.countP (Label.fires l) := by simp [List.countP_append, hx]
  cases t with
  | off => exact k.trans h
  | asking =>
    obtain ⟨h1, h2, p0, p1, rfl⟩ := h
    exact ⟨k.trans h1, h2, p0, p1 ++ [x], by simp⟩
  | sleeping til =>
    obtain ⟨h1, t, p0, p1, p2, h2, rfl, h3⟩ := h
    exact ⟨k.trans h1, t, p0, p1, p2 ++ [x], h2, by simp, h3⟩
  | over => exact k.trans_le h

theorem timed_run (l : L) (ls : List (Label ε L)) (s : St ε L) (h : run e (init e) ls = some s) : Timed e l ls (s.proc l).timer ∧ ((s.proc l).phase = .starting → (s.proc l).timer = .off) := by
  refine Lts.run_induction (P := fun ls (s : St ε L) => Timed e l ls (s.proc l).timer ∧ ((s.proc l).phase = .starting → (s.proc l).timer = .off)) ?_ ?_ ls s h
  · exact ⟨rfl, fun _ => rfl⟩
  intro ls x s s' hr ih hst
  have keep : (s'.proc l).timer = (s.proc l).timer → ((s'.proc l).phase = .starting → (s.proc l).phase = .starting) → x.fires l = false →
      Timed e l (ls ++ [x]) (s'.proc l).timer ∧ ((s'.proc l).phase = .starting → (s'.proc l).timer = .off) := by
    intro h1 h2 h3
    rw [h1]
    exact ⟨ih.1.mono h3, fun hs => ih.2 (h2 hs)⟩
  by_cases hx : ∀ y, x ≠ .sys y
  · cases step_own hst hx with
    | tick n => exact keep rfl id rfl
    | again => exact keep rfl id rfl
    | start l' hp =>
      by_cases hl : l' = l
      · subst hl
        have h0 := ih.1
        rw [ih.2 hp] at h0
        refine ⟨?_, by simp⟩
        rw [show ((Function.update s.proc l' _ : L → Proc ε) l').timer = if (e.timeout l').isSome then .asking else .off by simp]
        have k : (ls ++ [Label.start l' (.ok ())]).countP (Label.fires l') = 0 := by rw [List.countP_append, show ls.countP (Label.fires l') = 0 from h0]; rfl
        split
        · exact ⟨k, ‹_›, ls, [], rfl⟩
        · exact k
      · exact keep (by simp [Function.update_of_ne (Ne.symm hl)]) (by simp [Function.update_of_ne (Ne.symm hl)]) rfl
    | startErr l' z hp =>
      by_cases hl : l' = l
      · subst hl; exact keep (by simp) (by simp) rfl
      · exact keep (by simp [Function.update_of_ne (Ne.symm hl)]) (by simp [Function.update_of_ne (Ne.symm hl)]) rfl
    | sender l' ok t hp ht ha =>
      by_cases hl : l' = l
      · subst hl
        have h0 := ih.1
        rw [hp] at h0
        obtain ⟨h1, -, p0, p1, h2⟩ := h0
        refine ⟨?_, fun hs => ?_⟩
        · rw [show ((Function.update s.proc l' _ : L → Proc ε) l').timer = if ok then .sleeping (s.clock + t) else .over by simp]
          have k : (ls ++ [Label.sender l' ok]).countP (Label.fires l') = 0 := by rw [List.countP_append, h1]; rfl
          cases ok with
          | true =>
            refine ⟨k, t, p0, p1, [], ht, by simp [h2], ?_⟩
            rw [← h2, clock_run ls s hr]
          | false => exact k.trans_le (by omega)
        · have : (s.proc l').phase = .starting := by simpa using hs
          have := ih.2 this
          rw [hp] at this; cases this
      · exact keep (by simp [Function.update_of_ne (Ne.symm hl)]) (by simp [Function.update_of_ne (Ne.symm hl)]) rfl
    | fire l' ok til hp ha ht =>
      by_cases hl : l' = l
      · subst hl
        have h0 := ih.1
        rw [hp] at h0
        refine ⟨?_, fun hs => ?_⟩
        · rw [show ((Function.update s.proc l' _ : L → Proc ε) l').timer = .over by simp]
          show (ls ++ [Label.fire l' ok]).countP (Label.fires l') ≤ 1
          rw [List.countP_append, h0.1]
          simp [Label.fires]
        · have : (s.proc l').phase = .starting := by simpa using hs
          have := ih.2 this
          rw [hp] at this; cases this
      · exact keep (by simp [Function.update_of_ne (Ne.symm hl)]) (by simp [Function.update_of_ne (Ne.symm hl)]) (by simp [Label.fires, hl])
    | panicked l' | computed l' | close l' =>
      by_cases hl : l' = l
      · subst hl; exact keep (by simp) (by simp) rfl
      · exact keep (by simp [Function.update_of_ne (Ne.symm hl)]) (by simp [Function.update_of_ne (Ne.symm hl)]) rfl
  · simp only [ne_eq, not_forall, not_not] at hx
    obtain ⟨y, rfl⟩ := hx
    obtain ⟨s1, hn, -, hs'⟩ := step_sys hst
    have h2 := noted_phase hn l
    exact keep (by rw [hs']; exact h2.2.1) (by rw [hs']; exact fun h => h2.1 ▸ h) rfl

/-! ## Commands -/

/-- A worker publishes an abort command. -/
def Label.aborts : Label ε L → Bool
  | .sys (.work _ .pubAbort) => true
  | _ => false

theorem counts_run (ls : List (Label ε L)) (s : St ε L) (h : run e (init e) ls = some s) :
    s.commands + ls.countP Label.hears = ls.countP Label.sends + ls.countP Label.aborts + ls.countP Label.redelivers ∧ s.taken = ls.countP Label.hears := by
  refine Lts.run_induction (P := fun ls (s : St ε L) =>
    s.commands + ls.countP Label.hears = ls.countP Label.sends + ls.countP Label.aborts + ls.countP Label.redelivers ∧ s.taken = ls.countP Label.hears) ⟨rfl, rfl⟩ ?_ ls s h
  intro ls x s s' _ ih hst
  obtain ⟨h1, h2⟩ := ih
  simp only [List.countP_append]
  by_cases hx : ∀ y, x ≠ .sys y
  · cases step_own hst hx with
    | fire l ok => cases ok <;> simp [Label.hears, Label.sends, Label.aborts, Label.redelivers] <;> omega
    | _ => simp [Label.hears, Label.sends, Label.aborts, Label.redelivers]; omega
  · simp only [ne_eq, not_forall, not_not] at hx
    obtain ⟨y, rfl⟩ := hx
    obtain ⟨s1, hn, -, hs'⟩ := step_sys hst
    rw [hs']
    cases hn with
    | map l y x hx => rcases hx with rfl | rfl <;> (simp [Label.hears, Label.sends, Label.aborts, Label.redelivers]; omega)
    | fold l y x hx => rcases hx with rfl | rfl <;> (simp [Label.hears, Label.sends, Label.aborts, Label.redelivers]; omega)
    | cmd w hc => simp [Label.hears, Label.sends, Label.aborts, Label.redelivers]; omega
    | abort w ho => simp [Label.hears, Label.sends, Label.aborts, Label.redelivers]; omega
    | other _ h3 h4 h5 h6 h7 =>
      have k1 : Label.hears (.sys y : Label ε L) = false := by
        cases y with
        | work w l => cases l with
          | cmd k => exact absurd rfl (h5 w k)
          | _ => rfl
        | _ => rfl
      have k2 : Label.aborts (.sys y : Label ε L) = false := by
        cases y with
        | work w l => cases l with
          | pubAbort => exact absurd rfl (h6 w)
          | _ => rfl
        | _ => rfl
      simp [k1, k2, Label.sends, Label.redelivers]; omega

/-! ## Workers -/

theorem sysOf_mem {ls : List (Label ε L)} {x : SysLabel ε L} : x ∈ sysOf ls ↔ .sys x ∈ ls := by
  unfold sysOf
  rw [List.mem_filterMap]
  constructor
  · rintro ⟨y, h1, h2⟩
    cases y <;> simp only [Option.some.injEq, reduceCtorEq] at h2
    subst h2; exact h1
  · exact fun h => ⟨_, h, rfl⟩

theorem no_setFlag (ls : List (Label ε L)) (s : St ε L) (h : run e (init e) ls = some s) (w : Nat) : .sys (.work w .setFlag) ∉ ls := by
  intro hin
  obtain ⟨pre, post, rfl⟩ := List.append_of_mem hin
  obtain ⟨s1, h1, h2⟩ := Lts.run_append.1 h
  obtain ⟨s2, h3, -⟩ := Lts.run_cons.1 h2
  simp [step, note] at h3

theorem sysOf_split {ls : List (Label ε L)} {pre post : List (SysLabel ε L)} {x : SysLabel ε L} (h : sysOf ls = pre ++ x :: post) : ∃ p1 p2, ls = p1 ++ .sys x :: p2 ∧ sysOf p1 = pre := by
  obtain ⟨p1, p2, rfl, h1, h2⟩ := List.filterMap_eq_append_iff.1 h
  obtain ⟨q1, a, q2, rfl, h3, h4, -⟩ := List.filterMap_eq_cons_iff.1 h2
  cases a <;> simp only [reduceCtorEq] at h4
  cases Option.some.inj h4
  refine ⟨p1 ++ q1, q2, by simp, ?_⟩
  have hq : sysOf q1 = [] := List.filterMap_eq_nil_iff.2 h3
  rw [sysOf_append, hq, List.append_nil]
  exact h1

theorem truth_of (ls : List (Label ε L)) (s : St ε L) (h : run e (init e) ls = some s) (hr : Reads e ls) :
    SystemAmqp.Truth e.join e.dupErr (ops e) e.k e.kt e.flag e.dbg e.keyM e.keyF idM idF e.nt e.cfg (sysOf ls) where
  readOnly w hin := no_setFlag ls s h w (sysOf_mem.1 hin)
  reads pre w x post u hls hu hs := by
    obtain ⟨p1, p2, h1, h2⟩ := sysOf_split hls
    obtain ⟨s1, g1, -⟩ := Lts.run_append.1 (h1 ▸ h)
    have hp : sysRun e pre = some s1.sys := h2 ▸ proj _ _ g1
    have : u = s1.sys := Option.some.inj (hu.symm.trans hp)
    rw [this]
    exact hr p1 w x p2 s1 h1 g1 hs

/-- If the input is not larger than memory, no worker publishes an abort command. -/
theorem no_aborts (hin : e.input.utf8ByteSize < 2 ^ 63) (ls : List (Label ε L)) (s : St ε L) (h : run e (init e) ls = some s) (hr : Reads e ls) (w : Nat) : .sys (.work w .pubAbort) ∉ ls := by
  intro hm
  obtain ⟨pre, post, rfl⟩ := List.append_of_mem hm
  obtain ⟨s1, h1, h2⟩ := Lts.run_append.1 h
  obtain ⟨s2, h3, -⟩ := Lts.run_cons.1 h2
  obtain ⟨s3, hn, hs, -⟩ := step_sys h3
  have hrp : Reads e pre := fun p w' x q s hls => hr p w' x (q ++ .sys (.work w .pubAbort) :: post) s (by rw [hls]; simp)
  have ho : e.nt.wconn w ∉ s1.sys.net.closed := by
    generalize hx : (SystemAmqp.Label.work w Worker.Label.pubAbort : SysLabel ε L) = x at hn
    cases hn with
    | abort w' ho => cases hx; exact ho
    | map l y x hy => subst hx; rcases hy with hy | hy <;> cases hy
    | fold l y x hy => subst hx; rcases hy with hy | hy <;> cases hy
    | cmd => cases hx
    | other x _ _ _ h4 => exact absurd hx.symm (h4 w)
  have hp := proj pre s1 h1
  have hu : ∀ w x, .finish w x ∈ sysOf pre → ¬ Sees e.flag x := fun w x hx => SystemAmqp.C82_broker_unseen (Sees e.flag) (sysOf pre) s1.sys hp (truth_of pre s1 h1 hrp) w x hx
  have key := SystemAmqp.no_failure e.input hin rfl rfl (sysOf pre) s1.sys hp (fun l => runs l pre s1 h1) hu w ho
  simp only [sysStep, SystemAmqp.step] at hs
  split at hs <;> try simp only [reduceCtorEq] at hs
  rename_i hv _
  simp only [Worker.step] at hv
  split at hv <;> simp only [Option.some.injEq, reduceCtorEq] at hv
  exact key _ _ _ _ _ _ ‹_›
end
end Program
end Paladin
