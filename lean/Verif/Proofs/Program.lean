import Verif.Spec.Program
import Verif.Props.AbortAmqp
import Verif.Proofs.AftermathAmqp
/-! # Lemmas about the programs of `hello-world-rabbitmq` -/
set_option linter.unusedSectionVars false
namespace Paladin

namespace SystemAmqp
open Retry _root_.Paladin.System
section
variable {κ : Type} {σ ℓ : κ → Type} [DecidableEq κ] {T O ε χ ω : Type} {cl : (j : κ) → Client (σ j) (ℓ j) T (Except ε O)} {listens : (j : κ) → σ j → Bool} {nt : Net κ} {cfg : Worker.Cfg κ}
  {exec : ω → T → Except (OpError χ) O} {text : OpError χ → ε}

/-- The step of a leader in a step of the system. -/
theorem lead_any {s s' : St κ σ T O ε χ} {l : Label κ ℓ T O ε χ ω} (h : step cl listens nt cfg exec text s l = some s') (j : κ) :
    s'.lead j = s.lead j ∧ (∀ x, l ≠ .lead j x) ∧ (∀ x, l ≠ .recv j x) ∨ ∃ x rs ts rs', (l = .lead j x ∨ l = .recv j x) ∧ (cl j).step (s.lead j) x rs = some (s'.lead j, ts, rs') := by
  by_cases hn : ∀ x, l ≠ .recv j x
  · rcases lead_label h j hn with ⟨h1, h2⟩ | ⟨x, ts, rs, h1, h2⟩
    · exact .inl ⟨h1, h2, hn⟩
    · exact .inr ⟨x, [], ts, rs, .inl h1, h2⟩
  · simp only [ne_eq, not_forall, not_not] at hn
    obtain ⟨x, rfl⟩ := hn
    simp only [step] at h
    split at h <;> try simp only [reduceCtorEq] at h
    split at h <;> try simp only [reduceCtorEq] at h
    rename_i hc
    split at h <;> simp only [Option.some.injEq, reduceCtorEq] at h
    subst h
    exact .inr ⟨x, _, _, _, .inr rfl, by simpa using hc⟩

theorem leads_recv (j : κ) (l : ℓ j) : Label.leads j ([.recv j l] : List (Label κ ℓ T O ε χ ω)) = [l] := by simp [Label.leads]
end
end SystemAmqp

namespace Program
open Retry Exec Wire _root_.Paladin.System Hello

section
variable {ε L : Type} [DecidableEq L] [DecidableEq ε] [Anyhow ε] {e : Env ε L}

theorem sysOf_append (xs ys : List (Label ε L)) : sysOf (xs ++ ys) = sysOf xs ++ sysOf ys := List.filterMap_append ..

/-- What a step of the system does to the rest. -/
inductive Noted (e : Env ε L) (s : St ε L) : SysLabel ε L → St ε L → Prop
  | map (l : L) (y : MapS.Label Char ε Circ) (x) (hx : x = .lead (.inl l) y ∨ x = .recv (.inl l) y) (hr : (s.proc l).phase.running = true) (hm : mapMay e.input.toList (s.proc l).read y = true) :
    Noted e s x { s with proc := Function.update s.proc l { s.proc l with read := (s.proc l).read + mapTakes y, passed := (s.proc l).passed + 0 } }
  | fold (l : L) (y : Fold.Label Str ε Circ) (x) (hx : x = .lead (.inr l) y ∨ x = .recv (.inr l) y) (hr : (s.proc l).phase.running = true)
    (hm : foldMay (s.sys.lead (.inl l) : MapS.St Char Str ε).outs (s.sys.lead (.inl l) : MapS.St Char Str ε).ended (s.proc l).passed y = true) :
    Noted e s x { s with proc := Function.update s.proc l { s.proc l with read := (s.proc l).read + 0, passed := (s.proc l).passed + foldTakes y } }
  | cmd (w : Nat) (hc : 0 < s.commands) : Noted e s (.work w (.cmd e.cfg.abortAll)) { s with commands := s.commands - 1, taken := s.taken + 1 }
  | abort (w : Nat) (ho : e.nt.wconn w ∉ s.sys.net.closed) : Noted e s (.work w .pubAbort) { s with commands := s.commands + 1 }
  | other (x) (h1 : ∀ j y, x ≠ .lead j y) (h2 : ∀ j y, x ≠ .recv j y) (h3 : ∀ w k, x ≠ .work w (.cmd k)) (h4 : ∀ w, x ≠ .work w .pubAbort) (h5 : ∀ w, x ≠ .work w .setFlag) : Noted e s x s

theorem leads_some {s s1 : St ε L} {l : L} {may : Bool} {m f : Nat} (h : leads s l may m f = some s1) : (s.proc l).phase.running = true ∧ may = true ∧
    s1 = { s with proc := Function.update s.proc l { s.proc l with read := (s.proc l).read + m, passed := (s.proc l).passed + f } } := by
  simp only [leads] at h
  split at h <;> simp only [Option.some.injEq, reduceCtorEq] at h
  rename_i hc
  simp only [Bool.and_eq_true] at hc
  exact ⟨hc.1, hc.2, h.symm⟩

theorem noted {s s1 : St ε L} {x : SysLabel ε L} (h : note e s x = some s1) : Noted e s x s1 := by
  cases x with
  | lead j y =>
    cases j with
    | inl l => obtain ⟨h1, h2, rfl⟩ := leads_some h; exact .map l y _ (.inl rfl) h1 h2
    | inr l => obtain ⟨h1, h2, rfl⟩ := leads_some h; exact .fold l y _ (.inl rfl) h1 h2
  | recv j y =>
    cases j with
    | inl l => obtain ⟨h1, h2, rfl⟩ := leads_some h; exact .map l y _ (.inr rfl) h1 h2
    | inr l => obtain ⟨h1, h2, rfl⟩ := leads_some h; exact .fold l y _ (.inr rfl) h1 h2
  | work w l =>
    cases l with
    | cmd k =>
      simp only [note] at h
      split at h <;> simp only [Option.some.injEq, reduceCtorEq] at h
      rename_i hc
      obtain ⟨rfl, hc⟩ := hc
      subst h
      exact .cmd w hc
    | pubAbort =>
      simp only [note] at h
      split at h <;> simp only [Option.some.injEq, reduceCtorEq] at h
      subst h
      exact .abort w ‹_›
    | setFlag => simp [note] at h
    | _ => simp only [note, Option.some.injEq] at h; subst h; exact .other _ nofun nofun nofun nofun nofun
  | _ => simp only [note, Option.some.injEq] at h; subst h; exact .other _ nofun nofun nofun nofun nofun

/-- A step is one of the system, or it leaves the system alone. -/
theorem step_sys {s s' : St ε L} {x : SysLabel ε L} (h : step e s (.sys x) = some s') : ∃ s1, Noted e s x s1 ∧ sysStep e s.sys x = some s'.sys ∧ s' = { s1 with sys := s'.sys } := by
  simp only [step, Option.bind_eq_some_iff, Option.map_eq_some_iff] at h
  obtain ⟨s1, h1, y, h2, rfl⟩ := h
  exact ⟨s1, noted h1, h2, rfl⟩

/-- What the other steps do. -/
inductive Own (e : Env ε L) (s : St ε L) : Label ε L → St ε L → Prop
  | tick (n) : Own e s (.tick n) { s with clock := s.clock + n }
  | start (l) (h : (s.proc l).phase = .starting) :
    Own e s (.start l (.ok ())) { s with proc := Function.update s.proc l { s.proc l with phase := .computing, timer := if (e.timeout l).isSome then .asking else .off } }
  | startErr (l x) (h : (s.proc l).phase = .starting) : Own e s (.start l (.error x)) { s with proc := Function.update s.proc l { s.proc l with phase := .ended (.err x) } }
  | sender (l ok t) (h : (s.proc l).timer = .asking) (ht : e.timeout l = some t) (ha : (s.proc l).phase.alive = true) :
    Own e s (.sender l ok) { s with proc := Function.update s.proc l { s.proc l with timer := if ok then .sleeping (s.clock + t) else .over } }
  | fire (l ok til) (h : (s.proc l).timer = .sleeping til) (ha : (s.proc l).phase.alive = true) (ht : til ≤ s.clock) :
    Own e s (.fire l ok) { s with proc := Function.update s.proc l { s.proc l with timer := .over }, commands := s.commands + if ok then 1 else 0 }
  | panicked (l) (h : (s.proc l).phase = .computing) (ho : outcome s l = some .panic) : Own e s (.computed l) { s with proc := Function.update s.proc l { s.proc l with phase := .ended .panicked } }
  | computed (l o) (h : (s.proc l).phase = .computing) (ho : outcome s l = some o) (hp : o ≠ .panic) :
    Own e s (.computed l) { s with proc := Function.update s.proc l { s.proc l with phase := .closing o } }
  | close (l r o) (h : (s.proc l).phase = .closing o) : Own e s (.close l r) { s with proc := Function.update s.proc l { s.proc l with phase := .ended (exit e.input o r) } }
  | again (h : 0 < s.taken) : Own e s .again { s with commands := s.commands + 1 }

theorem step_own {s s' : St ε L} {l : Label ε L} (h : step e s l = some s') (hl : ∀ x, l ≠ .sys x) : Own e s l s' := by
  cases l with
  | tick n => simp only [step, Option.some.injEq] at h; subst h; exact .tick n
  | start l r =>
    simp only [step] at h
    split at h <;> simp only [Option.some.injEq, reduceCtorEq] at h <;> subst h
    · exact .start l ‹_›
    · exact .startErr l _ ‹_›
  | sender l ok =>
    simp only [step] at h
    split at h <;> try simp only [reduceCtorEq] at h
    split at h <;> simp only [Option.some.injEq, reduceCtorEq] at h
    subst h
    exact .sender l ok _ ‹_› ‹_› ‹_›
  | fire l ok =>
    simp only [step] at h
    split at h <;> try simp only [reduceCtorEq] at h
    split at h <;> simp only [Option.some.injEq, reduceCtorEq] at h
    rename_i h1 h2
    simp only [Bool.and_eq_true, decide_eq_true_eq] at h2
    subst h
    exact .fire l ok _ h1 h2.1 h2.2
  | computed l =>
    simp only [step] at h
    split at h <;> simp only [Option.some.injEq, reduceCtorEq] at h
    rename_i o h1 h2
    subst h
    cases o with
    | panic => exact .panicked l h1 h2
    | ok v => exact .computed l _ h1 h2 nofun
    | err x => exact .computed l _ h1 h2 nofun
  | close l r =>
    simp only [step] at h
    split at h <;> simp only [Option.some.injEq, reduceCtorEq] at h
    subst h
    exact .close l r _ ‹_›
  | again =>
    simp only [step] at h
    split at h <;> simp only [Option.some.injEq, reduceCtorEq] at h
    subst h
    exact .again ‹_›
  | sys x => exact absurd rfl (hl x)

theorem own_sys {s s' : St ε L} {l : Label ε L} (h : Own e s l s') : s'.sys = s.sys ∧ sysOf [l] = ([] : List (SysLabel ε L)) := by cases h <;> exact ⟨rfl, rfl⟩

theorem noted_sys {s s1 : St ε L} {x : SysLabel ε L} (h : Noted e s x s1) : s1.sys = s.sys := by cases h <;> rfl

/-- The computations, the workers and the broker run as without the rest. -/
theorem proj (ls : List (Label ε L)) (s : St ε L) (h : run e (init e) ls = some s) : sysRun e (sysOf ls) = some s.sys := by
  refine Lts.run_induction (P := fun ls (s : St ε L) => sysRun e (sysOf ls) = some s.sys) ?_ ?_ ls s h
  · rfl
  · intro ls l s s' _ ih hst
    by_cases hl : ∀ x, l ≠ .sys x
    · obtain ⟨h1, h2⟩ := own_sys (step_own hst hl)
      rw [sysOf_append, h1, h2, List.append_nil]; exact ih
    · simp only [ne_eq, not_forall, not_not] at hl
      obtain ⟨x, rfl⟩ := hl
      obtain ⟨s1, -, h2, -⟩ := step_sys hst
      rw [sysOf_append]
      exact Lts.run_snoc.2 ⟨s.sys, ih, h2⟩

/-- What a step of the rest does to a leader's reading. -/
theorem own_read {s s' : St ε L} {l : Label ε L} (h : Own e s l s') (a : L) : (s'.proc a).read = (s.proc a).read ∧ (s'.proc a).passed = (s.proc a).passed := by
  cases h with
  | tick => exact ⟨rfl, rfl⟩
  | again => exact ⟨rfl, rfl⟩
  | start l | startErr l | sender l | fire l | panicked l | computed l | close l =>
    by_cases hl : a = l
    · subst hl; simp
    · simp [Function.update_of_ne hl]

theorem indexed_getElem? {α : Type} (st : Nat) (xs : List α) (n : Nat) : (indexed st xs)[n]? = (xs[n]?).map fun x => (st + n, x) := by
  induction xs generalizing st n with
  | nil => simp [indexed]
  | cons x xs ih =>
    cases n with
    | zero => simp [indexed]
    | succ n => simp [indexed, ih, Nat.add_assoc, Nat.add_comm 1 n]

/-- What a leader has read, of its input and of the mapped stream. -/
structure Reading (e : Env ε L) (l : L) (ls : List (Label ε L)) (s : St ε L) : Prop where
  map : MapS.reads (mapSteps ls l) = ((indexed 0 e.input.toList).map .ok).take (s.proc l).read
  mapLe : (s.proc l).read ≤ e.input.toList.length
  mapEnd : .inputEnd ∈ mapSteps ls l → (s.proc l).read = e.input.toList.length
  fold : Fold.reads (foldSteps ls l) = (SystemAmqp.mapOf s.sys l).outs.take (s.proc l).passed
  foldLe : (s.proc l).passed ≤ (SystemAmqp.mapOf s.sys l).outs.length
  foldEnd : .inputEnd ∈ foldSteps ls l → (SystemAmqp.mapOf s.sys l).ended = true ∧ (s.proc l).passed = (SystemAmqp.mapOf s.sys l).outs.length

theorem mapReads_append (xs ys : List (MapS.Label α ε ω)) : MapS.reads (xs ++ ys) = MapS.reads xs ++ MapS.reads ys := by
  induction xs with
  | nil => rfl
  | cons x xs ih => cases x <;> simp [MapS.reads, ih]

theorem foldReads_append (xs ys : List (Fold.Label α ε ω)) : Fold.reads (xs ++ ys) = Fold.reads xs ++ Fold.reads ys := by
  induction xs with
  | nil => rfl
  | cons x xs ih => cases x <;> simp [Fold.reads, ih]

theorem Reading.same {l : L} {ls ls' : List (Label ε L)} {s s' : St ε L} (h : Reading e l ls s) (h1 : mapSteps ls' l = mapSteps ls l) (h2 : foldSteps ls' l = foldSteps ls l)
    (h3 : SystemAmqp.mapOf s'.sys l = SystemAmqp.mapOf s.sys l) (h4 : (s'.proc l).read = (s.proc l).read) (h5 : (s'.proc l).passed = (s.proc l).passed) : Reading e l ls' s' :=
  ⟨by rw [h1, h4]; exact h.map, by rw [h4]; exact h.mapLe, by rw [h1, h4]; exact h.mapEnd, by rw [h2, h3, h5]; exact h.fold, by rw [h3, h5]; exact h.foldLe, by rw [h2, h3, h5]; exact h.foldEnd⟩

theorem steps_other {l : L} {ls : List (Label ε L)} {x : SysLabel ε L} (h1 : ∀ y, x ≠ .lead (.inl l) y) (h2 : ∀ y, x ≠ .recv (.inl l) y) : mapSteps (ls ++ [.sys x]) l = mapSteps ls l := by
  unfold mapSteps
  rw [sysOf_append]
  exact SystemAmqp.leads_other h1 h2

theorem steps_otherF {l : L} {ls : List (Label ε L)} {x : SysLabel ε L} (h1 : ∀ y, x ≠ .lead (.inr l) y) (h2 : ∀ y, x ≠ .recv (.inr l) y) : foldSteps (ls ++ [.sys x]) l = foldSteps ls l := by
  unfold foldSteps
  rw [sysOf_append]
  exact SystemAmqp.leads_other h1 h2

theorem steps_map {l : L} {ls : List (Label ε L)} {x : SysLabel ε L} {y : MapS.Label Char ε Circ} (h : x = .lead (.inl l) y ∨ x = .recv (.inl l) y) :
    mapSteps (ls ++ [.sys x]) l = mapSteps ls l ++ [y] := by
  unfold mapSteps SystemAmqp.mapSteps
  rw [sysOf_append, SystemAmqp.Label.leads_append]
  congr 1
  rcases h with rfl | rfl
  · exact SystemAmqp.leads_one _ _
  · exact SystemAmqp.leads_recv _ _

theorem steps_fold {l : L} {ls : List (Label ε L)} {x : SysLabel ε L} {y : Fold.Label Str ε Circ} (h : x = .lead (.inr l) y ∨ x = .recv (.inr l) y) :
    foldSteps (ls ++ [.sys x]) l = foldSteps ls l ++ [y] := by
  unfold foldSteps SystemAmqp.foldSteps
  rw [sysOf_append, SystemAmqp.Label.leads_append]
  congr 1
  rcases h with rfl | rfl
  · exact SystemAmqp.leads_one _ _
  · exact SystemAmqp.leads_recv _ _

theorem take_succ_of {α : Type} {xs : List α} {n : Nat} {x : α} (h : xs[n]? = some x) : xs.take n ++ [x] = xs.take (n + 1) := by
  rw [List.take_add_one, h]; rfl

theorem reading_step {l : L} {ls : List (Label ε L)} {s s' : St ε L} {x : Label ε L} (h : Reading e l ls s) (hst : step e s x = some s') : Reading e l (ls ++ [x]) s' := by
  by_cases hx : ∀ y, x ≠ .sys y
  · have ho := step_own hst hx
    obtain ⟨h1, h2⟩ := own_sys ho
    obtain ⟨h3, h4⟩ := own_read ho l
    have e1 : sysOf (ls ++ [x]) = sysOf ls := by rw [sysOf_append, h2, List.append_nil]
    exact h.same (by rw [mapSteps, e1]; rfl) (by rw [foldSteps, e1]; rfl) (by rw [h1]) h3 h4
  · simp only [ne_eq, not_forall, not_not] at hx
    obtain ⟨x, rfl⟩ := hx
    obtain ⟨s1, hn, hs, hs'⟩ := step_sys hst
    have key : ∀ j, s'.sys.lead j = s.sys.lead j ∧ (∀ y, x ≠ .lead j y) ∧ (∀ y, x ≠ .recv j y) ∨ ∃ y rs ts rs', (x = .lead j y ∨ x = .recv j y) ∧ (jobs e j).step (s.sys.lead j) y rs = some (s'.sys.lead j, ts, rs') :=
      fun j => SystemAmqp.lead_any hs j
    have hproc : s'.proc = s1.proc := by rw [hs']
    cases hn with
    | map l' y _ hy hr hm =>
      by_cases hl : l' = l
      · subst hl
        have hF : foldSteps (ls ++ [.sys x]) l' = foldSteps ls l' := by rcases hy with rfl | rfl <;> exact steps_otherF nofun nofun
        rcases key (.inl l') with ⟨-, g1, g2⟩ | ⟨y', rs, ts, rs', g1, g2⟩
        · rcases hy with rfl | rfl
          · exact absurd rfl (g1 y)
          · exact absurd rfl (g2 y)
        · obtain rfl : y' = y := by
            rcases hy with rfl | rfl <;> rcases g1 with g1 | g1 <;> cases g1 <;> rfl
          have hout : (SystemAmqp.mapOf s.sys l').outs <+: (SystemAmqp.mapOf s'.sys l').outs := (map_takes g2).2.1
          have hend : (SystemAmqp.mapOf s.sys l').ended = false := by
            obtain ⟨-, s2, g3, -⟩ := map_step g2
            have g4 := MapS.step_ended g3
            exact g4
          have hread : (s'.proc l').read = (s.proc l').read + mapTakes y' := by rw [hproc]; simp
          have hpass : (s'.proc l').passed = (s.proc l').passed := by rw [hproc]; simp
          have hfe : .inputEnd ∉ foldSteps ls l' := fun hf => by rw [(h.foldEnd hf).1] at hend; cases hend
          have hle := h.foldLe
          refine ⟨?_, ?_, ?_, ?_, ?_, ?_⟩
          · rw [steps_map hy, mapReads_append, h.map, hread]
            cases y' with
            | item i c =>
              simp only [mapMay, Bool.and_eq_true, beq_iff_eq] at hm
              refine take_succ_of ?_
              rw [List.getElem?_map, indexed_getElem?, hm.2, hm.1]; simp
            | inputErr x => simp [mapMay] at hm
            | _ => simp [MapS.reads, mapTakes]
          · rw [hread]
            have := h.mapLe
            cases y' with
            | item i c =>
              simp only [mapMay, Bool.and_eq_true, beq_iff_eq] at hm
              have := (List.getElem?_eq_some_iff.1 hm.2).1
              simp only [mapTakes]; omega
            | inputErr x => simp [mapMay] at hm
            | _ => simpa [mapTakes] using this
          · rw [steps_map hy, hread]
            intro hin
            rcases List.mem_append.1 hin with hin | hin
            · have := h.mapEnd hin
              cases y' with
              | item i c =>
                simp only [mapMay, Bool.and_eq_true, beq_iff_eq] at hm
                have := (List.getElem?_eq_some_iff.1 hm.2).1
                omega
              | inputErr x => simp [mapMay] at hm
              | _ => simpa [mapTakes] using this
            · obtain rfl := List.mem_singleton.1 hin
              simpa [mapMay, mapTakes] using hm
          · rw [hF, h.fold, hpass]
            obtain ⟨zs, hz⟩ := hout
            rw [← hz, List.take_append_of_le_length hle]
          · rw [hpass]
            exact Nat.le_trans hle hout.length_le
          · rw [hF]
            exact fun hf => absurd hf hfe
      · have e1 : mapSteps (ls ++ [.sys x]) l = mapSteps ls l := by
          rcases hy with rfl | rfl <;> refine steps_other ?_ ?_ <;> rintro z ⟨⟩ <;> exact hl rfl
        have e2 : foldSteps (ls ++ [.sys x]) l = foldSteps ls l := by rcases hy with rfl | rfl <;> exact steps_otherF nofun nofun
        have e3 : SystemAmqp.mapOf s'.sys l = SystemAmqp.mapOf s.sys l := by
          rcases key (.inl l) with ⟨g1, -⟩ | ⟨y', rs, ts, rs', g1, g2⟩
          · exact g1
          · exact absurd (by rcases hy with rfl | rfl <;> rcases g1 with g1 | g1 <;> cases g1 <;> rfl) hl
        exact h.same e1 e2 e3 (by rw [hproc]; simp [Function.update_of_ne (Ne.symm hl)]) (by rw [hproc]; simp [Function.update_of_ne (Ne.symm hl)])
    | fold l' y _ hy hr hm =>
      have e1 : mapSteps (ls ++ [.sys x]) l = mapSteps ls l := by rcases hy with rfl | rfl <;> exact steps_other nofun nofun
      have e3 : SystemAmqp.mapOf s'.sys l = SystemAmqp.mapOf s.sys l := by
        rcases key (.inl l) with ⟨g1, -⟩ | ⟨y', rs, ts, rs', g1, g2⟩
        · exact g1
        · rcases hy with rfl | rfl <;> rcases g1 with g1 | g1 <;> cases g1
      by_cases hl : l' = l
      · subst hl
        have hread : (s'.proc l').read = (s.proc l').read := by rw [hproc]; simp
        have hpass : (s'.proc l').passed = (s.proc l').passed + foldTakes y := by rw [hproc]; simp
        have hle := h.foldLe
        have hget : ∀ {i : Nat} {v : Str}, y = .item i v → (SystemAmqp.mapOf s.sys l').outs[(s.proc l').passed]? = some (.ok (i, v)) := by
          rintro i v rfl
          simp only [foldMay] at hm
          split at hm
          · rename_i p hp
            simp only [Bool.and_eq_true, beq_iff_eq] at hm
            obtain ⟨p1, p2⟩ := p
            obtain rfl : p1 = i := hm.1
            obtain rfl : p2 = v := Subtype.ext hm.2
            exact hp
          · cases hm
        have hgetE : ∀ {z : ε}, y = .inputErr z → (SystemAmqp.mapOf s.sys l').outs[(s.proc l').passed]? = some (.error z) := by
          rintro z rfl
          simp only [foldMay] at hm
          split at hm
          · rename_i p hp
            rw [decide_eq_true_eq] at hm
            subst hm
            exact hp
          · cases hm
        refine ⟨by rw [e1, hread]; exact h.map, by rw [hread]; exact h.mapLe, by rw [e1, hread]; exact h.mapEnd, ?_, ?_, ?_⟩
        · rw [steps_fold hy, foldReads_append, h.fold, hpass, e3]
          cases y with
          | item i v => exact take_succ_of (hget rfl)
          | inputErr z => exact take_succ_of (hgetE rfl)
          | _ => simp [Fold.reads, foldTakes]
        · rw [hpass, e3]
          cases y with
          | item i v => have := (List.getElem?_eq_some_iff.1 (hget rfl)).1; simp only [foldTakes]; omega
          | inputErr z => have := (List.getElem?_eq_some_iff.1 (hgetE rfl)).1; simp only [foldTakes]; omega
          | _ => simpa [foldTakes] using hle
        · rw [steps_fold hy, hpass, e3]
          intro hin
          rcases List.mem_append.1 hin with hin | hin
          · have := h.foldEnd hin
            cases y with
            | item i v => have := (List.getElem?_eq_some_iff.1 (hget rfl)).1; omega
            | inputErr z => have := (List.getElem?_eq_some_iff.1 (hgetE rfl)).1; omega
            | _ => simpa [foldTakes] using this
          · obtain rfl := List.mem_singleton.1 hin
            simpa [foldMay, foldTakes] using hm
      · have e2 : foldSteps (ls ++ [.sys x]) l = foldSteps ls l := by
          rcases hy with rfl | rfl <;> refine steps_otherF ?_ ?_ <;> rintro z ⟨⟩ <;> exact hl rfl
        exact h.same e1 e2 e3 (by rw [hproc]; simp [Function.update_of_ne (Ne.symm hl)]) (by rw [hproc]; simp [Function.update_of_ne (Ne.symm hl)])
    | cmd w hc =>
      refine h.same (steps_other nofun nofun) (steps_otherF nofun nofun) ?_ (by rw [hproc]) (by rw [hproc])
      rcases key (.inl l) with ⟨g1, -⟩ | ⟨y', rs, ts, rs', g1, g2⟩
      · exact g1
      · rcases g1 with g1 | g1 <;> cases g1
    | abort w hc =>
      refine h.same (steps_other nofun nofun) (steps_otherF nofun nofun) ?_ (by rw [hproc]) (by rw [hproc])
      rcases key (.inl l) with ⟨g1, -⟩ | ⟨y', rs, ts, rs', g1, g2⟩
      · exact g1
      · rcases g1 with g1 | g1 <;> cases g1
    | other _ h1 h2 =>
      refine h.same (steps_other (h1 _) (h2 _)) (steps_otherF (h1 _) (h2 _)) ?_ (by rw [hproc]) (by rw [hproc])
      rcases key (.inl l) with ⟨g1, -⟩ | ⟨y', rs, ts, rs', g1, g2⟩
      · exact g1
      · rcases g1 with g1 | g1
        · exact absurd g1 (h1 _ _)
        · exact absurd g1 (h2 _ _)

theorem reading (l : L) (ls : List (Label ε L)) (s : St ε L) (h : run e (init e) ls = some s) : Reading e l ls s := by
  refine Lts.run_induction (P := fun ls s => Reading e l ls s) ?_ ?_ ls s h
  · exact ⟨rfl, Nat.zero_le _, nofun, rfl, Nat.zero_le _, nofun⟩
  · intro ls x s s' _ ih hst
    exact reading_step ih hst

/-- Every leader reads its input, and its fold what its map yields. -/
theorem runs (l : L) (ls : List (Label ε L)) (s : St ε L) (h : run e (init e) ls = some s) :
    SystemAmqp.Runs (ε := ε) l e.input e.flag e.dbg e.keyM e.keyF idM idF (sysOf ls) s.sys := by
  have hr := reading l ls s h
  refine ⟨⟨?_, fun hin => ⟨rfl, ?_⟩⟩, ⟨?_, fun hin => ?_⟩⟩
  · exact (Eq.symm hr.map) ▸ List.take_prefix ..
  · refine Eq.trans hr.map ?_
    rw [hr.mapEnd hin, List.take_of_length_le (by simp [Fold.length_indexed])]
    rfl
  · exact (Eq.symm hr.fold) ▸ List.take_prefix ..
  · obtain ⟨h1, h2⟩ := hr.foldEnd hin
    refine ⟨h1, Eq.trans hr.fold ?_⟩
    rw [h2, List.take_length]
end
end Program
end Paladin
