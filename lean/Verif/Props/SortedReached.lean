import Verif.Props.SortedDone
/-!
# Property C79: `into_values_sorted` is reached

Completion (`C79_sorted_completes`) says what is true when nothing more can happen; `C79_ends` that this comes about. Together: whatever has happened, `IndexedStream::from(xs).map(op).into_values_sorted()` can still
return, and nothing but time stands between. Vocabulary: `Verif/Spec/MemBytes.lean`, `Verif/Spec/SystemMem.lean`.
-/
namespace Paladin
namespace SystemMem
open Retry Exec Wire Paladin.System

/-- If runs of the steps `P` are bounded, one of them ends where no step `P` is possible. -/
theorem run_to_rest {S L : Type} {step : S → L → Option S} {P : L → Prop} {s : S} {N : Nat} (hN : ∀ ls s', Lts.run step s ls = some s' → (∀ l ∈ ls, P l) → ls.length ≤ N) :
    ∃ ls s', Lts.run step s ls = some s' ∧ (∀ l ∈ ls, P l) ∧ ∀ l, P l → step s' l = none := by
  have key : ∀ n ls s', Lts.run step s ls = some s' → (∀ l ∈ ls, P l) → N + 1 ≤ ls.length + n → ∃ ls s', Lts.run step s ls = some s' ∧ (∀ l ∈ ls, P l) ∧ ∀ l, P l → step s' l = none := by
    intro n
    induction n with
    | zero => intro ls s' h1 h2 h3; have := hN ls s' h1 h2; omega
    | succ n ih =>
      intro ls s' h1 h2 h3
      by_cases hr : ∀ l, P l → step s' l = none
      · exact ⟨ls, s', h1, h2, hr⟩
      · simp only [Classical.not_forall] at hr
        obtain ⟨l, hl, hs⟩ := hr
        obtain ⟨s2, hs2⟩ := Option.ne_none_iff_exists'.1 hs
        refine ih (ls ++ [l]) s2 (Lts.run_append.2 ⟨s', h1, Lts.run_one.2 hs2⟩) ?_ (by simp; omega)
        intro l' hl'
        rcases List.mem_append.1 hl' with h | h
        · exact h2 l' h
        · cases List.mem_singleton.1 h; exact hl
  exact key (N + 1) [] s rfl (by simp) (by simp)

section
variable {ε A B : Type} [DecidableEq A] [DecidableEq B] [Anyhow ε] {join dupErr : ε} {ops : List (OpDef ε)} {k kt : Serializer} {M : A → MapJob ε} {F : B → FoldJob ε}
  {cfg : Worker.Cfg (A ⊕ B)}

omit [DecidableEq A] [DecidableEq B] [Anyhow ε] in
theorem steady_of_moves {W : Nat → Bool} {K : A ⊕ B → Bool} {int} (l : BLabel ε M F) (h : l.moves W K int = true) : l.steady W = true := by
  cases l with
  | work w l => cases l <;> simp_all [Label.moves, Label.steady, System.Label.steady, System.Label.serves, routine]
  | _ => simp_all [Label.moves, Label.steady]

omit [Anyhow ε] in
/-- Moves of the leader of map `a` are steps it takes by itself. -/
theorem internal_of_moves {W : Nat → Bool} {K : A ⊕ B → Bool} {a : A} {ls : List (BLabel ε M F)} (h : ∀ l ∈ ls, l.moves W K (dirInternal K) = true) :
    ∀ x ∈ mapSteps (actions ls) a, x.internal = true := by
  induction ls with
  | nil => exact fun x hx => absurd hx List.not_mem_nil
  | cons l ls ih =>
    have ih := ih fun l hl => h l (by simp [hl])
    have hl := h l (by simp)
    intro x hx
    have e : mapSteps (actions (l :: ls)) a = mapSteps (actions [l]) a ++ mapSteps (actions ls) a := by
      have : actions (l :: ls) = actions [l] ++ actions ls := by simp only [actions, ← List.filterMap_append]; rfl
      rw [this]; exact System.Label.leads_append ..
    rw [e] at hx
    rcases List.mem_append.1 hx with hx | hx
    · have key : ∀ (j : A ⊕ B) (y : DirLabel (fun a => (M a).d.In) (fun b => (F b).Elem) ε Circ j), dirInternal K j y = true →
          x ∈ mapSteps [(System.Label.lead j y : System.Label (A ⊕ B) (DirLabel (fun a => (M a).d.In) (fun b => (F b).Elem) ε Circ) Buf ε Circ)] a → x.internal = true := by
        intro j y hy hx
        by_cases ej : j = .inl a
        · subst ej
          simp only [mapSteps, System.Label.leads, dif_pos] at hx
          cases List.mem_singleton.1 hx
          simp only [dirInternal, Bool.and_eq_true] at hy
          exact hy.2
        · simp only [mapSteps, System.Label.leads, dif_neg ej] at hx
          exact absurd hx List.not_mem_nil
      cases l with
      | lead j y => exact key j y hl hx
      | recv j y => exact key j y hl hx
      | _ => exact absurd hx List.not_mem_nil
    · exact ih x hx

theorem inputs_internal {α ε ω : Type} {ls : List (MapS.Label α ε ω)} (h : ∀ x ∈ ls, x.internal = true) : MapS.inputs ls = [] := by
  induction ls with
  | nil => rfl
  | cons x ls ih =>
    have := h x (by simp)
    have := ih fun x hx => h x (by simp [hx])
    cases x <;> simp_all [MapS.inputs, MapS.Label.internal]

/-- **C79, `into_values_sorted` is reached.** A map over `xs` runs in memory beside any other jobs, on finitely many workers `W` (at least one), and its input has been read to the end; otherwise anything may have happened so far,
except that something went wrong around the workers or at this leader. The operation always returns on the elements of `xs`, with outputs that can be serialized; the elements and the operation can be serialized. Then steps of the workers, the
publishers and this leader lead to a state where `into_values_sorted` returns, and what it returns is `Ok` of one value per element of `xs`, in order, each one that a call of `execute` returned for that element; and no schedule can
take more than some number of such steps. -/
theorem C79_sorted_reached (a : A) (hreg : Registered ops (M a).d (M a).id) (ls : List (BLabel ε M F)) (s : BSt ε M F) (h : memBytesRun join dupErr ops k kt M F cfg ls = some s)
    (W : Finset Nat) (hW : W.Nonempty) (hst : ∀ l ∈ ls, l.steady (fun w => decide (w ∈ W)) = true) (hrel : ∀ l ∈ mapSteps (actions ls) a, l.reliable = true)
    (xs : List (M a).d.In) (hin : (MapS.inputs (mapSteps (actions ls) a)).Perm (indexed 0 xs)) (hend : .inputEnd ∈ mapSteps (actions ls) a) (hsz : xs.length ≤ 2 ^ 64)
    (hok : ∀ x ∈ xs, ∀ i, ∃ v b, (M a).d.execute (M a).op x i = .ok v ∧ (M a).d.outC.enc kt v = .ok b) (henc : ∀ x ∈ xs, ∃ b, (M a).d.inC.enc kt x = .ok b)
    (hopenc : ∃ b, (M a).d.opC.enc kt (M a).op = .ok b) :
    (∃ (ls' : List (BLabel ε M F)) (s' : BSt ε M F), (∀ l ∈ ls', l.moves (fun w => decide (w ∈ W)) (fun j => decide (j = .inl a)) (dirInternal fun j => decide (j = .inl a)) = true) ∧
      memBytesRun join dupErr ops k kt M F cfg (ls ++ ls') = some s' ∧ (∃ r, MapS.Collects (mapOf s'.sys a).outs (mapOf s'.sys a).ended r) ∧
      ∀ r, MapS.Collects (mapOf s'.sys a).outs (mapOf s'.sys a).ended r → ∃ vs, r = .ok vs ∧ List.Forall₂ (M a).Gives xs vs) ∧
    ∃ N, ∀ (ls' : List (BLabel ε M F)) (s' : BSt ε M F), memBytesRun join dupErr ops k kt M F cfg (ls ++ ls') = some s' →
      (∀ l ∈ ls', l.moves (fun w => decide (w ∈ W)) (fun j => decide (j = .inl a)) (dirInternal fun j => decide (j = .inl a)) = true) → ls'.length ≤ N := by
  have hKe : (fun j : A ⊕ B => decide (j ∈ ({.inl a} : Finset (A ⊕ B)))) = fun j => decide (j = .inl a) := by funext j; simp
  obtain ⟨N, hN⟩ := C79_ends W {.inl a} ls s h
  rw [hKe] at hN
  have hN' : ∀ ls' s', run (dirs (fun a => (M a).run join k kt) (fun b => (F b).run join k kt) (fun b => (F b).empty) dupErr (fun a => encMap k kt (M a)) (fun a => decMap k (M a))
      (fun b => encFold k kt (F b)) (fun b => decFold k (F b))) dirListens cfg (execBytes join ops k) (textBytes k) s ls' = some s' →
      (∀ l ∈ ls', l.moves (fun w => decide (w ∈ W)) (fun j => decide (j = .inl a)) (dirInternal fun j => decide (j = .inl a)) = true) → ls'.length ≤ N := by
    intro ls' s' h' hl
    have := hN ls' s' h' fun l hm => .inl (hl l hm)
    rwa [List.filter_eq_self.2 hl] at this
  refine ⟨?_, N, fun ls' s' h' hl => ?_⟩
  · obtain ⟨ls', s', h1, h2, h3⟩ := run_to_rest hN'
    have hrun : memBytesRun join dupErr ops k kt M F cfg (ls ++ ls') = some s' := Lts.run_append.2 ⟨s, h, h1⟩
    have hint := internal_of_moves (a := a) h2
    have e : mapSteps (actions (ls ++ ls')) a = mapSteps (actions ls) a ++ mapSteps (actions ls') a := by
      rw [actions, List.filterMap_append]; exact System.Label.leads_append ..
    obtain ⟨w, hw⟩ := hW
    refine ⟨ls', s', h2, hrun, C79_sorted_completes a hreg (ls ++ ls') s' hrun (fun w => decide (w ∈ W)) ⟨w, by simpa using hw⟩ ?_ ?_ xs ?_ ?_ hsz hok henc hopenc h3⟩
    · intro l hl
      rcases List.mem_append.1 hl with hl | hl
      · exact hst l hl
      · exact steady_of_moves l (h2 l hl)
    · intro l hl
      rw [e] at hl
      rcases List.mem_append.1 hl with hl | hl
      · exact hrel l hl
      · have := hint l hl
        cases l <;> simp_all [MapS.Label.internal, MapS.Label.reliable]
    · rw [e, MapS.inputs_append, inputs_internal hint, List.append_nil]
      exact hin
    · rw [e]
      exact List.mem_append_left _ hend
  · obtain ⟨s1, g1, g2⟩ := Lts.run_append.1 h'
    cases h.symm.trans g1
    exact hN' ls' s' g2 hl
end

namespace BytesDemo
open System.BytesDemo

/-- A map of `[300, 7]` whose input has been read; no task has been executed. -/
def started : List BLab :=
  [.taskPoll 0, .resPoll (.inl ()), mapB (.item 0 (sz 300)), mapB (.send 0), mapB (.item 1 (sz 7)), mapB (.send 0), .taskRelease, .taskRelease, mapB .confirm, mapB .confirm, mapB .inputEnd]

theorem started_some : (goB started).isSome = true := by decide +kernel

def begun := (goB started).get started_some

/-- The hypotheses of `C79_sorted_reached` are met when nothing has been returned yet, and this is where it leads. -/
theorem C79_sorted_reached_example : (mapOf begun.sys ()).outs = [] ∧ (mapOf begun.sys ()).ended = false ∧
    ∃ (ls' : List BLab) (s' : BSt String M F), goB (started ++ ls') = some s' ∧ ∃ vs, MapS.Collects (mapOf s'.sys ()).outs (mapOf s'.sys ()).ended (.ok vs) ∧ List.Forall₂ (M ()).Gives [sz 300, sz 7] vs := by
  have e : mapSteps (actions started) () = [.item 0 (sz 300), .send 0, .item 1 (sz 7), .send 0, .confirm, .confirm, .inputEnd] := rfl
  have hb : goB started = some begun := by simp [begun]
  refine ⟨by decide +kernel, by decide +kernel, ?_⟩
  obtain ⟨⟨ls', s', _, h2, ⟨r, h3⟩, h4⟩, _⟩ := C79_sorted_reached () registered_map started begun hb {0} ⟨0, by simp⟩ (by decide +kernel) (by decide +kernel) [sz 300, sz 7]
    (by rw [e]; exact List.Perm.refl _) (by rw [e]; simp) (by decide) (fun x _ _ => ⟨_, (usz_enc _).choose, rfl, (usz_enc _).choose_spec⟩) (fun x _ => usz_enc x) (usz_enc _)
  obtain ⟨vs, rfl, h5⟩ := h4 r h3
  exact ⟨ls', s', h2, vs, h3, h5⟩

end BytesDemo
end SystemMem
end Paladin
