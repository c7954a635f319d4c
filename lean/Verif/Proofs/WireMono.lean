import Verif.Proofs.Wire
/-! # Decoders do not look beyond what they consume -/
namespace Paladin
namespace Wire

/-- A decoder that succeeds gives the same value when more bytes follow. -/
def Mono (f : Buf → Option (α × Buf)) : Prop := ∀ bs v r x, f bs = some (v, r) → f (bs ++ x) = some (v, r ++ x)

theorem Mono.bind {f : Buf → Option (α × Buf)} {g : α → Buf → Option (β × Buf)} (hf : Mono f) (hg : ∀ a, Mono (g a)) :
    Mono fun bs => (f bs).bind fun p => g p.1 p.2 := by
  intro bs v r x h
  cases hp : f bs with
  | none => simp [hp] at h
  | some p =>
    obtain ⟨a, bs'⟩ := p
    simp only [hp, Option.bind] at h
    simp only [hf bs a bs' x hp, Option.bind]
    exact hg a _ _ _ _ h

theorem Mono.bind' {f : Buf → Option (α × Buf)} {g : α × Buf → Option (β × Buf)} (hf : Mono f) (hg : ∀ a, Mono fun bs => g (a, bs)) :
    Mono fun bs => f bs >>= g := Mono.bind (g := fun a bs => g (a, bs)) hf hg

theorem Mono.map {f : Buf → Option (α × Buf)} (hf : Mono f) (g : α → β) : Mono fun bs => (f bs).map fun p => (g p.1, p.2) := by
  intro bs v r x h
  cases hp : f bs with
  | none => simp [hp] at h
  | some p =>
    obtain ⟨a, bs'⟩ := p
    simp only [hp, Option.map, Option.some.injEq, Prod.mk.injEq] at h
    simp only [hf bs a bs' x hp, Option.map, h.1, ← h.2]

theorem Mono.pure (a : α) : Mono fun bs => some (a, bs) := by
  intro bs v r x h
  simp only [Option.some.injEq, Prod.mk.injEq] at h ⊢
  exact ⟨h.1, by rw [h.2]⟩

theorem Mono.none : Mono (fun _ => (Option.none : Option (α × Buf))) := by intro bs v r x h; simp at h

theorem Mono.ite {c : Prop} {inst : Buf → Decidable c} {f g : Buf → Option (α × Buf)} (hf : Mono f) (hg : Mono g) :
    Mono fun bs => @ite _ c (inst bs) (f bs) (g bs) := by
  intro bs v r x h
  by_cases hc : c
  · simp only [if_pos hc] at h ⊢; exact hf _ _ _ _ h
  · simp only [if_neg hc] at h ⊢; exact hg _ _ _ _ h

theorem Mono.optBind {f : α → Option β} (a : α) : Mono fun bs => (f a).bind fun b => some (b, bs) := by
  intro bs v r x h
  cases hb : f a with
  | none => simp [hb] at h
  | some b => simp [hb] at h ⊢; exact ⟨h.1, by rw [h.2]⟩

theorem mono_pop : Mono pop := by
  intro bs v r x h
  cases bs with
  | nil => simp [pop] at h
  | cons b bs => simp [pop] at h ⊢; exact ⟨h.1, by rw [h.2]⟩

theorem mono_takeN (n : Nat) : Mono (takeN n) := by
  intro bs v r x h
  unfold takeN at h ⊢
  by_cases hn : n ≤ bs.length
  · rw [if_pos hn] at h
    rw [if_pos (by simp; omega), List.take_append_of_le_length hn, List.drop_append_of_le_length hn]
    simp only [Option.some.injEq, Prod.mk.injEq] at h ⊢
    exact ⟨h.1, by rw [h.2]⟩
  · rw [if_neg hn] at h; simp at h

theorem Mono.dite {c : Prop} {inst : Buf → Decidable c} {f : c → Buf → Option (α × Buf)} (hf : ∀ h, Mono (f h)) :
    Mono fun bs => @_root_.dite _ c (inst bs) (fun h => f h bs) (fun _ => Option.none) := by
  intro bs v r x h
  by_cases hc : c
  · simp only [dif_pos hc] at h ⊢; exact hf hc _ _ _ _ h
  · simp [dif_neg hc] at h

theorem Mono.opt {o : Option β} {g : β → Buf → Option (γ × Buf)} (hg : ∀ b, Mono (g b)) : Mono fun bs => o >>= fun b => g b bs := by
  cases o with
  | none => exact Mono.none
  | some b => exact hg b

/-- Apply the rules above as far as they go. -/
macro "mono_tac" : tactic => `(tactic| repeat' (first
  | assumption | exact Mono.none | exact Mono.pure _ | exact mono_pop | exact mono_takeN _
  | (refine Mono.bind' ?_ fun _ => ?_ <;> try dsimp only) | (refine Mono.opt fun _ => ?_) | (refine Mono.ite ?_ ?_) | (refine Mono.dite fun _ => ?_) | (refine Mono.map ?_ _)))

theorem mono_many {f : Buf → Option (α × Buf)} (hf : Mono f) : ∀ n, Mono (many f n)
  | 0 => Mono.pure _
  | n + 1 => by
    have := mono_many hf n
    simp only [many]
    mono_tac

theorem mono_both {f : Buf → Option (α × Buf)} {g : Buf → Option (β × Buf)} (hf : Mono f) (hg : Mono g) : Mono (both f g) := by
  unfold both; mono_tac

namespace Postcard

theorem mono_decVarLoop (w : Nat) : ∀ k sh acc, Mono (decVarLoop w k sh acc)
  | 0, _, _ => Mono.none
  | k + 1, sh, acc => by
    have : decVarLoop w (k + 1) sh acc = fun bs => pop bs >>= fun p =>
        if p.1 < 128 then (if acc + p.1 % 128 * sh < 2 ^ w then some (acc + p.1 % 128 * sh, p.2) else none)
          else decVarLoop w k (sh * 128) (acc + p.1 % 128 * sh) p.2 := by
      funext bs
      rw [decVarLoop]
      cases pop bs <;> rfl
    rw [this]
    have h2 := fun sh acc => mono_decVarLoop w k sh acc
    refine Mono.bind' mono_pop fun b => ?_
    dsimp only
    refine Mono.ite ?_ (h2 _ _)
    mono_tac

theorem mono_decVar (w : Nat) : Mono (decVar w) := mono_decVarLoop w _ _ _

theorem mono_decUint (w : Nat) : Mono (decUint w) := by
  have := mono_decVar w
  unfold decUint
  by_cases h : w = 8
  · simp only [if_pos h]; mono_tac
  · simp only [if_neg h]; mono_tac

theorem mono_decSint (w : Nat) : Mono (decSint w) := by
  have := mono_decVar w
  unfold decSint
  by_cases h : w = 8
  · simp only [if_pos h]
    refine Mono.bind' (mono_pop.map fun n => if n < 128 then (n : Int) else n - 256) fun n => ?_
    dsimp only
    exact Mono.dite fun h => Mono.pure _
  · simp only [if_neg h]
    refine Mono.bind' (this.map _) fun n => ?_
    dsimp only
    exact Mono.dite fun h => Mono.pure _

theorem mono_decLe : ∀ k, Mono (decLe k)
  | 0 => Mono.pure _
  | k + 1 => by
    have := mono_decLe k
    simp only [decLe]
    mono_tac

theorem mono_decF32 : Mono decF32 := by
  have := mono_decLe 4
  unfold decF32; mono_tac

theorem mono_decF64 : Mono decF64 := by
  have := mono_decLe 8
  unfold decF64; mono_tac

theorem mono_decBytes : Mono decBytes := by
  have := mono_decVar 64
  unfold decBytes; mono_tac

theorem mono_decStr : Mono decStr := by
  have := mono_decVar 64
  unfold decStr; mono_tac

theorem mono_decChar : Mono decChar := by
  have := mono_decVar 64
  unfold decChar; mono_tac

mutual
theorem mono : (t : Ty) → Mono (dec t)
  | .unit => Mono.pure _
  | .bool => by
    simp only [dec]
    mono_tac
  | .uint w => mono_decUint w
  | .sint w => mono_decSint w
  | .f32 => mono_decF32
  | .f64 => mono_decF64
  | .char => mono_decChar
  | .str => mono_decStr
  | .bytes => mono_decBytes
  | .opt t => by
    have := mono t
    simp only [dec]
    refine Mono.bind' mono_pop fun b => ?_
    dsimp only
    exact Mono.ite (Mono.pure _) (Mono.ite (this.map some) Mono.none)
  | .seq t => by
    have h1 := fun n => mono_many (mono t) n
    have h2 := mono_decVar 64
    simp only [dec]
    refine Mono.bind' h2 fun n => ?_
    have := h1 n
    dsimp only
    mono_tac
  | .map k v => by
    have h1 := fun n => mono_many (mono_both (mono k) (mono v)) n
    have h2 := mono_decVar 64
    simp only [dec]
    refine Mono.bind' h2 fun n => ?_
    have := h1 n
    dsimp only
    mono_tac
  | .tuple fs => monoF fs
  | .struct fs => monoF fs
  | .enum vs => by
    simp only [dec]
    exact Mono.bind' (mono_decVar 32) fun i => monoV vs i
theorem monoF : (fs : Fields) → Mono (decF fs)
  | .nil => Mono.pure _
  | .cons _ t fs => by
    have h1 := mono t
    have h2 := monoF fs
    simp only [decF]
    mono_tac
theorem monoV : (vs : Variants) → ∀ i, Mono (decV vs i)
  | .nil, _ => Mono.none
  | .unit _ vs, i => by
    have := monoV vs (i - 1)
    simp only [decV]
    exact Mono.ite (Mono.pure _) (this.map _)
  | .payload _ t vs, i => by
    have h1 := monoV vs (i - 1)
    have h2 := mono t
    simp only [decV]
    exact Mono.ite (h2.map _) (h1.map _)
end

end Postcard

namespace Cbor

theorem mono_decBe : ∀ k acc, Mono (decBe k acc)
  | 0, _ => Mono.pure _
  | k + 1, acc => by
    have : decBe (k + 1) acc = fun bs => pop bs >>= fun p => decBe k (acc * 256 + p.1) p.2 := by
      funext bs; rw [decBe]; cases pop bs <;> rfl
    rw [this]
    refine Mono.bind' mono_pop fun b => ?_
    exact mono_decBe k (acc * 256 + b)

theorem mono_decHead : Mono decHead := by
  have h1 := mono_decBe 1 0
  have h2 := mono_decBe 2 0
  have h4 := mono_decBe 4 0
  have h8 := mono_decBe 8 0
  unfold decHead
  refine Mono.bind' mono_pop fun b => ?_
  simp only
  mono_tac

theorem mono_takeStr (n : Nat) : Mono (takeStr n) := by
  unfold takeStr; mono_tac

/-- After a header. -/
theorem mono_head {g : Header × Buf → Option (α × Buf)} (hg : ∀ h, Mono fun bs => g (h, bs)) : Mono fun bs => decHead bs >>= g := Mono.bind' mono_decHead hg

theorem mono_decText : Mono decText := by
  unfold decText
  exact mono_head fun h => by cases h <;> first | exact mono_takeStr _ | exact Mono.none

theorem mono_decIdent : Mono decIdent := by
  unfold decIdent
  exact mono_head fun h => by cases h <;> first | exact Mono.none | exact Mono.ite (mono_takeStr _) Mono.none

theorem mono_decBytes : Mono decBytes := by
  unfold decBytes
  refine mono_head fun h => ?_
  cases h <;> first | exact Mono.none | skip
  simp only
  mono_tac

theorem mono_decChar : Mono decChar := by
  unfold decChar
  refine mono_head fun h => ?_
  cases h <;> first | exact Mono.none | skip
  simp only
  refine Mono.ite (Mono.bind' (mono_takeStr _) fun s => ?_) Mono.none
  dsimp only
  split <;> first | exact Mono.pure _ | exact Mono.none

theorem mono_decBig : Mono decBig := by
  unfold decBig
  refine mono_head fun h => ?_
  cases h <;> first | exact Mono.none | skip
  simp only
  mono_tac

theorem mono_decInt : Mono decInt := by
  unfold decInt
  refine mono_head fun h => ?_
  cases h <;> first | exact Mono.none | exact Mono.pure _ | skip
  simp only
  exact Mono.ite (mono_decBig.map fun n => (false, n)) (Mono.ite (mono_decBig.map fun n => (true, n)) Mono.none)

theorem mono_decUint (w : Nat) : Mono (decUint w) := by
  have := mono_decInt
  unfold decUint
  mono_tac

theorem mono_decSint (w : Nat) : Mono (decSint w) := by
  have := mono_decInt
  unfold decSint
  refine Mono.bind' this fun p => ?_
  exact Mono.dite fun h => Mono.pure _

theorem mono_decF64 : Mono decF64 := by
  unfold decF64
  refine mono_head fun h => ?_
  cases h <;> first | exact Mono.none | skip
  exact Mono.dite fun h => Mono.pure _

theorem mono_decF32 : Mono decF32 := by
  unfold decF32
  refine mono_head fun h => ?_
  cases h <;> first | exact Mono.none | skip
  exact Mono.dite fun h => Mono.pure _

theorem mono_entries {σ : Type} {f : Buf → σ → Option (σ × Buf)} (hf : ∀ p, Mono fun bs => f bs p) : ∀ n p, Mono fun bs => entries f n p bs
  | 0, _ => Mono.pure _
  | n + 1, p => by
    simp only [entries]
    exact Mono.bind' (hf p) fun q => mono_entries hf n q

mutual
theorem mono : (t : Ty) → ∀ d, Mono (dec t d)
  | .unit, _ => by
    simp only [dec]
    refine mono_head fun h => ?_
    cases h <;> first | exact Mono.none | skip
    rename_i n
    by_cases h1 : n = 22
    · subst h1; exact Mono.pure _
    · by_cases h2 : n = 23
      · subst h2; exact Mono.pure _
      · have : (fun bs => match ((Header.simple n, bs) : Header × Buf) with
          | (.simple 22, bs) => some ((), bs)
          | (.simple 23, bs) => some ((), bs)
          | _ => none) = fun _ => none := by
          funext bs; split <;> simp_all
        exact Eq.mpr (congrArg Mono this) Mono.none
  | .bool, _ => by
    simp only [dec]
    refine mono_head fun h => ?_
    cases h <;> first | exact Mono.none | skip
    rename_i n
    by_cases h1 : n = 20
    · subst h1; exact Mono.pure _
    · by_cases h2 : n = 21
      · subst h2; exact Mono.pure _
      · have : (fun bs => match ((Header.simple n, bs) : Header × Buf) with
          | (.simple 20, bs) => some (false, bs)
          | (.simple 21, bs) => some (true, bs)
          | _ => none) = fun _ => none := by
          funext bs; split <;> simp_all
        exact Eq.mpr (congrArg Mono this) Mono.none
  | .uint w, _ => mono_decUint w
  | .sint w, _ => mono_decSint w
  | .f32, _ => mono_decF32
  | .f64, _ => mono_decF64
  | .char, _ => mono_decChar
  | .str, _ => by
    have := mono_decText
    simp only [dec]
    mono_tac
  | .bytes, _ => mono_decBytes
  | .opt t, d => by
    have ht := mono t d
    intro bs v r x h
    simp only [dec, bind] at h ⊢
    cases hp : decHead bs with
    | none => simp [hp] at h
    | some p =>
      obtain ⟨hd, bs'⟩ := p
      rw [hp] at h
      rw [mono_decHead bs hd bs' x hp]
      by_cases h1 : hd = .simple 22 ∨ hd = .simple 23
      · rcases h1 with rfl | rfl
        · exact Mono.pure none _ _ _ _ h
        · exact Mono.pure none _ _ _ _ h
      · have e : ∀ (b b' : Buf), (match ((hd, b') : Header × Buf) with
          | (.simple 22, bs) => some ((none : Option t.den), bs)
          | (.simple 23, bs) => some ((none : Option t.den), bs)
          | _ => (dec t d b).map fun p => (some p.1, p.2)) = (dec t d b).map fun p => (some p.1, p.2) := by
          intro b b'; split <;> simp_all
        have h' := (e bs bs').symm.trans h
        exact (e (bs ++ x) (bs' ++ x)).trans (ht.map some _ _ _ _ h')
  | .seq t, d => by
    have h1 := fun n => mono_many (mono t (d - 1)) n
    simp only [dec]
    refine Mono.ite Mono.none ?_
    refine mono_head fun h => ?_
    cases h <;> first | exact Mono.none | skip
    refine Mono.bind' (h1 _) fun l => ?_
    dsimp only
    exact Mono.opt fun _ => Mono.pure _
  | .map k v, d => by
    have h1 := fun n => mono_many (mono_both (mono k (d - 1)) (mono v (d - 1))) n
    simp only [dec]
    refine Mono.ite Mono.none ?_
    refine mono_head fun h => ?_
    cases h <;> first | exact Mono.none | skip
    refine Mono.bind' (h1 _) fun l => ?_
    dsimp only
    exact Mono.opt fun _ => Mono.pure _
  | .tuple fs, d => by
    have h1 := monoT fs (d - 1)
    simp only [dec]
    refine Mono.ite Mono.none ?_
    refine mono_head fun h => ?_
    cases h <;> first | exact Mono.none | skip
    exact Mono.ite h1 Mono.none
  | .struct fs, d => by
    have h1 := fun name p => monoS fs (d - 1) name p
    simp only [dec]
    refine Mono.ite Mono.none ?_
    refine mono_head fun h => ?_
    cases h <;> first | exact Mono.none | skip
    refine Mono.bind' (mono_entries (fun p => Mono.bind' mono_decIdent fun name => h1 name p) _ _) fun p => ?_
    dsimp only
    exact Mono.opt fun _ => Mono.pure _
  | .enum vs, d => by
    have h1 : Mono fun bs => decIdent bs >>= fun p => decV vs (d - 1) p.1 p.2 := Mono.bind' mono_decIdent fun name => monoV vs (d - 1) name
    simp only [dec]
    refine Mono.ite Mono.none ?_
    intro bs v r x h
    simp only [bind] at h ⊢
    cases hp : decHead bs with
    | none => simp [hp] at h
    | some p =>
      obtain ⟨hd, bs'⟩ := p
      rw [hp] at h
      rw [mono_decHead bs hd bs' x hp]
      cases hd with
      | text n => exact h1 _ _ _ _ h
      | map n =>
        by_cases hn : n = 1
        · subst hn; exact h1 _ _ _ _ h
        · simp only [Option.bind] at h
          split at h <;> simp_all
      | _ => simp [Option.bind] at h
theorem monoT : (fs : Fields) → ∀ d, Mono (decT fs d)
  | .nil, _ => Mono.pure _
  | .cons _ t fs, d => by
    have h1 := mono t d
    have h2 := monoT fs d
    simp only [decT]
    mono_tac
theorem monoS : (fs : Fields) → ∀ d name p, Mono (decS fs d name p)
  | .nil, _, _, _ => Mono.none
  | .cons n t fs, d, name, p => by
    have h1 := mono t d
    have h2 := monoS fs d name p.2
    simp only [decS]
    refine Mono.ite ?_ (h2.map fun q => (p.1, q))
    cases p.1 with
    | some _ => exact Mono.none
    | none => exact h1.map fun q => (some q, p.2)
theorem monoV : (vs : Variants) → ∀ d name, Mono (decV vs d name)
  | .nil, _, _ => Mono.none
  | .unit _ vs, d, name => by
    have := monoV vs d name
    simp only [decV]
    exact Mono.ite (Mono.pure _) (this.map _)
  | .payload _ t vs, d, name => by
    have h1 := monoV vs d name
    have h2 := mono t d
    simp only [decV]
    exact Mono.ite (h2.map _) (h1.map _)
end

end Cbor
end Wire
end Paladin
