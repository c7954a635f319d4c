import Verif.Spec.Wire
/-! # Round trips of the wire formats -/
namespace Paladin
namespace Wire

theorem byte_toNat (n : Nat) : (byte n).toNat = n % 256 := by simp [byte]

theorem pop_byte (n : Nat) (r : Buf) : pop (byte n :: r) = some (n % 256, r) := by simp [pop, byte_toNat]

theorem takeN_append (l r : Buf) : takeN l.length (l ++ r) = some (l, r) := by simp [takeN]

theorem ofUtf8_utf8 (s : String) : ofUtf8 (utf8 s) = some s := by
  have h : (ByteArray.mk (utf8 s).toArray) = s.toByteArray := by simp [utf8]
  unfold ofUtf8
  rw [dif_pos (by rw [h]; exact s.isValidUTF8)]
  exact congrArg some (String.toByteArray_inj.1 h)

theorem utf8_length (s : String) : (utf8 s).length = s.utf8ByteSize := by
  show s.toByteArray.data.toList.length = s.toByteArray.data.size
  exact Array.length_toList

theorem many_map {f : Buf → Option (α × Buf)} {g : α → Buf} (l : List α) (h : ∀ a ∈ l, ∀ r, f (g a ++ r) = some (a, r)) (rest : Buf) :
    many f l.length ((l.map g).flatten ++ rest) = some (l, rest) := by
  induction l with
  | nil => rfl
  | cons a l ih =>
    simp only [List.length_cons, many, List.map_cons, List.flatten_cons, List.append_assoc]
    rw [h a (by simp)]
    simp only [bind, Option.bind]
    rw [ih (fun a ha => h a (by simp [ha]))]

theorem both_append {f : Buf → Option (α × Buf)} {g : Buf → Option (β × Buf)} {a : α} {b : β} {x y : Buf} (hf : ∀ r, f (x ++ r) = some (a, r)) (hg : ∀ r, g (y ++ r) = some (b, r))
    (rest : Buf) : both f g (x ++ y ++ rest) = some ((a, b), rest) := by
  simp only [both, List.append_assoc, hf, hg, bind, Option.bind]

theorem char_length (c : Char) : (utf8 (String.singleton c)).length ≤ 4 := by
  rw [utf8_length]
  have h1 := Char.utf8Size_le_four c
  have h2 : (String.singleton c).utf8ByteSize = c.utf8Size := by simp
  omega

theorem char_toList (c : Char) : (String.singleton c).toList = [c] := by simp

theorem bounded_val {l : List α} (h : l.length < 2 ^ 64) : bounded l = some ⟨l, h⟩ := by simp only [bounded, dif_pos h]

/-! ## Floats -/

theorem roundEven_mul (a sh : Nat) : roundEven (a * 2 ^ sh) sh = a := by
  have hp : 0 < 2 ^ sh := Nat.two_pow_pos sh
  unfold roundEven
  simp only [Nat.mul_div_cancel _ hp, Nat.mul_mod_left, Nat.mul_zero]
  rw [if_neg (by omega)]

theorem quiet_lt {m k : Nat} (hm : 0 < m) (hk : k < 2 ^ m) : quiet m k < 2 ^ m := by
  obtain ⟨m, rfl⟩ : ∃ n, m = n + 1 := ⟨m - 1, by omega⟩
  rw [Nat.pow_succ] at *
  unfold quiet
  simp only [Nat.add_sub_cancel]
  split <;> omega

theorem quiet_ge (m k : Nat) : 2 ^ (m - 1) ≤ quiet m k := by
  unfold quiet; split <;> omega

/-- What a narrow float is made of. -/
theorem narrow_parts (e m b : Nat) (hm : 0 < m) (hm2 : m ≤ 52) (hb : b < 2 ^ 64) : ∃ s r, s ≤ 1 ∧ narrow e m b = s * 2 ^ (e + m) + r ∧
    (r ≤ (2 ^ e - 1) * 2 ^ m ∨ ∃ k, r = (2 ^ e - 1) * 2 ^ m + k ∧ 2 ^ (m - 1) ≤ k ∧ k < 2 ^ m) := by
  refine ⟨b / 2 ^ 63, narrow e m b - b / 2 ^ 63 * 2 ^ (e + m), by omega, ?_, ?_⟩
  · have : b / 2 ^ 63 * 2 ^ (e + m) ≤ narrow e m b := by
      unfold narrow
      dsimp only
      split
      · rw [Nat.add_assoc]; exact Nat.le_add_right _ _
      · exact Nat.le_add_right _ _
    omega
  · unfold narrow
    dsimp only
    split
    · rw [Nat.add_assoc, Nat.add_sub_cancel_left]
      split
      · left; omega
      · right
        refine ⟨_, rfl, quiet_ge _ _, quiet_lt hm ?_⟩
        rw [Nat.div_lt_iff_lt_mul (Nat.two_pow_pos _), ← Nat.pow_add, show m + (52 - m) = 52 by omega]
        exact Nat.mod_lt _ (by decide)
    · rw [Nat.add_sub_cancel_left]
      left
      exact Nat.min_le_left _ _

theorem narrow_lt (e m b : Nat) (hm : 0 < m) (hm2 : m ≤ 52) (hb : b < 2 ^ 64) : narrow e m b < 2 ^ (e + m + 1) := by
  obtain ⟨s, r, hs, he, hr⟩ := narrow_parts e m b hm hm2 hb
  have h1 : r < 2 ^ (e + m) := by
    rw [Nat.pow_add]
    have he1 : 2 ^ e * 2 ^ m = (2 ^ e - 1) * 2 ^ m + 2 ^ m := by
      have := Nat.two_pow_pos e
      rw [Nat.sub_mul, Nat.one_mul]
      have : 2 ^ m ≤ 2 ^ e * 2 ^ m := Nat.le_mul_of_pos_left _ (Nat.two_pow_pos e)
      omega
    have := Nat.two_pow_pos m
    rcases hr with hr | ⟨k, rfl, -, hk⟩ <;> omega
  rw [he, Nat.pow_succ]
  have : s * 2 ^ (e + m) ≤ 1 * 2 ^ (e + m) := Nat.mul_le_mul_right _ hs
  omega

/-- Reading the fields of a bit pattern. -/
theorem fields64 (s x k : Nat) (hx : x < 2048) (hk : k < 2 ^ 52) :
    (s * 2 ^ 63 + x * 2 ^ 52 + k) / 2 ^ 63 = s ∧ (s * 2 ^ 63 + x * 2 ^ 52 + k) / 2 ^ 52 % 2 ^ 11 = x ∧ (s * 2 ^ 63 + x * 2 ^ 52 + k) % 2 ^ 52 = k := by
  omega

theorem log2_lt_of {k n : Nat} (hk : k ≠ 0) (h : k < 2 ^ n) : k.log2 < n := (Nat.log2_lt hk).2 h

/-- The fields of the `f64` that an `f32` is converted to. -/
theorem widen_f32 (b : Nat) (hb : b < 2 ^ 32) : ∃ x k, x < 2048 ∧ k < 2 ^ 52 ∧ widen 8 23 b = b / 2 ^ 31 * 2 ^ 63 + x * 2 ^ 52 + k ∧ (¬ signalling 8 23 b →
    narrow 8 23 (b / 2 ^ 31 * 2 ^ 63 + x * 2 ^ 52 + k) = b) := by
  have hs : b = b / 2 ^ 31 * 2 ^ 31 + b / 2 ^ 23 % 2 ^ 8 * 2 ^ 23 + b % 2 ^ 23 := by omega
  have hx8 : b / 2 ^ 23 % 2 ^ 8 < 2 ^ 8 := Nat.mod_lt _ (by decide)
  have hk23 : b % 2 ^ 23 < 2 ^ 23 := Nat.mod_lt _ (by decide)
  unfold widen signalling
  simp only [show 8 + 23 = 31 from rfl, show 23 - 1 = 22 from rfl, show 52 - 23 = 29 from rfl, show 8 - 1 = 7 from rfl]
  generalize b / 2 ^ 31 = s at *
  generalize b / 2 ^ 23 % 2 ^ 8 = x at *
  generalize b % 2 ^ 23 = k at *
  by_cases h1 : x = 2 ^ 8 - 1
  · subst h1
    have hq : (if k = 0 then 0 else quiet 23 k * 2 ^ 29) < 2 ^ 52 := by
      split
      · decide
      · have := quiet_lt (m := 23) (by decide) hk23
        omega
    refine ⟨2047, _, by decide, hq, by rw [if_pos rfl], fun hns => ?_⟩
    obtain ⟨f1, f2, f3⟩ := fields64 s 2047 _ (by decide) hq
    unfold narrow
    simp only [f1, f2, f3, if_true]
    simp only [true_and] at hns
    rw [hs]
    by_cases h0 : k = 0
    · simp [h0]
    · have hq2 : quiet 23 k = k := by unfold quiet; rw [if_neg (by simp only [show 23 - 1 = 22 from rfl]; omega)]
      rw [if_neg h0, if_neg (by rw [hq2]; omega), hq2, Nat.mul_div_cancel _ (by decide), hq2]
  · rw [if_neg h1]
    by_cases h2 : x = 0
    · subst h2
      simp only [if_true]
      by_cases h0 : k = 0
      · subst h0
        refine ⟨0, 0, by decide, by decide, by simp, fun _ => ?_⟩
        obtain ⟨f1, f2, f3⟩ := fields64 s 0 0 (by decide) (by decide)
        unfold narrow
        simp only [f1, f2, f3]
        have : roundEven 0 (52 - 23 + (1024 - (max 0 1 + 2 ^ (8 - 1) - 1))) = 0 := by
          have := roundEven_mul 0 (52 - 23 + (1024 - (max 0 1 + 2 ^ (8 - 1) - 1)))
          rwa [Nat.zero_mul] at this
        simp only [if_true, this]
        rw [hs]
        simp
      · rw [if_neg h0]
        have hl := log2_lt_of h0 hk23
        have hlo : 2 ^ k.log2 ≤ k := Nat.log2_self_le h0
        have hhi : k < 2 ^ (k.log2 + 1) := Nat.lt_log2_self
        have hpow : 2 ^ k.log2 * 2 ^ (52 - k.log2) = 2 ^ 52 := by rw [← Nat.pow_add]; congr 1; omega
        have hm : (k - 2 ^ k.log2) * 2 ^ (52 - k.log2) < 2 ^ 52 := by
          rw [← hpow]
          refine Nat.mul_lt_mul_of_pos_right ?_ (Nat.two_pow_pos _)
          rw [Nat.pow_succ] at hhi; omega
        have hsig : 2 ^ 52 + (k - 2 ^ k.log2) * 2 ^ (52 - k.log2) = k * 2 ^ (52 - k.log2) := by
          rw [← hpow, ← Nat.add_mul]; congr 1; omega
        refine ⟨k.log2 + 1025 - 2 ^ 7 - 23, _, by omega, hm, rfl, fun _ => ?_⟩
        obtain ⟨f1, f2, f3⟩ := fields64 s (k.log2 + 1025 - 2 ^ 7 - 23) _ (by omega) hm
        unfold narrow
        simp only [f1, f2, f3]
        rw [if_neg (by omega), if_neg (by omega), if_neg (by omega), hsig]
        have e : 52 - 23 + (1024 - (max (k.log2 + 1025 - 2 ^ 7 - 23) 1 + 2 ^ (8 - 1) - 1)) = 52 - k.log2 := by omega
        rw [e, roundEven_mul, Nat.min_eq_right (by omega), hs]
        simp
    · rw [if_neg h2]
      have hm : k * 2 ^ 29 < 2 ^ 52 := by omega
      refine ⟨x + 1024 - 2 ^ 7, _, by omega, hm, rfl, fun _ => ?_⟩
      obtain ⟨f1, f2, f3⟩ := fields64 s (x + 1024 - 2 ^ 7) _ (by omega) hm
      unfold narrow
      simp only [f1, f2, f3]
      have hsig : 2 ^ 52 + k * 2 ^ 29 = (2 ^ 23 + k) * 2 ^ (52 - 23) := by omega
      rw [if_neg (by omega), if_pos (by omega), if_neg (by omega), hsig, roundEven_mul, hs]
      omega

theorem narrow_widen (b : Nat) (hb : b < 2 ^ 32) (hs : ¬ signalling 8 23 b) : narrow 8 23 (widen 8 23 b) = b := by
  obtain ⟨x, k, -, -, h1, h2⟩ := widen_f32 b hb
  rw [h1, h2 hs]

theorem widen_lt (b : Nat) (hb : b < 2 ^ 32) : widen 8 23 b < 2 ^ 64 := by
  obtain ⟨x, k, h1, h2, h3, -⟩ := widen_f32 b hb
  rw [h3]; omega

namespace Postcard

theorem decLe_le (k n : Nat) (rest : Buf) : decLe k (le k n ++ rest) = some (n % 256 ^ k, rest) := by
  induction k generalizing n with
  | zero => simp [le, decLe, Nat.mod_one]
  | succ k ih =>
    simp only [le, decLe, List.cons_append, pop_byte, bind, Option.bind, ih]
    rw [Nat.pow_succ, Nat.mul_comm (256 ^ k) 256, Nat.mod_mul]

theorem decVarLoop_enc (w k : Nat) : ∀ (n sh acc : Nat) (rest : Buf), n < 128 ^ (k + 1) → acc + n * sh < 2 ^ w →
    decVarLoop w (k + 1) sh acc (encVar n ++ rest) = some (acc + n * sh, rest) := by
  induction k with
  | zero =>
    intro n sh acc rest hn hw
    have h : n < 128 := by simpa using hn
    unfold encVar
    rw [if_pos h]
    simp only [List.singleton_append, decVarLoop, pop_byte]
    have h1 : n % 256 = n := by omega
    rw [h1, if_pos h, Nat.mod_eq_of_lt h, if_pos hw]
  | succ k ih =>
    intro n sh acc rest hn hw
    unfold encVar
    by_cases h : n < 128
    · rw [if_pos h]
      simp only [List.singleton_append, decVarLoop, pop_byte]
      have h1 : n % 256 = n := by omega
      rw [h1, if_pos h, Nat.mod_eq_of_lt h, if_pos hw]
    · rw [if_neg h]
      unfold decVarLoop
      simp only [List.cons_append, pop_byte]
      have h1 : (n % 128 + 128) % 256 = n % 128 + 128 := by omega
      have h2 : (n % 128 + 128) % 128 = n % 128 := by omega
      rw [h1, if_neg (by omega), h2]
      have h3 : acc + n % 128 * sh + n / 128 * (sh * 128) = acc + n * sh := by
        have h4 : n * sh = (128 * (n / 128) + n % 128) * sh := by rw [Nat.div_add_mod]
        have h5 : n / 128 * (sh * 128) = 128 * (n / 128) * sh := by
          rw [Nat.mul_comm sh 128, ← Nat.mul_assoc, Nat.mul_comm (n / 128) 128]
        rw [h4, Nat.add_mul]
        omega
      rw [ih (n / 128) (sh * 128) (acc + n % 128 * sh) rest (by rw [Nat.pow_succ] at hn; omega) (by rw [h3]; exact hw), h3]

theorem decVar_enc (w : Nat) (hw : 0 < w) (n : Nat) (hn : n < 2 ^ w) (rest : Buf) : decVar w (encVar n ++ rest) = some (n, rest) := by
  unfold decVar
  obtain ⟨k, hk⟩ : ∃ k, varMax w = k + 1 := ⟨varMax w - 1, by unfold varMax; omega⟩
  rw [hk, decVarLoop_enc w k n 1 0 rest ?_ (by simpa using hn)]
  · simp
  · have : (128 : Nat) ^ (k + 1) = 2 ^ (7 * (k + 1)) := by rw [Nat.pow_mul]
    rw [this]
    exact Nat.lt_of_lt_of_le hn (Nat.pow_le_pow_right (by decide) (by unfold varMax at hk; omega))

theorem unzigzag_zigzag (z : Int) : unzigzag (zigzag z) = z := by
  unfold zigzag unzigzag
  split <;> split <;> omega

theorem zigzag_lt (w : Nat) (z : Int) (h : -(2 ^ w : Nat) ≤ 2 * z ∧ 2 * z < (2 ^ w : Nat)) : zigzag z < 2 ^ w := by
  unfold zigzag; split <;> omega

theorem decUint_enc (w : Nat) (hw : w = 8 ∨ w = 16 ∨ w = 32 ∨ w = 64 ∨ w = 128) (n : { n : Nat // n < 2 ^ w }) (rest : Buf) :
    decUint w (encUint w n.1 ++ rest) = some (n, rest) := by
  unfold decUint encUint
  by_cases h8 : w = 8
  · subst h8
    have := n.2
    simp only [if_true, List.singleton_append, pop_byte, bind, Option.bind]
    rw [dif_pos (by omega)]
    congr 2
    exact Subtype.ext (by simp only; omega)
  · simp only [if_neg h8, decVar_enc w (by omega) n.1 n.2 rest, bind, Option.bind]
    rw [dif_pos n.2]

theorem decSint_enc (w : Nat) (hw : w = 8 ∨ w = 16 ∨ w = 32 ∨ w = 64 ∨ w = 128) (z : { z : Int // -(2 ^ w : Nat) ≤ 2 * z ∧ 2 * z < (2 ^ w : Nat) }) (rest : Buf) :
    decSint w (encSint w z.1 ++ rest) = some (z, rest) := by
  unfold decSint encSint
  obtain ⟨z, hz⟩ := z
  by_cases h8 : w = 8
  · subst h8
    simp only [if_true, List.singleton_append, pop_byte, bind, Option.bind, Option.map]
    have h1 : (if (z % 256).toNat % 256 < 128 then (((z % 256).toNat % 256 : Nat) : Int) else (((z % 256).toNat % 256 : Nat) : Int) - 256) = z := by
      split <;> omega
    simp only [h1]
    rw [dif_pos hz]
  · simp only [if_neg h8, decVar_enc w (by omega) _ (zigzag_lt w z hz) rest, bind, Option.bind, Option.map, unzigzag_zigzag]
    rw [dif_pos hz]

theorem decBytes_enc (l : Bytes) (rest : Buf) : decBytes (encBytes l.1 ++ rest) = some (l, rest) := by
  unfold decBytes encBytes
  rw [List.append_assoc]
  simp only [decVar_enc 64 (by omega) _ l.2, bind, Option.bind, takeN_append, bounded_val l.2]
  rfl

theorem decStr_enc (s : Str) (rest : Buf) : decStr (encBytes (utf8 s.1) ++ rest) = some (s, rest) := by
  unfold decStr encBytes
  rw [List.append_assoc]
  have hl : (utf8 s.1).length < 2 ^ 64 := by rw [utf8_length]; exact s.2
  simp only [decVar_enc 64 (by omega) _ hl, bind, Option.bind, takeN_append, ofUtf8_utf8]
  rw [dif_pos s.2]
  rfl

theorem decChar_enc (c : Char) (rest : Buf) : decChar (encBytes (utf8 (String.singleton c)) ++ rest) = some (c, rest) := by
  unfold decChar encBytes
  rw [List.append_assoc]
  have hl := char_length c
  simp only [decVar_enc 64 (by omega) _ (show (utf8 (String.singleton c)).length < 2 ^ 64 by omega), bind, Option.bind, if_pos hl, takeN_append, ofUtf8_utf8, char_toList, List.head?]

theorem decF32_enc (v : { b : Nat // b < 2 ^ 32 ∧ ¬ signalling 8 23 b }) (rest : Buf) : decF32 (le 4 v.1 ++ rest) = some (v, rest) := by
  unfold decF32
  rw [decLe_le]
  simp only [bind, Option.bind]
  have : v.1 % 256 ^ 4 = v.1 := Nat.mod_eq_of_lt v.2.1
  simp only [this]
  rw [dif_pos v.2]

theorem decF64_enc (v : { b : Nat // b < 2 ^ 64 }) (rest : Buf) : decF64 (le 8 v.1 ++ rest) = some (v, rest) := by
  unfold decF64
  rw [decLe_le]
  simp only [bind, Option.bind]
  have : v.1 % 256 ^ 8 = v.1 := Nat.mod_eq_of_lt v.2
  simp only [this]
  rw [dif_pos v.2]

mutual
theorem rt : (t : Ty) → t.WF → ∀ (v : t.den) (rest : Buf), dec t (enc t v ++ rest) = some (v, rest)
  | .unit, _, _, _ => rfl
  | .bool, _, v, rest => by
    simp only [enc, dec, List.singleton_append, pop_byte, bind, Option.bind]
    cases v <;> rfl
  | .uint w, h, v, rest => decUint_enc w h v rest
  | .sint w, h, v, rest => decSint_enc w h v rest
  | .f32, _, v, rest => decF32_enc v rest
  | .f64, _, v, rest => decF64_enc v rest
  | .char, _, v, rest => decChar_enc v rest
  | .str, _, v, rest => decStr_enc v rest
  | .bytes, _, v, rest => decBytes_enc v rest
  | .opt t, _, none, rest => by
    simp only [enc, dec, List.singleton_append, pop_byte, bind, Option.bind]
    rfl
  | .opt t, h, some v, rest => by
    simp only [enc, dec, List.cons_append, pop_byte, bind, Option.bind]
    rw [rt t h v rest]
    rfl
  | .seq t, h, v, rest => by
    simp only [enc, dec, List.append_assoc]
    rw [decVar_enc 64 (by omega) _ v.2]
    simp only [bind, Option.bind]
    rw [many_map v.1 (fun a _ r => rt t h a r)]
    simp only [bounded_val v.2]
    rfl
  | .map k t, h, v, rest => by
    simp only [enc, dec, List.append_assoc]
    rw [decVar_enc 64 (by omega) _ v.2]
    simp only [bind, Option.bind]
    rw [many_map v.1 (fun a _ r => both_append (rt k h.1 a.1) (rt t h.2 a.2) r)]
    simp only [bounded_val v.2]
    rfl
  | .tuple fs, h, v, rest => rtF fs h.2 v rest
  | .struct fs, h, v, rest => rtF fs h.2 v rest
  | .enum vs, h, v, rest => by
    obtain ⟨j, bs, h1, h2, h3⟩ := rtV vs h.2 v 0
    simp only [enc, dec, h1, List.append_assoc]
    have hc := h.1.2.2
    rw [decVar_enc 32 (by omega) (0 + j) (by omega)]
    simp only [bind, Option.bind, Nat.zero_add, h3]
    rfl
theorem rtF : (fs : Fields) → fs.WF → ∀ (v : fs.den) (rest : Buf), decF fs (encF fs v ++ rest) = some (v, rest)
  | .nil, _, _, _ => rfl
  | .cons n t fs, h, v, rest => by
    simp only [encF, decF, List.append_assoc]
    rw [rt t h.1 v.1]
    simp only [bind, Option.bind]
    rw [rtF fs h.2 v.2]
    rfl
theorem rtV : (vs : Variants) → vs.WF → ∀ (v : vs.den) (i : Nat), ∃ (j : Nat) (bs : Buf), encV vs i v = encVar (i + j) ++ bs ∧ j < vs.names.length ∧
      ∀ rest, decV vs j (bs ++ rest) = some (v, rest)
  | .unit n vs, h, .inl v, i => ⟨0, [], by simp [encV], by simp [Variants.names], fun rest => by simp [decV]⟩
  | .unit n vs, h, .inr v, i => by
    obtain ⟨j, bs, h1, h2, h3⟩ := rtV vs h v (i + 1)
    refine ⟨j + 1, bs, ?_, by simpa [Variants.names] using h2, fun rest => ?_⟩
    · simp only [encV, h1]; congr 2; omega
    · simp only [decV, Nat.add_eq_zero_iff, Nat.one_ne_zero, and_false, if_false, Nat.add_sub_cancel, h3, Option.map]
  | .payload n t vs, h, .inl v, i => ⟨0, enc t v, by simp [encV], by simp [Variants.names], fun rest => by simp [decV, rt t h.1 v rest]⟩
  | .payload n t vs, h, .inr v, i => by
    obtain ⟨j, bs, h1, h2, h3⟩ := rtV vs h.2 v (i + 1)
    refine ⟨j + 1, bs, ?_, by simpa [Variants.names] using h2, fun rest => ?_⟩
    · simp only [encV, h1]; congr 2; omega
    · simp only [decV, Nat.add_eq_zero_iff, Nat.one_ne_zero, and_false, if_false, Nat.add_sub_cancel, h3, Option.map]
end

end Postcard

namespace Cbor

theorem decBe_be (k n : Nat) (rest : Buf) : ∀ acc, decBe k acc (be k n ++ rest) = some (acc * 256 ^ k + n % 256 ^ k, rest) := by
  induction k generalizing n rest with
  | zero => intro acc; simp [be, decBe, Nat.mod_one]
  | succ k ih =>
    intro acc
    -- reading one more byte at the end is reading the first k, then one
    have hsnoc : ∀ (k acc : Nat) (bs : Buf), decBe (k + 1) acc bs = (decBe k acc bs).bind fun p => (pop p.2).map fun q => (p.1 * 256 + q.1, q.2) := by
      intro k
      induction k with
      | zero =>
        intro acc bs
        cases bs <;> simp [decBe, pop]
      | succ k ih' =>
        intro acc bs
        rw [decBe]
        cases bs with
        | nil => simp [pop, decBe]
        | cons b bs => simp only [pop]; rw [ih']; rfl
    rw [hsnoc, be, List.append_assoc, ih]
    simp only [Option.bind, List.singleton_append, pop_byte, Option.map]
    congr 2
    have h1 : n % 256 ^ (k + 1) = 256 * (n / 256 % 256 ^ k) + n % 256 := by
      rw [Nat.pow_succ, Nat.mul_comm (256 ^ k) 256, Nat.mod_mul]; omega
    rw [h1, Nat.pow_succ, Nat.add_mul, Nat.mul_assoc]; omega

theorem Header.of_info {major : Nat} (hm : major < 7) (i j n : Nat) : Header.of major i n = Header.of major j n := by
  match major, hm with
  | 0, _ => rfl
  | 1, _ => rfl
  | 2, _ => rfl
  | 3, _ => rfl
  | 4, _ => rfl
  | 5, _ => rfl
  | 6, _ => rfl

theorem decHead_wide (major n info k : Nat) (hm : major < 8) (hi : (info = 24 ∧ k = 1) ∨ (info = 25 ∧ k = 2) ∨ (info = 26 ∧ k = 4) ∨ (info = 27 ∧ k = 8))
    (hn : n < 256 ^ k) (rest : Buf) : decHead (byte (major * 32 + info) :: be k n ++ rest) = some (Header.of major info n, rest) := by
  have e1 : (major * 32 + info) % 256 % 32 = info := by omega
  have e2 : (major * 32 + info) % 256 / 32 = major := by omega
  have hb : decBe k 0 (be k n ++ rest) = some (n, rest) := by rw [decBe_be, Nat.mod_eq_of_lt hn]; simp
  simp only [decHead, List.cons_append, pop_byte, bind, Option.bind, e1, e2]
  rcases hi with ⟨rfl, rfl⟩ | ⟨rfl, rfl⟩ | ⟨rfl, rfl⟩ | ⟨rfl, rfl⟩ <;> simp [hb]

theorem decHead_enc (major n : Nat) (hm : major < 7) (hn : n < 2 ^ 64) (rest : Buf) :
    decHead (encHead major n ++ rest) = some (Header.of major 0 n, rest) := by
  unfold encHead
  split
  · rename_i h
    simp only [decHead, List.singleton_append, pop_byte, bind, Option.bind]
    have e1 : (major * 32 + n) % 256 % 32 = n := by omega
    have e2 : (major * 32 + n) % 256 / 32 = major := by omega
    simp only [e1, e2, if_pos h, Header.of_info hm n 0]
  · split
    · rw [decHead_wide major n 24 1 (by omega) (by omega) (by omega), Header.of_info hm 24 0]
    · split
      · rw [decHead_wide major n 25 2 (by omega) (by omega) (by omega), Header.of_info hm 25 0]
      · split
        · rw [decHead_wide major n 26 4 (by omega) (by omega) (by omega), Header.of_info hm 26 0]
        · rw [decHead_wide major n 27 8 (by omega) (by omega) (by omega), Header.of_info hm 27 0]

/-- Headers produced by the encoder. -/
def Header.Ok : Header → Prop
  | .positive n => n < 2 ^ 64
  | .negative n => n < 2 ^ 64
  | .bytes n => n < 2 ^ 64
  | .text n => n < 2 ^ 64
  | .array n => n < 2 ^ 64
  | .map n => n < 2 ^ 64
  | .tag n => n < 2 ^ 64
  | .simple n => n < 24
  | .float n => n < 2 ^ 64

theorem head_rt (h : Header) (hok : h.Ok) (rest : Buf) : decHead (h.enc ++ rest) = some (h, rest) := by
  cases h <;> simp only [Header.Ok] at hok <;> simp only [Header.enc]
  case simple n =>
    unfold encHead
    rw [if_pos hok]
    simp only [decHead, List.singleton_append, pop_byte, bind, Option.bind]
    have e : (7 * 32 + n) % 256 % 32 = n := by omega
    have e2 : (7 * 32 + n) % 256 / 32 = 7 := by omega
    simp only [e, e2, if_pos hok, Header.of]
    rw [if_pos (by omega)]
  case float n =>
    split
    · rename_i h
      rw [decHead_wide 7 _ 25 2 (by decide) (by omega) (narrow_lt 5 10 n (by decide) (by decide) hok)]
      simp [Header.of, h]
    · split
      · rename_i h
        rw [decHead_wide 7 _ 26 4 (by decide) (by omega) (narrow_lt 8 23 n (by decide) (by decide) hok)]
        simp [Header.of, h]
      · rw [decHead_wide 7 _ 27 8 (by decide) (by omega) hok]
        simp [Header.of]
  all_goals exact decHead_enc _ _ (by decide) hok rest

theorem takeStr_utf8 (s : String) (rest : Buf) : takeStr (utf8 s).length (utf8 s ++ rest) = some (s, rest) := by
  simp only [takeStr, takeN_append, bind, Option.bind, ofUtf8_utf8]

theorem headText (s : String) (hs : (utf8 s).length < 2 ^ 64) (rest : Buf) :
    decHead (encText s ++ rest) = some (.text (utf8 s).length, utf8 s ++ rest) := by
  unfold encText
  rw [List.append_assoc, head_rt (.text (utf8 s).length) hs]

theorem decText_enc (s : String) (hs : (utf8 s).length < 2 ^ 64) (rest : Buf) : decText (encText s ++ rest) = some (s, rest) := by
  simp only [decText, headText s hs, bind, Option.bind, takeStr_utf8]

theorem decIdent_enc (s : String) (hs : (utf8 s).length ≤ 4096) (rest : Buf) : decIdent (encText s ++ rest) = some (s, rest) := by
  simp only [decIdent, headText s (by omega), bind, Option.bind, takeStr_utf8, if_pos hs]

/-- The number a big-endian byte string stands for. -/
theorem foldl_be (k n acc : Nat) : (be k n).foldl (fun acc b => acc * 256 + b.toNat) acc = acc * 256 ^ k + n % 256 ^ k := by
  induction k generalizing n acc with
  | zero => simp [be, Nat.mod_one]
  | succ k ih =>
    simp only [be, List.foldl_append, ih, List.foldl_cons, List.foldl_nil, byte_toNat]
    have h1 : n % 256 ^ (k + 1) = 256 * (n / 256 % 256 ^ k) + n % 256 := by
      rw [Nat.pow_succ, Nat.mul_comm (256 ^ k) 256, Nat.mod_mul]; omega
    rw [h1, Nat.pow_succ, Nat.add_mul, Nat.mul_assoc]; omega

theorem be_length (k n : Nat) : (be k n).length = k := by
  induction k generalizing n with
  | zero => rfl
  | succ k ih => simp [be, ih]

theorem foldl_dropZeros (l : Buf) : (l.dropWhile fun b => b == 0).foldl (fun acc b => acc * 256 + b.toNat) 0 = l.foldl (fun acc b => acc * 256 + b.toNat) 0 := by
  induction l with
  | nil => rfl
  | cons b l ih =>
    by_cases h : b = 0
    · subst h; simpa using ih
    · rw [List.dropWhile_cons_of_neg (by simpa using h)]

theorem dropZeros_idem (l : Buf) : (l.dropWhile fun b => b == 0).dropWhile (fun b => b == 0) = l.dropWhile fun b => b == 0 := by
  induction l with
  | nil => rfl
  | cons b l ih =>
    by_cases h : b = 0
    · subst h; simpa using ih
    · rw [List.dropWhile_cons_of_neg (by simpa using h), List.dropWhile_cons_of_neg (by simpa using h)]

theorem dropZeros_length (l : Buf) : (l.dropWhile fun b => b == 0).length ≤ l.length := (List.dropWhile_suffix _).length_le

theorem bigBytes_length (n : Nat) : (bigBytes n).length ≤ 16 := by
  have := dropZeros_length (be 16 n)
  rwa [be_length] at this

theorem decBig_enc (n : Nat) (hn : n < 2 ^ 128) (rest : Buf) : decBig ((Header.bytes (bigBytes n).length).enc ++ (bigBytes n ++ rest)) = some (n, rest) := by
  have hl := bigBytes_length n
  simp only [decBig, bind, Option.bind]
  rw [head_rt (.bytes (bigBytes n).length) (by simp only [Header.Ok]; omega)]
  simp only [takeN_append]
  have h1 : (bigBytes n).dropWhile (fun b => b == 0) = bigBytes n := dropZeros_idem _
  have h2 : (bigBytes n).foldl (fun acc b => acc * 256 + b.toNat) 0 = n := by
    unfold bigBytes
    rw [foldl_dropZeros, foldl_be, Nat.zero_mul, Nat.zero_add, Nat.mod_eq_of_lt]
    exact hn
  rw [h1, if_pos hl, h2]

theorem decInt_enc (neg : Bool) (n : Nat) (hn : n < 2 ^ 128) (rest : Buf) : decInt (encInt neg n ++ rest) = some ((neg, n), rest) := by
  unfold encInt
  split
  · rename_i h
    cases neg
    · simp only [decInt, bind, Option.bind, Bool.false_eq_true, if_false]
      rw [head_rt (.positive n) h]
    · simp only [decInt, bind, Option.bind, if_true]
      rw [head_rt (.negative n) h]
  · simp only [decInt, bind, Option.bind, List.append_assoc]
    rw [head_rt (.tag _) (by cases neg <;> (simp only [Header.Ok]; decide))]
    cases neg <;> simp [decBig_enc n hn rest]

/-- The first header of an integer is none of `null` and `undefined`. -/
theorem headInt (neg : Bool) (n : Nat) (rest : Buf) : ∃ h r, decHead (encInt neg n ++ rest) = some (h, r) ∧ h ≠ .simple 22 ∧ h ≠ .simple 23 := by
  unfold encInt
  split
  · rename_i h
    cases neg
    · exact ⟨_, _, head_rt (.positive n) h rest, by simp, by simp⟩
    · exact ⟨_, _, head_rt (.negative n) h rest, by simp, by simp⟩
  · exact ⟨_, _, by rw [List.append_assoc, List.append_assoc]; exact head_rt (.tag _) (by cases neg <;> (simp only [Header.Ok]; decide)) _, by simp, by simp⟩

/-- All fields filled. -/
def Part.full : (fs : Fields) → fs.den → Part fs
  | .nil, _ => ()
  | .cons _ _ fs, v => (some v.1, Part.full fs v.2)

theorem finish_full : (fs : Fields) → (v : fs.den) → Part.finish fs (Part.full fs v) = some v
  | .nil, _ => rfl
  | .cons _ _ fs, v => by
    simp only [Part.full, Part.finish, bind, Option.bind, finish_full fs v.2]
    rfl

theorem fields_names_length : (fs : Fields) → fs.names.length = fs.count
  | .nil => rfl
  | .cons _ _ fs => by simp [Fields.names, Fields.count, fields_names_length fs]

/-- The first header of a variant is text or a map with one entry. -/
theorem headV : (vs : Variants) → (∀ n ∈ vs.names, (utf8 n).length ≤ 4096) → (v : vs.den) → (rest : Buf) →
    ∃ h r, decHead (encV vs v ++ rest) = some (h, r) ∧ h ≠ .simple 22 ∧ h ≠ .simple 23
  | .unit n vs, hn, .inl v, rest => by
    have := hn n (by simp [Variants.names])
    exact ⟨_, _, by simp only [encV]; exact headText n (by omega) rest, by simp, by simp⟩
  | .unit n vs, hn, .inr v, rest => headV vs (fun m hm => hn m (by simp [Variants.names, hm])) v rest
  | .payload n t vs, hn, .inl v, rest => ⟨.map 1, _, by simp only [encV, List.append_assoc]; exact head_rt (.map 1) (by simp only [Header.Ok]; decide) _, by simp, by simp⟩
  | .payload n t vs, hn, .inr v, rest => headV vs (fun m hm => hn m (by simp [Variants.names, hm])) v rest

theorem head_not_null : (t : Ty) → t.WF → t.nullable = false → (v : t.den) → (rest : Buf) →
    ∃ h r, decHead (enc t v ++ rest) = some (h, r) ∧ h ≠ .simple 22 ∧ h ≠ .simple 23
  | .bool, _, _, v, rest => ⟨_, _, head_rt (.simple (20 + Bool.toNat v)) (by cases v <;> (simp only [Header.Ok]; decide)) rest, by cases v <;> decide, by cases v <;> decide⟩
  | .uint w, hw, _, v, rest => headInt false v.1 rest
  | .sint w, hw, _, v, rest => by
    simp only [enc, encSint]
    split
    · exact headInt true _ rest
    · exact headInt false _ rest
  | .f32, _, _, v, rest => ⟨_, _, head_rt (.float (widen 8 23 v.1)) (widen_lt v.1 v.2.1) rest, by simp, by simp⟩
  | .f64, _, _, v, rest => ⟨_, _, head_rt (.float v.1) v.2 rest, by simp, by simp⟩
  | .char, _, _, v, rest => ⟨_, _, headText (String.singleton v) (by have := char_length v; omega) rest, by simp, by simp⟩
  | .str, _, _, v, rest => ⟨_, _, headText v.1 (by rw [utf8_length]; exact v.2) rest, by simp, by simp⟩
  | .bytes, _, _, v, rest => ⟨_, _, by simp only [enc, List.append_assoc]; exact head_rt (.bytes v.1.length) v.2 _, by simp, by simp⟩
  | .seq t, _, _, v, rest => ⟨_, _, by simp only [enc, List.append_assoc]; exact head_rt (.array v.1.length) v.2 _, by simp, by simp⟩
  | .map k t, _, _, v, rest => ⟨_, _, by simp only [enc, List.append_assoc]; exact head_rt (.map v.1.length) v.2 _, by simp, by simp⟩
  | .tuple fs, hw, _, v, rest =>
    ⟨_, _, by simp only [enc, List.append_assoc]; exact head_rt (.array fs.count) (Nat.lt_trans hw.1 (by decide)) _, by simp, by simp⟩
  | .struct fs, hw, _, v, rest =>
    ⟨_, _, by simp only [enc, List.append_assoc]; exact head_rt (.map fs.count) (by rw [← fields_names_length]; exact Nat.lt_trans hw.1.2.2 (by decide)) _,
      by simp, by simp⟩
  | .enum vs, hw, _, v, rest => headV vs hw.1.2.1 v rest

theorem decUint_enc (w : Nat) (hw : w = 8 ∨ w = 16 ∨ w = 32 ∨ w = 64 ∨ w = 128) (n : { n : Nat // n < 2 ^ w }) (rest : Buf) :
    decUint w (encInt false n.1 ++ rest) = some (n, rest) := by
  have h2 : w ≤ 128 := by omega
  unfold decUint
  rw [decInt_enc false n.1 (Nat.lt_of_lt_of_le n.2 (Nat.pow_le_pow_right (by decide) h2))]
  simp only [bind, Option.bind, Bool.false_eq_true, if_false]
  rw [dif_pos n.2]

theorem decSint_enc (w : Nat) (hw : w = 8 ∨ w = 16 ∨ w = 32 ∨ w = 64 ∨ w = 128) (z : { z : Int // -(2 ^ w : Nat) ≤ 2 * z ∧ 2 * z < (2 ^ w : Nat) }) (rest : Buf) :
    decSint w (encSint z.1 ++ rest) = some (z, rest) := by
  obtain ⟨z, hz⟩ := z
  have h3 : (2 : Nat) ^ w ≤ 2 ^ 128 := Nat.pow_le_pow_right (by decide) (by omega)
  simp only [decSint, encSint]
  split
  · rename_i h
    rw [decInt_enc true _ (by omega)]
    have e : -(((-z - 1).toNat : Nat) : Int) - 1 = z := by omega
    simp only [bind, Option.bind, if_true, e]
    rw [dif_pos hz]
  · rename_i h
    rw [decInt_enc false _ (by omega)]
    have e : ((z.toNat : Nat) : Int) = z := by omega
    simp only [bind, Option.bind, Bool.false_eq_true, if_false, e]
    rw [dif_pos hz]

theorem decChar_enc (c : Char) (rest : Buf) : decChar (encText (String.singleton c) ++ rest) = some (c, rest) := by
  have hl := char_length c
  simp only [decChar, headText (String.singleton c) (by omega), bind, Option.bind, if_pos hl, takeStr_utf8, char_toList]

/-- Reading elements that each need some levels of recursion. -/
theorem many_if {f : Buf → Option (α × Buf)} {g : α → Buf} {lv : α → Nat} {d : Nat} : ∀ (l : List α) (_ : ∀ a ∈ l, ∀ r, f (g a ++ r) = if lv a ≤ d then some (a, r) else none) (rest : Buf),
    many f l.length ((l.map g).flatten ++ rest) = if (l.map lv).foldr max 0 ≤ d then some (l, rest) else none
  | [], _, rest => by simp [many]
  | a :: l, h, rest => by
    simp only [List.length_cons, many, List.map_cons, List.flatten_cons, List.append_assoc, h a (by simp), bind, Option.bind, List.foldr_cons, Nat.max_le]
    by_cases h1 : lv a ≤ d
    · simp only [h1, if_true, true_and]
      rw [many_if l (fun b hb => h b (by simp [hb])) rest]
      by_cases h2 : (l.map lv).foldr max 0 ≤ d <;> simp only [h2, if_true, if_false]
    · simp only [h1, if_false, false_and]

theorem both_if {f : Buf → Option (α × Buf)} {g : Buf → Option (β × Buf)} {a : α} {b : β} {x y : Buf} {m n d : Nat} (hf : ∀ r, f (x ++ r) = if m ≤ d then some (a, r) else none)
    (hg : ∀ r, g (y ++ r) = if n ≤ d then some (b, r) else none) (r : Buf) : both f g ((x ++ y) ++ r) = if max m n ≤ d then some ((a, b), r) else none := by
  simp only [both, List.append_assoc, hf, bind, Option.bind, Nat.max_le]
  by_cases h1 : m ≤ d
  · simp only [h1, if_true, true_and, hg]
    by_cases h2 : n ≤ d <;> simp only [h2, if_true, if_false]
  · simp only [h1, if_false, false_and]

mutual
theorem rt : (t : Ty) → t.WF → t.NoNestedOption → ∀ (d : Nat) (v : t.den) (rest : Buf), dec t d (enc t v ++ rest) = if t.levels v ≤ d then some (v, rest) else none
  | .unit, _, _, d, _, rest => by
    simp only [enc, dec, bind, Option.bind, Ty.levels, Nat.zero_le, if_true]
    rw [head_rt (.simple 22) (by simp only [Header.Ok]; decide)]
    rfl
  | .bool, _, _, d, v, rest => by
    simp only [enc, dec, bind, Option.bind, Ty.levels, Nat.zero_le, if_true]
    rw [head_rt (.simple (20 + Bool.toNat v)) (by cases v <;> (simp only [Header.Ok]; decide))]
    cases v <;> rfl
  | .uint w, h, _, d, v, rest => by simp only [Ty.levels, Nat.zero_le, if_true]; exact decUint_enc w h v rest
  | .sint w, h, _, d, v, rest => by simp only [Ty.levels, Nat.zero_le, if_true]; exact decSint_enc w h v rest
  | .f32, _, _, d, v, rest => by
    simp only [enc, dec, decF32, bind, Option.bind, Ty.levels, Nat.zero_le, if_true]
    rw [head_rt (.float (widen 8 23 v.1)) (widen_lt v.1 v.2.1)]
    have e := narrow_widen v.1 v.2.1 v.2.2
    simp only [e]
    rw [dif_pos v.2]
    rfl
  | .f64, _, _, d, v, rest => by
    simp only [enc, dec, decF64, bind, Option.bind, Ty.levels, Nat.zero_le, if_true]
    rw [head_rt (.float v.1) v.2]
    simp only
    rw [dif_pos v.2]
    rfl
  | .char, _, _, d, v, rest => by simp only [Ty.levels, Nat.zero_le, if_true]; exact decChar_enc v rest
  | .str, _, _, d, v, rest => by
    simp only [enc, dec, bind, Option.bind, Ty.levels, Nat.zero_le, if_true]
    rw [decText_enc v.1 (by rw [utf8_length]; exact v.2)]
    simp only
    rw [dif_pos v.2]
    rfl
  | .bytes, _, _, d, v, rest => by
    simp only [enc, dec, decBytes, bind, Option.bind, List.append_assoc, Ty.levels, Nat.zero_le, if_true]
    rw [head_rt (.bytes v.1.length) v.2]
    simp only [takeN_append, bounded_val v.2]
    rfl
  | .opt t, _, _, d, none, rest => by
    simp only [enc, dec, bind, Option.bind, Ty.levels, Nat.zero_le, if_true]
    rw [head_rt (.simple 22) (by simp only [Header.Ok]; decide)]
    rfl
  | .opt t, hw, hn, d, some v, rest => by
    obtain ⟨h, r, h1, h2, h3⟩ := head_not_null t hw hn.1 v rest
    simp only [enc, dec, bind, Option.bind, Ty.levels]
    rw [h1]
    simp only
    split
    · simp_all
    · simp_all
    · rw [rt t hw hn.2 d v rest]
      by_cases hl : t.levels v ≤ d <;> simp only [hl, if_true, if_false] <;> rfl
  | .seq t, hw, hn, 0, v, rest => by simp [dec, Ty.levels]
  | .seq t, hw, hn, d + 1, v, rest => by
    simp only [enc, dec, bind, Option.bind, List.append_assoc, Ty.levels, Nat.add_one_ne_zero, if_false, Nat.add_sub_cancel, Nat.add_le_add_iff_right]
    rw [head_rt (.array v.1.length) v.2]
    simp only
    rw [many_if v.1 (fun a _ r => rt t hw hn d a r)]
    by_cases h : (v.1.map t.levels).foldr max 0 ≤ d
    · simp only [h, if_true, bounded_val v.2]; rfl
    · simp only [h, if_false]
  | .map k t, hw, hn, 0, v, rest => by simp [dec, Ty.levels]
  | .map k t, hw, hn, d + 1, v, rest => by
    simp only [enc, dec, bind, Option.bind, List.append_assoc, Ty.levels, Nat.add_one_ne_zero, if_false, Nat.add_sub_cancel, Nat.add_le_add_iff_right]
    rw [head_rt (.map v.1.length) v.2]
    simp only
    rw [many_if v.1 (fun a _ r => both_if (rt k hw.1 hn.1 d a.1) (rt t hw.2 hn.2 d a.2) r)]
    by_cases h : (v.1.map fun p => max (k.levels p.1) (t.levels p.2)).foldr max 0 ≤ d
    · simp only [h, if_true, bounded_val v.2]; rfl
    · simp only [h, if_false]
  | .tuple fs, hw, hn, 0, v, rest => by simp [dec, Ty.levels]
  | .tuple fs, hw, hn, d + 1, v, rest => by
    simp only [enc, dec, bind, Option.bind, List.append_assoc, Ty.levels, Nat.add_one_ne_zero, if_false, Nat.add_sub_cancel, Nat.add_le_add_iff_right]
    rw [head_rt (.array fs.count) (Nat.lt_trans hw.1 (by decide))]
    simp only [if_true]
    exact rtT fs hw.2 hn d v rest
  | .struct fs, hw, hn, 0, v, rest => by simp [dec, Ty.levels]
  | .struct fs, hw, hn, d + 1, v, rest => by
    simp only [enc, dec, bind, Option.bind, List.append_assoc, Ty.levels, Nat.add_one_ne_zero, if_false, Nat.add_sub_cancel, Nat.add_le_add_iff_right]
    rw [head_rt (.map fs.count) (by rw [← fields_names_length]; exact Nat.lt_trans hw.1.2.2 (by decide))]
    simp only
    rw [rtS fs hw.2 hn hw.1.1 hw.1.2.1 d v rest _ (fun p => p) (fun name hm p bs => by
      rw [decIdent_enc name (hw.1.2.1 name hm)]
      simp only
      cases decS fs d name p bs <;> rfl)]
    by_cases h : fs.levels v ≤ d
    · simp only [h, if_true]
      exact congrArg (fun o : Option fs.den => o.bind fun v => some (v, rest)) (finish_full fs v)
    · simp only [h, if_false]
  | .enum vs, hw, hn, 0, v, rest => by simp [dec, Ty.levels]
  | .enum vs, hw, hn, d + 1, v, rest => by
    obtain ⟨name, bs, hm, he, hd⟩ := rtV vs hw.2 hn hw.1.1 d v
    have hl := hw.1.2.1 name hm
    simp only [enc, dec, bind, Option.bind, Ty.levels, Nat.add_one_ne_zero, if_false, Nat.add_sub_cancel, Nat.add_le_add_iff_right]
    rcases he with he | he
    · rw [he, List.append_assoc, headText name (by omega)]
      simp only [decIdent_enc name hl, hd]
      rfl
    · rw [he, List.append_assoc, List.append_assoc, head_rt (.map 1) (by simp only [Header.Ok]; decide)]
      simp only [decIdent_enc name hl, hd]
      rfl
theorem rtT : (fs : Fields) → fs.WF → fs.NoNestedOption → ∀ (d : Nat) (v : fs.den) (rest : Buf), decT fs d (encT fs v ++ rest) = if fs.levels v ≤ d then some (v, rest) else none
  | .nil, _, _, _, _, _ => by simp [encT, decT, Fields.levels]; rfl
  | .cons n t fs, h, hn, d, v, rest => by
    simp only [encT, decT, List.append_assoc, Fields.levels, Nat.max_le]
    rw [rt t h.1 hn.1 d v.1]
    by_cases h1 : t.levels v.1 ≤ d
    · simp only [h1, if_true, true_and, bind, Option.bind]
      rw [rtT fs h.2 hn.2 d v.2]
      by_cases h2 : fs.levels v.2 ≤ d
      · simp only [h2, if_true]; rfl
      · simp only [h2, if_false]
    · simp only [h1, if_false, false_and, bind, Option.bind]
theorem rtS : (fs : Fields) → fs.WF → fs.NoNestedOption → fs.names.Nodup → (∀ n ∈ fs.names, (utf8 n).length ≤ 4096) → ∀ (d : Nat) (v : fs.den) (rest : Buf) {σ : Type}
      (F : Buf → σ → Option (σ × Buf)) (inj : Part fs → σ),
      (∀ name ∈ fs.names, ∀ p bs, F (encText name ++ bs) (inj p) = (decS fs d name p bs).map fun q => (inj q.1, q.2)) →
      entries F fs.count (inj (Part.empty fs)) (encS fs v ++ rest) = if fs.levels v ≤ d then some (inj (Part.full fs v), rest) else none
  | .nil, _, _, _, _, d, v, rest, σ, F, inj, hF => by simp [Fields.count, entries, encS, Fields.levels]; rfl
  | .cons n t fs, h, hn, hnd, hl, d, v, rest, σ, F, inj, hF => by
    simp only [Fields.names, List.nodup_cons] at hnd
    simp only [Fields.count, entries, encS, List.append_assoc, Part.empty, Part.full, bind, Option.bind, Fields.levels, Nat.max_le]
    have h1 := hF n (by simp [Fields.names]) (none, Part.empty fs) (enc t v.1 ++ (encS fs v.2 ++ rest))
    simp only [decS, if_true, rt t h.1 hn.1 d v.1] at h1
    by_cases h2 : t.levels v.1 ≤ d
    · simp only [h2, if_true, true_and, Option.map] at h1 ⊢
      refine (congrArg (fun o => Option.bind o (fun x => entries F fs.count x.1 x.2)) h1).trans ?_
      refine rtS fs h.2 hn.2 hnd.2 (fun m hm => hl m (by simp [Fields.names, hm])) d v.2 rest F (fun p => inj (some v.1, p)) (fun name hm p bs => ?_)
      refine (hF name (by simp [Fields.names, hm]) (some v.1, p) bs).trans ?_
      have hne : name ≠ n := fun e => hnd.1 (e ▸ hm)
      simp only [decS, if_neg hne, Option.map_map]
      rfl
    · simp only [h2, if_false, false_and, Option.map] at h1 ⊢
      exact congrArg (fun o => Option.bind o (fun x => entries F fs.count x.1 x.2)) h1
theorem rtV : (vs : Variants) → vs.WF → vs.NoNestedOption → vs.names.Nodup → ∀ (d : Nat) (v : vs.den), ∃ (name : String) (bs : Buf), name ∈ vs.names ∧
      (encV vs v = encText name ++ bs ∨ encV vs v = (Header.map 1).enc ++ encText name ++ bs) ∧ ∀ rest, decV vs d name (bs ++ rest) = if vs.levels v ≤ d then some (v, rest) else none
  | .unit n vs, h, hn, hnd, d, .inl v => ⟨n, [], by simp [Variants.names], .inl (by simp [encV]), fun rest => by simp [decV, Variants.levels]⟩
  | .unit n vs, h, hn, hnd, d, .inr v => by
    simp only [Variants.names, List.nodup_cons] at hnd
    obtain ⟨name, bs, hm, he, hd⟩ := rtV vs h hn hnd.2 d v
    have hne : name ≠ n := fun e => hnd.1 (e ▸ hm)
    refine ⟨name, bs, by simp [Variants.names, hm], by simpa only [encV] using he, fun rest => ?_⟩
    simp only [decV, if_neg hne, hd, Variants.levels]
    by_cases hl : vs.levels v ≤ d <;> simp only [hl, if_true, if_false] <;> rfl
  | .payload n t vs, h, hn, hnd, d, .inl v => ⟨n, enc t v, by simp [Variants.names], .inr (by simp [encV]), fun rest => by
      simp only [decV, if_true, rt t h.1 hn.1 d v rest, Variants.levels]
      by_cases hl : t.levels v ≤ d <;> simp only [hl, if_true, if_false] <;> rfl⟩
  | .payload n t vs, h, hn, hnd, d, .inr v => by
    simp only [Variants.names, List.nodup_cons] at hnd
    obtain ⟨name, bs, hm, he, hd⟩ := rtV vs h.2 hn.2 hnd.2 d v
    have hne : name ≠ n := fun e => hnd.1 (e ▸ hm)
    refine ⟨name, bs, by simp [Variants.names, hm], by simpa only [encV] using he, fun rest => ?_⟩
    simp only [decV, if_neg hne, hd, Variants.levels]
    by_cases hl : vs.levels v ≤ d <;> simp only [hl, if_true, if_false] <;> rfl
end

theorem foldr_max_le {lv : α → Nat} {n : Nat} : ∀ (l : List α) (_ : ∀ a ∈ l, lv a ≤ n), (l.map lv).foldr max 0 ≤ n
  | [], _ => Nat.zero_le _
  | a :: l, h => Nat.max_le.2 ⟨h a (by simp), foldr_max_le l fun b hb => h b (by simp [hb])⟩

mutual
theorem levels_le : (t : Ty) → ∀ v, t.levels v ≤ t.height
  | .opt t, none => Nat.zero_le _
  | .opt t, some v => levels_le t v
  | .seq t, l => by
    simp only [Ty.levels, Ty.height, Nat.add_le_add_iff_right]
    exact foldr_max_le _ fun a _ => levels_le t a
  | .map k v, l => by
    simp only [Ty.levels, Ty.height, Nat.add_le_add_iff_right]
    exact foldr_max_le _ fun a _ => Nat.max_le.2 ⟨Nat.le_trans (levels_le k a.1) (Nat.le_max_left ..), Nat.le_trans (levels_le v a.2) (Nat.le_max_right ..)⟩
  | .tuple fs, v => Nat.succ_le_succ (levelsF_le fs v)
  | .struct fs, v => Nat.succ_le_succ (levelsF_le fs v)
  | .enum vs, v => Nat.succ_le_succ (levelsV_le vs v)
  | .unit, _ | .bool, _ | .uint _, _ | .sint _, _ | .f32, _ | .f64, _ | .char, _ | .str, _ | .bytes, _ => Nat.zero_le _
theorem levelsF_le : (fs : Fields) → ∀ v, fs.levels v ≤ fs.height
  | .nil, _ => Nat.zero_le _
  | .cons _ t fs, v => Nat.max_le.2 ⟨Nat.le_trans (levels_le t v.1) (Nat.le_max_left ..), Nat.le_trans (levelsF_le fs v.2) (Nat.le_max_right ..)⟩
theorem levelsV_le : (vs : Variants) → ∀ v, vs.levels v ≤ vs.height
  | .unit _ _, .inl _ => Nat.zero_le _
  | .unit _ vs, .inr v => levelsV_le vs v
  | .payload _ t _, .inl v => Nat.le_trans (levels_le t v) (Nat.le_max_left ..)
  | .payload _ _ vs, .inr v => Nat.le_trans (levelsV_le vs v) (Nat.le_max_right ..)
end

theorem rt_safe (t : Ty) (h : t.WF) (hs : t.CborSafe) (v : t.den) (rest : Buf) : read t (enc t v ++ rest) = some (v, rest) := by
  unfold read
  rw [rt t h hs.1, if_pos (Nat.le_trans (levels_le t v) hs.2)]

end Cbor
end Wire
end Paladin
