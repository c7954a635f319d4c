import Verif.Spec.Hello
import Verif.Props.SystemPipe
import Verif.Props.SystemFails
/-! # The example program -/
namespace Paladin
namespace Hello
open Retry Exec Wire System

/-! ## Lengths of encodings -/

theorem be_length (k n : Nat) : (Cbor.be k n).length = k := by
  induction k generalizing n with
  | zero => rfl
  | succ k ih => simp [Cbor.be, ih]

theorem encHead_length (m n : Nat) : (Cbor.encHead m n).length ≤ 9 := by
  unfold Cbor.encHead
  (repeat' split) <;> simp [be_length]

theorem str_short (k : Serializer) (s : Str) : (toBytes k s).length ≤ s.1.utf8ByteSize + 10 := by
  cases k with
  | postcard =>
    have := encVar_length 9 s.1.utf8ByteSize (Nat.lt_trans s.2 (by decide))
    simp [toBytes, Serde.ser, Serde.ty, Postcard.enc, Postcard.encBytes, utf8_length]
    omega
  | cbor =>
    have := encHead_length 3 s.1.utf8ByteSize
    simp [toBytes, Serde.ser, Serde.ty, Cbor.enc, Cbor.encText, Cbor.Header.enc, utf8_length]
    omega

theorem pair_short (k : Serializer) (a b : Str) : (toBytes k (a, b)).length ≤ a.1.utf8ByteSize + b.1.utf8ByteSize + 29 := by
  have h1 := str_short k a
  have h2 := str_short k b
  cases k with
  | postcard =>
    simp [toBytes, Serde.ser, Serde.ty, Postcard.enc, Postcard.encF] at h1 h2 ⊢
    omega
  | cbor =>
    have := encHead_length 4 2
    simp [toBytes, Serde.ser, Serde.ty, Cbor.enc, Cbor.encT, Cbor.Header.enc, Fields.count] at h1 h2 ⊢
    omega

theorem char_short (k : Serializer) (c : Char) : (toBytes k c).length ≤ 14 := by
  have := str_short k (charStr c)
  have h : (toBytes k c) = toBytes k (charStr c) := by
    cases k <;> simp [toBytes, Serde.ser, Serde.ty, Postcard.enc, Cbor.enc, charStr]
  rw [h]
  have h3 : (charStr c).1.utf8ByteSize ≤ 4 := by have := Char.utf8Size_le_four c; simp [charStr]; omega
  omega

theorem unit_short (k : Serializer) : (toBytes k ()).length < 2 ^ 64 := by
  cases k <;> decide

theorem codec_enc [Anyhow ε] {α : Type} [Serde α] {k : Serializer} {a : α} (h : (toBytes k a).length < 2 ^ 64) : ∃ b, (codec (ε := ε) α).enc k a = .ok b :=
  ⟨_, dif_pos h⟩

section
variable {ε : Type} [Anyhow ε] {flag : Nat → Nat → Bool} {dbg : Char → String} {key : Str} {i : U8} {join : ε} {kt : Serializer}

theorem unit_lawful : (codec (ε := ε) Unit).Lawful := Codec.ofSerde_lawful (α := Unit) trivial ⟨trivial, by decide⟩ _ _
theorem char_lawful : (codec (ε := ε) Char).Lawful := Codec.ofSerde_lawful (α := Char) trivial ⟨trivial, by decide⟩ _ _
theorem str_lawful : (codec (ε := ε) Str).Lawful := Codec.ofSerde_lawful (α := Str) trivial ⟨trivial, by decide⟩ _ _
theorem pair_lawful : (codec (ε := ε) (Str × Str)).Lawful :=
  Codec.ofSerde_lawful (α := Str × Str) ⟨by decide +kernel, trivial, trivial, trivial⟩ ⟨⟨trivial, trivial, trivial⟩, by decide⟩ _ _

theorem registered_map {ops : List (OpDef ε)} (h : ops[i.1]? = some (charOp flag dbg)) : Registered ops (mapJob flag dbg key i).d (mapJob (ε := ε) flag dbg key i).id :=
  ⟨h, unit_lawful, char_lawful, str_lawful⟩

theorem registered_fold {ops : List (OpDef ε)} (h : ops[i.1]? = some concatOp) : Registered ops (foldJob key i).d (foldJob (ε := ε) key i).id :=
  ⟨h, unit_lawful, pair_lawful, str_lawful⟩

/-! ## What the operations compute -/

theorem gives_char {c : Char} {v : Str} (h : (mapJob (ε := ε) flag dbg key i).Gives c v) : v = charStr c := by
  obtain ⟨m, h⟩ := h
  change charToString flag dbg c m = .ok v at h
  have : ∀ w : Str, charToString (ε := ε) flag dbg c m = .ok w → w = charStr c := by
    intro w hw
    unfold charToString at hw
    split at hw
    · exact absurd hw nofun
    · exact (Call.ok.inj hw).symm
  exact this v h

theorem concat_ok {a b v : Str} (h : concat (ε := ε) a b = .ok v) : v.1 = a.1 ++ b.1 := by
  unfold concat at h
  split at h
  · obtain rfl := Call.ok.inj h; rfl
  · exact absurd h nofun

theorem tree_concat {ys : List Str} {v : Str} (h : Tree (foldJob (ε := ε) key i).Gives ys v) : v.1.toList = ys.flatMap fun y => y.1.toList := by
  induction h with
  | leaf x => simp
  | node h1 h2 hc ih1 ih2 =>
    obtain ⟨m, hc⟩ := hc
    simp [concat_ok hc, ih1, ih2]

theorem flat_chars (cs : List Char) : (cs.map charStr).flatMap (fun y => y.1.toList) = cs := by
  induction cs with
  | nil => rfl
  | cons c cs ih =>
    rw [List.map_cons, List.flatMap_cons, ih]
    show (String.singleton c).toList ++ cs = c :: cs
    simp

theorem map_of_forall₂ {α β : Type} {R : α → β → Prop} {f : α → β} (hR : ∀ a b, R a b → b = f a) {xs : List α} {ys : List β} (h : List.Forall₂ R xs ys) : ys = xs.map f := by
  induction h with
  | nil => rfl
  | cons h _ ih => rw [hR _ _ h, ih, List.map_cons]

theorem localAttempt_ok {d : OpDef ε} {op : d.Op} {a : d.In} {m : Nat} {v : d.Out} {b : Bytes} (h : d.execute op a m = .ok v) (hb : d.outC.enc kt v = .ok b) :
    localAttempt join d kt op a m = .ok v := by
  simp only [localAttempt, h, hb]

theorem localAttempt_err {d : OpDef ε} {op : d.Op} {a : d.In} {m : Nat} {e : OpError ε} (h : d.execute op a m = .err e) : localAttempt join d kt op a m = .error e := by
  simp only [localAttempt, h]

/-- The only errors of an attempt of `CharToString`. -/
theorem char_attempt {c : Char} {m : Nat} {e : OpError ε} (h : localAttempt join (mapJob flag dbg key i).d kt (mapJob (ε := ε) flag dbg key i).op c m = .error e) :
    ∃ n, 1 ≤ n ∧ n ≤ 9 ∧ flag m n = true ∧ e = .fatal (Anyhow.msg (abortText dbg c n)) .terminate := by
  cases hc : (mapJob (ε := ε) flag dbg key i).d.execute (mapJob (ε := ε) flag dbg key i).op c m with
  | panic =>
    change charToString (ε := ε) flag dbg c m = _ at hc
    unfold charToString at hc; split at hc <;> exact absurd hc nofun
  | ok v =>
    change Str at v
    have hv : v = charStr c := gives_char (key := key) (i := i) ⟨m, hc⟩
    obtain ⟨b, hb⟩ := codec_enc (ε := ε) (k := kt) (a := v) (by
      have := str_short kt v
      rw [hv] at this ⊢
      have h3 : (charStr c).1.utf8ByteSize ≤ 4 := by have := Char.utf8Size_le_four c; simp [charStr]; omega
      omega)
    rw [localAttempt_ok hc hb] at h
    exact absurd h nofun
  | err e' =>
    rw [localAttempt_err hc] at h
    obtain rfl := Except.error.inj h
    change charToString (ε := ε) flag dbg c m = _ at hc
    unfold charToString at hc
    split at hc
    · rename_i n hn
      have h1 := List.mem_of_find?_eq_some hn
      have h2 := List.find?_some hn
      simp at h1
      exact ⟨n, by omega, by omega, h2, (Call.err.inj hc).symm⟩
    · exact absurd hc nofun

/-- An attempt to concatenate strings with fewer than `2^63` bytes does not fail. -/
theorem concat_runs {a b : Str} {m : Nat} (hs : (a.1 ++ b.1).utf8ByteSize < 2 ^ 63) :
    ∃ v c, (foldJob (ε := ε) key i).d.execute (foldJob (ε := ε) key i).op (a, b) m = .ok v ∧ (foldJob (ε := ε) key i).d.outC.enc kt v = .ok c := by
  obtain ⟨v, hv, hc⟩ : ∃ v : Str, v.1 = a.1 ++ b.1 ∧ (foldJob (ε := ε) key i).d.execute (foldJob (ε := ε) key i).op (a, b) m = .ok v :=
    ⟨⟨a.1 ++ b.1, Nat.lt_trans hs (by decide)⟩, rfl, dif_pos hs⟩
  obtain ⟨c, he⟩ := codec_enc (ε := ε) (k := kt) (a := v) (by
    have := str_short kt v
    rw [hv] at this
    omega)
  exact ⟨v, c, hc, he⟩

theorem done_of_fatal {env : BackoffEnv} {fuel : Nat} {out : Nat → Except (OpError ε) ω} (h : ∀ e, out 0 = .error e → ∃ x s, e = .fatal x s) : (remoteExecute env fuel out).2 ≠ none := by
  cases h0 : out 0 with
  | ok c => rw [(C33_first env fuel _).1 c h0]; simp
  | error e =>
    obtain ⟨x, s, rfl⟩ := h e h0
    rw [(C33_first env fuel _).2 x s h0]; simp


theorem char_runs {c : Char} {m : Nat} (h : ∀ i, flag m i = false) :
    ∃ v b, (mapJob (ε := ε) flag dbg key i).d.execute (mapJob (ε := ε) flag dbg key i).op c m = .ok v ∧ (mapJob (ε := ε) flag dbg key i).d.outC.enc kt v = .ok b := by
  have hv : (mapJob (ε := ε) flag dbg key i).d.execute (mapJob (ε := ε) flag dbg key i).op c m = .ok (charStr c) := by
    change charToString (ε := ε) flag dbg c m = _
    unfold charToString
    rw [List.find?_eq_none.2 (by simp [h])]
    rfl
  obtain ⟨b, hb⟩ := codec_enc (ε := ε) (k := kt) (a := charStr c) (by
    have := str_short kt (charStr c)
    have h3 : (charStr c).1.utf8ByteSize ≤ 4 := by have := Char.utf8Size_le_four c; simp [charStr]; omega
    omega)
  exact ⟨_, b, hv, hb⟩

theorem char_enc {c : Char} : ∃ b, (codec (ε := ε) Char).enc kt c = .ok b := codec_enc (Nat.lt_of_le_of_lt (char_short kt c) (by decide))

theorem unit_enc : ∃ b, (codec (ε := ε) Unit).enc kt () = .ok b := codec_enc (unit_short kt)

theorem pair_enc {a b : Str} (h : (a.1 ++ b.1).utf8ByteSize < 2 ^ 63) : ∃ c, (codec (ε := ε) (Str × Str)).enc kt (a, b) = .ok c := codec_enc (by
  have := pair_short kt a b
  rw [String.utf8ByteSize_append] at h
  omega)

/-! ## Streams -/

theorem mem_oks {l : List (MapS.Item β ε)} {p : Nat × β} : p ∈ MapS.oks l ↔ .ok p ∈ l := by
  induction l with
  | nil => simp [MapS.oks]
  | cons x l ih => cases x <;> simp [MapS.oks, ih]

theorem of_mem_map_ok {l : List (Nat × β)} {p : Nat × β} (h : (Except.ok p : MapS.Item β ε) ∈ l.map .ok) : p ∈ l := by simpa using h

theorem oks_prefix {l l' : List (MapS.Item β ε)} (h : l <+: l') : MapS.oks l <+: MapS.oks l' := by
  obtain ⟨r, rfl⟩ := h
  exact ⟨_, (MapS.oks_append _ _).symm⟩

theorem reads_err {ls : List (Fold.Label β ε ω)} {e : ε} (h : .inputErr e ∈ ls) : .error e ∈ Fold.reads ls := by
  induction ls with
  | nil => simp at h
  | cons x ls ih =>
    rcases List.mem_cons.1 h with rfl | h
    · simp [Fold.reads]
    · have := ih h
      cases x <;> simp [Fold.reads, this]

theorem indexed_fst (st : Nat) (xs : List β) : (indexed st xs).map (·.1) = List.range' st xs.length := by
  induction xs generalizing st with
  | nil => rfl
  | cons x xs ih => simp [indexed, List.range'_succ, ih]

theorem nodup_of_reads {l : List (MapS.Item β ε)} {xs : List β} (h : l <+: (indexed 0 xs).map .ok) : ((MapS.oks l).map (·.1)).Nodup := by
  have := oks_prefix h
  rw [MapS.oks_map_ok] at this
  refine (this.sublist.map _).nodup ?_
  rw [indexed_fst]
  exact List.nodup_range'

theorem digits_size {n : Nat} (h : n ≤ 9) : (toString n).utf8ByteSize = 1 := by
  have : n = 0 ∨ n = 1 ∨ n = 2 ∨ n = 3 ∨ n = 4 ∨ n = 5 ∨ n = 6 ∨ n = 7 ∨ n = 8 ∨ n = 9 := by omega
  rcases this with rfl | rfl | rfl | rfl | rfl | rfl | rfl | rfl | rfl | rfl <;> decide +kernel

theorem size_four {a b c d e : String} (ha : a.utf8ByteSize = 23) (hb : b.utf8ByteSize = 46) (hc : c.utf8ByteSize = 1) (hd : d.utf8ByteSize = 11) (he : e.utf8ByteSize ≤ 12) :
    (a ++ (b ++ c ++ d ++ e)).utf8ByteSize < 2 ^ 64 := by
  simp only [String.utf8ByteSize_append]
  omega

theorem fatalText {dbg : Char → String} {c : Char} {n : Nat} (hd : (dbg c).utf8ByteSize ≤ 12) (hn : n ≤ 9) :
    (toStr ("Fatal operation error: " ++ abortText dbg c n)).1 = "Fatal operation error: aborted per request at CharToString iteration " ++ toString n ++ " for input " ++ dbg c := by
  have hlt : ("Fatal operation error: " ++ abortText dbg c n).utf8ByteSize < 2 ^ 64 := size_four (by decide +kernel) (by decide +kernel) (digits_size hn) (by decide +kernel) hd
  have : (toStr ("Fatal operation error: " ++ abortText dbg c n)).1 = "Fatal operation error: " ++ abortText dbg c n := if_pos hlt
  rw [this]
  have h1 : "Fatal operation error: aborted per request at CharToString iteration " = "Fatal operation error: " ++ "aborted per request at CharToString iteration " := by decide +kernel
  rw [h1]
  unfold abortText
  rw [String.append_assoc, String.append_assoc, String.append_assoc, String.append_assoc, String.append_assoc]

/-! ## Pieces of the input -/

theorem indexed_get {cs : List Char} {st j : Nat} {c : Char} (h : (j, c) ∈ indexed st cs) : st ≤ j ∧ cs[j - st]? = some c := by
  induction cs generalizing st with
  | nil => simp [indexed] at h
  | cons d cs ih =>
    simp only [indexed, List.mem_cons, Prod.mk.injEq] at h
    rcases h with ⟨rfl, rfl⟩ | h
    · simp
    · obtain ⟨h1, h2⟩ := ih h
      refine ⟨by omega, ?_⟩
      rw [show j - st = (j - (st + 1)) + 1 by omega, List.getElem?_cons_succ]
      exact h2

/-- Neighbouring images of characters of the input are the images of a piece of it. -/
theorem piece {cs : List Char} {zs : List Str} {st : Nat} (h : ∀ p ∈ indexed st zs, ∃ c, (p.1, c) ∈ indexed 0 cs ∧ p.2 = charStr c) :
    zs = ((cs.drop st).take zs.length).map charStr := by
  induction zs generalizing st with
  | nil => simp
  | cons z zs ih =>
    obtain ⟨c, h1, h2⟩ := h (st, z) (by simp [indexed])
    obtain ⟨-, h1⟩ := indexed_get h1
    simp only [Nat.sub_zero] at h1
    have hlt := (List.getElem?_eq_some_iff.1 h1)
    obtain ⟨hlt, hc⟩ := hlt
    have ih := ih (st := st + 1) fun p hp => h p (by simp [indexed, hp])
    rw [List.drop_eq_getElem_cons hlt, hc, List.length_cons, List.take_succ_cons, List.map_cons, ← ih]
    simp only at h2
    rw [h2]

theorem indexed_image {cs : List Char} {st : Nat} {p : Nat × Str} (h : p ∈ indexed st (cs.map charStr)) : ∃ c, (p.1, c) ∈ indexed st cs ∧ p.2 = charStr c := by
  induction cs generalizing st with
  | nil => simp [indexed] at h
  | cons d cs ih =>
    simp only [List.map_cons, indexed, List.mem_cons] at h
    rcases h with rfl | h
    · exact ⟨d, by simp [indexed], rfl⟩
    · obtain ⟨c, h1, h2⟩ := ih h
      exact ⟨c, by simp [indexed, h1], h2⟩

theorem length_le_size (s : String) : s.length ≤ s.utf8ByteSize := by
  have h : ∀ cs : List Char, cs.length ≤ (String.ofList cs).utf8ByteSize := by
    intro cs
    induction cs with
    | nil => simp
    | cons c cs ih =>
      have hc := Char.utf8Size_pos c
      rw [show c :: cs = [c] ++ cs from rfl, String.ofList_append, String.utf8ByteSize_append]
      have : (String.ofList [c]).utf8ByteSize = c.utf8Size := by
        rw [show String.ofList [c] = String.singleton c from rfl]; simp
      simp
      omega
  have := h s.toList
  rw [String.ofList_toList] at this
  exact this

theorem piece_size {input : String} {st n : Nat} {x : String} (h : x.toList = (input.toList.drop st).take n) : x.utf8ByteSize ≤ input.utf8ByteSize := by
  have hx : x = String.ofList ((input.toList.drop st).take n) := by rw [← h]; simp
  have hi : input = String.ofList (input.toList.take st) ++ (String.ofList ((input.toList.drop st).take n) ++ String.ofList ((input.toList.drop st).drop n)) := by
    rw [← String.ofList_append, ← String.ofList_append, List.take_append_drop, List.take_append_drop]; simp
  rw [hx]
  conv => rhs; rw [hi]
  simp only [String.utf8ByteSize_append]
  omega

theorem combine_size {input : String} {zs zs' : List Str} {st : Nat} {u v : Str} (h1 : Tree (foldJob (ε := ε) key i).Gives zs u) (h2 : Tree (foldJob (ε := ε) key i).Gives zs' v)
    (h : ∀ p ∈ indexed st (zs ++ zs'), ∃ c, (p.1, c) ∈ indexed 0 input.toList ∧ p.2 = charStr c) : (u.1 ++ v.1).utf8ByteSize ≤ input.utf8ByteSize := by
  refine piece_size (st := st) (n := (zs ++ zs').length) ?_
  have := piece h
  rw [String.toList_append, tree_concat h1, tree_concat h2, ← List.flatMap_append]
  conv => lhs; rw [this]
  exact flat_chars _

end
end Hello
end Paladin
