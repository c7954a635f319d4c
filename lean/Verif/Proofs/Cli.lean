import Verif.Spec.Cli
/-!
# Command lines: the parser and the grammar
-/
namespace Paladin
namespace Cli
open Setup

theorem ofLong_name (o : Opt) : ofLong (longName o) = some o := by cases o <;> decide

theorem ofLong_eq {n : Tok} {o : Opt} (h : ofLong n = some o) : n = longName o := by
  have := List.find?_some h
  simp only [beq_iff_eq] at this
  rw [← this]; cases o <;> rfl

theorem ofShort_name {o : Opt} {c : Char} (h : shortName o = some c) : ofShort c = some o := by
  cases o <;> simp only [shortName, Option.some.injEq, reduceCtorEq] at h <;> subst h <;> decide

theorem ofShort_eq {c : Char} {o : Opt} (h : ofShort c = some o) : shortName o = some c := by
  have := List.find?_some h
  simp only [beq_iff_eq] at this
  rw [← this]; cases o <;> rfl

theorem long_noEq (o : Opt) : ∀ x ∈ longName o, (x != '=') = true := by cases o <;> decide

theorem take_long (o : Opt) (v : Tok) : (longName o ++ '=' :: v).takeWhile (· != '=') = longName o := by
  rw [List.takeWhile_append_of_pos (long_noEq o)]; simp

theorem drop_long (o : Opt) (v : Tok) : (longName o ++ '=' :: v).dropWhile (· != '=') = '=' :: v := by
  rw [List.dropWhile_append_of_pos (long_noEq o)]; simp

theorem take_long' (o : Opt) : (longName o).takeWhile (· != '=') = longName o := by cases o <;> decide
theorem drop_long' (o : Opt) : (longName o).dropWhile (· != '=') = [] := by cases o <;> decide

theorem isValue_iff {v : Tok} : isValue v = true ↔ v.head? ≠ some '-' ∨ v = ['-'] := by
  simp [isValue]

theorem long_ne (o : Opt) : longName o ≠ [] := by cases o <;> decide

theorem short_ne {o : Opt} {c : Char} (h : shortName o = some c) : c ≠ '-' := by
  cases o <;> simp only [shortName, Option.some.injEq, reduceCtorEq] at h <;> subst h <;> decide

theorem lex_arg {o : Opt} {v : Tok} {ts : List Tok} (h : Arg o v ts) (args : List Tok) : lex (ts ++ args) = (lex args).map ((o, v) :: ·) := by
  cases h with
  | longEq =>
    simp only [List.cons_append, List.nil_append, List.append_assoc]
    rw [lex, if_neg (by simp), take_long, ofLong_name]
    simp only [drop_long]
  | longSep _ h =>
    simp only [List.cons_append, List.nil_append]
    rw [lex, if_neg (long_ne o), take_long', ofLong_name]
    simp only [drop_long', isValue_iff.2 h, if_true]
  | shortEq c _ hc =>
    simp only [List.cons_append, List.nil_append]
    rw [lex, ofShort_name hc]
    · rfl
    · exact short_ne hc
  | shortGlued c _ hc h h' =>
    simp only [List.cons_append, List.nil_append]
    rw [lex, ofShort_name hc]
    · cases v with
      | nil => exact absurd rfl h
      | cons x v =>
        have : x ≠ '=' := by simpa using h'
        simp only
        split
        · rename_i heq; cases heq
        · rename_i heq; exact absurd (List.cons.inj heq).1 this
        · rfl
    · exact short_ne hc
  | shortSep c _ hc h =>
    simp only [List.cons_append, List.nil_append]
    rw [lex, ofShort_name hc]
    · simp only [isValue_iff.2 h, if_true]
    · exact short_ne hc

theorem lex_written {occ : List (Opt × Tok)} {args : List Tok} (h : Written occ args) : lex args = some occ := by
  induction h with
  | nil => rfl
  | stop => rfl
  | cons h _ ih => rw [lex_arg h, ih]; rfl

theorem written_map {o : Opt} {v : Tok} {ts args : List Tok} {occ : List (Opt × Tok)} (ha : Arg o v ts) (ih : ∀ {occ : List (Opt × Tok)}, lex args = some occ → Written occ args)
    (h : (lex args).map ((o, v) :: ·) = some occ) : Written occ (ts ++ args) := by
  cases hl : lex args with
  | none => rw [hl] at h; cases h
  | some r =>
    rw [hl] at h
    cases h
    exact .cons ha (ih hl)

theorem drop_eq {b : Tok} {x : Char} {v : Tok} (h : b.dropWhile (· != '=') = x :: v) : x = '=' := by
  have := List.head?_dropWhile_not (· != '=') b
  rw [h] at this
  simpa using this

theorem split_eq (b : Tok) : b = b.takeWhile (· != '=') ++ b.dropWhile (· != '=') := (List.takeWhile_append_dropWhile ..).symm

theorem written_lex : ∀ (n : Nat) {args : List Tok} {occ : List (Opt × Tok)}, args.length ≤ n → lex args = some occ → Written occ args
  | n, [], occ, _, h => by cases h; exact .nil
  | 0, _ :: _, _, hn, _ => by simp at hn
  | n + 1, t :: ts, occ, hn, h => by
    have hts : ts.length ≤ n := by simpa using hn
    unfold lex at h
    split at h
    · rename_i heq; cases heq
    · rename_i body ts' heq
      cases heq
      split at h
      · rename_i hb
        subst hb
        split at h
        · rename_i hb; subst hb; cases h; exact .stop
        · cases h
      · split at h
        · cases h
        · rename_i o ho
          have hlong := ofLong_eq ho
          have hbody := split_eq body
          rw [hlong] at hbody
          split at h
          · rename_i x v hd
            rw [hd, drop_eq hd] at hbody
            have := written_map (.longEq o v) (written_lex n hts) h
            simpa [hbody] using this
          · rename_i hd
            rw [hd, List.append_nil] at hbody
            split at h
            · cases h
            · rename_i v ts'
              split at h
              · rename_i hv
                have := written_map (.longSep o v (isValue_iff.1 hv)) (written_lex n (by simp at hts; omega)) h
                simpa [hbody] using this
              · cases h
    · rename_i c rest ts' hne heq
      cases heq
      split at h
      · cases h
      · rename_i o ho
        have hc := ofShort_eq ho
        split at h
        · split at h
          · cases h
          · rename_i v ts'
            split at h
            · rename_i hv
              exact written_map (.shortSep o c v hc (isValue_iff.1 hv)) (written_lex n (by simp at hts; omega)) h
            · cases h
        · rename_i v
          exact written_map (.shortEq o c v hc) (written_lex n hts) h
        · rename_i h1 h2
          refine written_map (.shortGlued o c _ hc h1 ?_) (written_lex n hts) h
          intro e
          cases rest with
          | nil => cases e
          | cons x v => simp at e; exact h2 v (by rw [e])
    · cases h

theorem lex_iff {args : List Tok} {occ : List (Opt × Tok)} : lex args = some occ ↔ Written occ args :=
  ⟨written_lex _ (Nat.le_refl _), lex_written⟩

theorem written_unique {args : List Tok} {o1 o2 : List (Opt × Tok)} (h1 : Written o1 args) (h2 : Written o2 args) : o1 = o2 :=
  Option.some.inj ((lex_written h1).symm.trans (lex_written h2))

theorem once_iff {occ : List (Opt × Tok)} : (occ.map Prod.fst).Nodup ↔ Once occ := by
  rw [List.Nodup, List.pairwise_map]; rfl

theorem lookup_iff : ∀ {occ : List (Opt × Tok)}, Once occ → ∀ {o : Opt} {v : Tok}, occ.lookup o = some v ↔ (o, v) ∈ occ
  | [], _, o, v => by simp
  | (p, w) :: occ, h, o, v => by
    have h' := List.pairwise_cons.1 h
    rw [List.lookup_cons]
    by_cases e : o = p
    · subst e
      simp only [beq_self_eq_true, Option.some.injEq, List.mem_cons, Prod.mk.injEq, true_and]
      exact ⟨fun e => .inl e.symm, fun g => g.elim (fun e => e.symm) fun g => absurd rfl (h'.1 (o, v) g)⟩
    · simp only [beq_eq_false_iff_ne.2 e, List.mem_cons, Prod.mk.injEq, e, false_and, false_or]
      exact lookup_iff h'.2

theorem lookup_none : ∀ {occ : List (Opt × Tok)} {o : Opt}, occ.lookup o = none ↔ ∀ w, (o, w) ∉ occ
  | [], o => by simp
  | (p, w) :: occ, o => by
    rw [List.lookup_cons]
    by_cases e : o = p
    · subst e
      simp only [beq_self_eq_true, reduceCtorEq, false_iff]
      exact fun h => h w List.mem_cons_self
    · simp only [beq_eq_false_iff_ne.2 e, List.mem_cons, Prod.mk.injEq, e, false_and, false_or]
      exact lookup_none

theorem var_eq (o : Opt) : var o = varName o := by cases o <;> rfl

theorem given_iff {occ : List (Opt × Tok)} (h : Once occ) {env : String → Option Tok} {o : Opt} {v : Tok} : given occ env o = some v ↔ Said occ env o v := by
  unfold given
  rw [var_eq]
  constructor
  · intro e
    split at e
    · rename_i w hw
      cases e
      exact .args ((lookup_iff h).1 hw)
    · rename_i hw
      exact .env (lookup_none.1 hw) e
  · rintro (h1 | ⟨h1, h2⟩)
    · rw [(lookup_iff h).2 h1]
    · rw [lookup_none.2 h1]; exact h2

theorem given_none {occ : List (Opt × Tok)} (h : Once occ) {env : String → Option Tok} {o : Opt} : given occ env o = none ↔ Unsaid occ env o := by
  constructor
  · intro e v hv
    rw [(given_iff h).2 hv] at e; cases e
  · intro hu
    cases e : given occ env o with
    | none => rfl
    | some v => exact absurd ((given_iff h).1 e) (hu v)

theorem readSer_iff {v : Tok} {x : Ser} : readSer v = some x ↔ SerName v x := by
  unfold readSer
  constructor
  · intro h
    split at h
    · rename_i e; cases h; rw [e]; exact .postcard
    · split at h
      · rename_i e; cases h; rw [e]; exact .cbor
      · cases h
  · rintro (_ | _) <;> rfl

theorem readKind_iff {v : Tok} {x : Kind} : readKind v = some x ↔ KindName v x := by
  unfold readKind
  constructor
  · intro h
    split at h
    · rename_i e; cases h; rw [e]; exact .amqp
    · split at h
      · rename_i e; cases h; rw [e]; exact .inMemory
      · cases h
  · rintro (_ | _) <;> rfl

theorem number_eq (ds : Tok) : Nat.ofDigitChars 10 ds 0 = number ds := by
  simp only [Nat.ofDigitChars, number]
  congr 1
  funext n c
  rw [Nat.mul_comm]

theorem readDigits_iff {ds : Tok} {n : Nat} : readDigits ds = some n ↔ ds ≠ [] ∧ (∀ c ∈ ds, c.isDigit = true) ∧ number ds < 2 ^ 64 ∧ n = number ds := by
  unfold readDigits
  rw [number_eq]
  constructor
  · intro h
    split at h
    · rename_i hc
      exact ⟨hc.1, List.all_eq_true.1 hc.2.1, hc.2.2, (Option.some.inj h).symm⟩
    · cases h
  · rintro ⟨h, hd, hb, rfl⟩
    rw [if_pos ⟨h, List.all_eq_true.2 hd, hb⟩]

theorem readUsize_iff {v : Tok} {n : Nat} : readUsize v = some n ↔ Number v n := by
  unfold readUsize
  constructor
  · intro h
    split at h
    · obtain ⟨h1, h2, h3, rfl⟩ := readDigits_iff.1 h
      exact .plus h1 h2 h3
    · obtain ⟨h1, h2, h3, rfl⟩ := readDigits_iff.1 h
      exact .plain h1 h2 h3
  · intro h
    cases h with
    | plain h hd hb =>
      split
      · exact absurd (hd _ List.mem_cons_self) (by decide)
      · exact readDigits_iff.2 ⟨h, hd, hb, rfl⟩
    | plus h hd hb => exact readDigits_iff.2 ⟨h, hd, hb, rfl⟩

theorem parse_iff {args : List Tok} {env : String → Option Tok} {c : Config} :
    parse args env = some c ↔
    ∃ occ, Written occ args ∧ Once occ ∧ ¬ (Said occ env .runtime "amqp".toList ∧ Unsaid occ env .amqpUri) ∧ Says occ env c := by
  unfold parse
  constructor
  · intro h
    split at h
    · cases h
    · rename_i occ hl
      split at h
      · cases h
      · rename_i hn
        have ho : Once occ := once_iff.1 (Classical.not_not.1 hn)
        split at h
        · cases h
        · rename_i hreq
          rw [given_iff ho, given_none ho] at hreq
          split at h
          · rename_i ser kind n h1 h2 h3
            cases h
            refine ⟨occ, lex_iff.1 hl, ho, hreq, ⟨?_, ?_, ?_, ?_, ?_⟩⟩
            · cases hg : given occ env .serializer with
              | none => rw [hg] at h1; cases h1; exact .inr ⟨(given_none ho).1 hg, rfl⟩
              | some v =>
                rw [hg] at h1
                obtain ⟨x, hx, rfl⟩ := Option.map_eq_some_iff.1 h1
                exact .inl ⟨v, (given_iff ho).1 hg, readSer_iff.1 hx⟩
            · cases hg : given occ env .runtime with
              | none => rw [hg] at h2; cases h2; exact .inr ⟨(given_none ho).1 hg, rfl⟩
              | some v =>
                rw [hg] at h2
                obtain ⟨x, hx, rfl⟩ := Option.map_eq_some_iff.1 h2
                exact .inl ⟨v, (given_iff ho).1 hg, readKind_iff.1 hx⟩
            · cases hg : given occ env .numWorkers with
              | none => rw [hg] at h3; cases h3; exact .inr ⟨(given_none ho).1 hg, rfl⟩
              | some v =>
                rw [hg] at h3
                obtain ⟨x, hx, rfl⟩ := Option.map_eq_some_iff.1 h3
                exact .inl ⟨v, x, (given_iff ho).1 hg, readUsize_iff.1 hx, rfl⟩
            · cases hg : given occ env .amqpUri with
              | none => exact .inr ⟨(given_none ho).1 hg, rfl⟩
              | some v => exact .inl ⟨v, (given_iff ho).1 hg, rfl⟩
            · cases hg : given occ env .taskKey with
              | none => exact .inr ⟨(given_none ho).1 hg, rfl⟩
              | some v => exact .inl ⟨v, (given_iff ho).1 hg, rfl⟩
          · cases h
  · rintro ⟨occ, hw, ho, hreq, hs⟩
    rw [lex_written hw]
    dsimp only
    rw [if_neg (Classical.not_not.2 (once_iff.2 ho)), if_neg (by rw [given_iff ho, given_none ho]; exact hreq)]
    obtain ⟨c1, c2, c3, c4, c5⟩ := c
    obtain ⟨h1, h2, h3, h4, h5⟩ := hs
    have e1 : ∃ x, optional readSer (given occ env .serializer) = some x ∧ x.getD .postcard = c1 := by
      rcases h1 with ⟨v, h, h'⟩ | ⟨h, h'⟩
      · exact ⟨some c1, by rw [(given_iff ho).2 h]; simp [optional, readSer_iff.2 h'], rfl⟩
      · exact ⟨none, by rw [(given_none ho).2 h]; rfl, h'.symm⟩
    have e2 : ∃ x, optional readKind (given occ env .runtime) = some x ∧ x.getD .amqp = c2 := by
      rcases h2 with ⟨v, h, h'⟩ | ⟨h, h'⟩
      · exact ⟨some c2, by rw [(given_iff ho).2 h]; simp [optional, readKind_iff.2 h'], rfl⟩
      · exact ⟨none, by rw [(given_none ho).2 h]; rfl, h'.symm⟩
    have e3 : optional readUsize (given occ env .numWorkers) = some c3 := by
      rcases h3 with ⟨v, n, h, h', h''⟩ | ⟨h, h'⟩
      · rw [(given_iff ho).2 h]; simp only at h''; simp [optional, readUsize_iff.2 h', h'']
      · rw [(given_none ho).2 h]; simp only at h'; rw [h']; rfl
    have e4 : (given occ env .amqpUri).map String.ofList = c4 := by
      rcases h4 with ⟨v, h, h'⟩ | ⟨h, h'⟩
      · rw [(given_iff ho).2 h]; exact h'.symm
      · rw [(given_none ho).2 h]; exact h'.symm
    have e5 : (given occ env .taskKey).map String.ofList = c5 := by
      rcases h5 with ⟨v, h, h'⟩ | ⟨h, h'⟩
      · rw [(given_iff ho).2 h]; exact h'.symm
      · rw [(given_none ho).2 h]; exact h'.symm
    obtain ⟨x1, e1, f1⟩ := e1
    obtain ⟨x2, e2, f2⟩ := e2
    rw [e1, e2, e3, e4, e5]
    simp only [f1, f2]

theorem unsaid_congr {occ occ' : List (Opt × Tok)} {env env' : String → Option Tok} (h : ∀ o v, Said occ env o v ↔ Said occ' env' o v) (o : Opt) : Unsaid occ env o ↔ Unsaid occ' env' o := by
  simp only [Unsaid, h]

theorem says_congr {occ occ' : List (Opt × Tok)} {env env' : String → Option Tok} (h : ∀ o v, Said occ env o v ↔ Said occ' env' o v) {c : Config} : Says occ env c ↔ Says occ' env' c := by
  constructor
  · rintro ⟨h1, h2, h3, h4, h5⟩
    simp only [h, unsaid_congr h] at h1 h2 h3 h4 h5
    exact ⟨h1, h2, h3, h4, h5⟩
  · rintro ⟨h1, h2, h3, h4, h5⟩
    simp only [← h, ← unsaid_congr h] at h1 h2 h3 h4 h5
    exact ⟨h1, h2, h3, h4, h5⟩

theorem parse_congr {occ occ' : List (Opt × Tok)} {args args' : List Tok} {env env' : String → Option Tok} (hw : Written occ args) (hw' : Written occ' args') (hO : Once occ ↔ Once occ')
    (h : ∀ o v, Said occ env o v ↔ Said occ' env' o v) : parse args env = parse args' env' := by
  apply Option.ext
  intro c
  rw [parse_iff, parse_iff]
  constructor
  · rintro ⟨o1, h1, h2, h3, h4⟩
    cases written_unique h1 hw
    exact ⟨occ', hw', hO.1 h2, by rw [← h, ← unsaid_congr h]; exact h3, (says_congr h).1 h4⟩
  · rintro ⟨o1, h1, h2, h3, h4⟩
    cases written_unique h1 hw'
    exact ⟨occ, hw, hO.2 h2, by rw [h, unsaid_congr h]; exact h3, (says_congr h).2 h4⟩

theorem said_perm {occ occ' : List (Opt × Tok)} (hp : occ.Perm occ') {env : String → Option Tok} {o : Opt} {v : Tok} (h : Said occ env o v) : Said occ' env o v := by
  rcases h with h | ⟨h, he⟩
  · exact .args (hp.mem_iff.1 h)
  · exact .env (fun w hw => h w (hp.mem_iff.2 hw)) he

theorem once_perm {occ occ' : List (Opt × Tok)} (hp : occ.Perm occ') : Once occ ↔ Once occ' :=
  hp.pairwise_iff fun h => h.symm

theorem said_env {occ : List (Opt × Tok)} {env env' : String → Option Tok} (he : ∀ o, (∀ w, (o, w) ∉ occ) → env (varName o) = env' (varName o)) {o : Opt} {v : Tok} (h : Said occ env o v) :
    Said occ env' o v := by
  rcases h with h | ⟨h, h'⟩
  · exact .args h
  · exact .env h (he o h ▸ h')

/-- The options that a configuration needs, each with its value. -/
def options (c : Config) : List (Opt × Tok) :=
  (.serializer, match c.serializer with | .postcard => "postcard".toList | .cbor => "cbor".toList) ::
  (.runtime, match c.runtime with | .amqp => "amqp".toList | .inMemory => "in-memory".toList) ::
  ((c.numWorkers.map fun n => (Opt.numWorkers, Nat.toDigits 10 n)).toList ++
   ((c.amqpUri.map fun u => (Opt.amqpUri, u.toList)).toList ++ (c.taskKey.map fun u => (Opt.taskKey, u.toList)).toList))

/-- A command line with these options. -/
def render (occ : List (Opt × Tok)) : List Tok := occ.map fun x => ['-', '-'] ++ longName x.1 ++ ['='] ++ x.2

theorem written_render : ∀ occ : List (Opt × Tok), Written occ (render occ)
  | [] => .nil
  | (o, v) :: occ => .cons (.longEq o v) (written_render occ)

theorem once_options (c : Config) : Once (options c) := by
  rcases c with ⟨a, b, n, u, k⟩
  cases n <;> cases u <;> cases k <;> simp [options, Once]

theorem number_digits {n : Nat} (h : n < 2 ^ 64) : Number (Nat.toDigits 10 n) n := by
  have e : number (Nat.toDigits 10 n) = n := by rw [← number_eq, Nat.ofDigitChars_toDigits (by decide) (by decide)]
  have := Number.plain (ds := Nat.toDigits 10 n) Nat.toDigits_ne_nil (fun c hc => Nat.isDigit_of_mem_toDigits (by decide) (by decide) hc) (by rw [e]; exact h)
  rwa [e] at this

theorem says_options {c : Config} (hn : ∀ n, c.numWorkers = some n → n < 2 ^ 64) {env : String → Option Tok} (h1 : c.numWorkers = none → env "PALADIN_NUM_WORKERS" = none)
    (h2 : c.amqpUri = none → env "PALADIN_AMQP_URI" = none) (h3 : c.taskKey = none → env "PALADIN_TASK_BUS_ROUTING_KEY" = none) : Says (options c) env c := by
  have hun : ∀ o, (∀ w, (o, w) ∉ options c) → env (varName o) = none → Unsaid (options c) env o := by
    intro o hw he v hv
    rcases hv with h | ⟨_, h⟩
    · exact hw _ h
    · rw [he] at h; cases h
  rcases c with ⟨a, b, n, u, k⟩
  refine ⟨.inl ⟨_, .args List.mem_cons_self, ?_⟩, .inl ⟨_, .args (List.mem_cons_of_mem _ List.mem_cons_self), ?_⟩, ?_, ?_, ?_⟩
  · cases a <;> constructor
  · cases b <;> constructor
  · cases n with
    | none => exact .inr ⟨hun _ (by cases u <;> cases k <;> simp [options]) (h1 rfl), rfl⟩
    | some n => exact .inl ⟨_, n, .args (v := Nat.toDigits 10 n) (by simp [options]), number_digits (hn n rfl), rfl⟩
  · cases u with
    | none => exact .inr ⟨hun _ (by cases n <;> cases k <;> simp [options]) (h2 rfl), rfl⟩
    | some u => exact .inl ⟨u.toList, .args (by simp [options]), by simp⟩
  · cases k with
    | none => exact .inr ⟨hun _ (by cases n <;> cases u <;> simp [options]) (h3 rfl), rfl⟩
    | some k => exact .inl ⟨k.toList, .args (by simp [options]), by simp⟩

end Cli
end Paladin
