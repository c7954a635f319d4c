import Verif.Proofs.Cli
import Verif.Props.Setup
/-!
# C83: configurations read from the command line and the environment
-/
namespace Paladin
namespace Cli
open Setup

/-- C83: the program gets a configuration exactly if its arguments are well-formed, give no option twice, and do not ask for `amqp` without an address; the configuration then is the one they describe together with the
environment, field by field. -/
theorem C83_reads {args : List Tok} {env : String → Option Tok} {c : Config} :
    parse args env = some c ↔
    ∃ occ, Written occ args ∧ Once occ ∧ ¬ (Said occ env .runtime "amqp".toList ∧ Unsaid occ env .amqpUri) ∧ Says occ env c := parse_iff

/-- C83: no arguments can be read in two ways. -/
theorem C83_unambiguous {args : List Tok} {occ occ' : List (Opt × Tok)} (h : Written occ args) (h' : Written occ' args) : occ = occ' := written_unique h h'

/-- C83: neither the order of the options nor the way each is written matters. -/
theorem C83_order {occ occ' : List (Opt × Tok)} {args args' : List Tok} (hw : Written occ args) (hw' : Written occ' args') (hp : occ.Perm occ') (env : String → Option Tok) :
    parse args env = parse args' env :=
  parse_congr hw hw' (once_perm hp) fun _ _ => ⟨said_perm hp, said_perm hp.symm⟩

/-- C83: the variable of an option that is on the command line does not matter, whatever it holds; nor does any variable but the five. -/
theorem C83_precedence {occ : List (Opt × Tok)} {args : List Tok} (hw : Written occ args) {env env' : String → Option Tok} (he : ∀ o, (∀ w, (o, w) ∉ occ) → env (varName o) = env' (varName o)) :
    parse args env = parse args env' :=
  parse_congr hw hw Iff.rfl fun _ _ => ⟨said_env he, said_env fun o h => (he o h).symm⟩

/-- C83: every configuration (that has an address if it is for a broker) can be given on the command line, whatever characters it is made of, as long as the variables of the options it leaves out are not set. -/
theorem C83_expressible (c : Config) (hu : c.runtime = .amqp → c.amqpUri ≠ none) (hn : ∀ n, c.numWorkers = some n → n < 2 ^ 64) :
    ∃ args, ∀ env : String → Option Tok, (c.numWorkers = none → env "PALADIN_NUM_WORKERS" = none) → (c.amqpUri = none → env "PALADIN_AMQP_URI" = none) →
      (c.taskKey = none → env "PALADIN_TASK_BUS_ROUTING_KEY" = none) → parse args env = some c := by
  refine ⟨render (options c), fun env h1 h2 h3 => parse_iff.2 ⟨options c, written_render _, once_options c, ?_, says_options hn h1 h2 h3⟩⟩
  rintro ⟨hs, hun⟩
  cases hc : c.amqpUri with
  | some u => exact hun u.toList (.args (by simp [options, hc]))
  | none =>
    cases hr : c.runtime with
    | amqp => exact hu hr hc
    | inMemory =>
      rcases hs with h | ⟨h, _⟩
      · simp [options, hr] at h
      · exact h _ (List.mem_cons_of_mem _ List.mem_cons_self)

/-- C83: exactly when starting panics with a configuration that was read: neither a runtime nor an address has been given anywhere. -/
theorem C83_panics_iff {args : List Tok} {env : String → Option Tok} {c : Config} (hp : parse args env = some c) {occ : List (Opt × Tok)} (hw : Written occ args) (reachable : String → Bool) (n : Nat) :
    (∃ why, connect reachable n c = .panic why) ↔ Unsaid occ env .runtime ∧ Unsaid occ env .amqpUri := by
  obtain ⟨occ', hw', _, hreq, hs⟩ := parse_iff.1 hp
  cases written_unique hw hw'
  rw [(C77_start n c).1]
  constructor
  · rintro ⟨h1, h2⟩
    have hu : Unsaid occ env .amqpUri := by
      rcases hs.amqpUri with ⟨v, _, hv⟩ | ⟨h, _⟩
      · rw [h2] at hv; cases hv
      · exact h
    refine ⟨?_, hu⟩
    rcases hs.runtime with ⟨v, hv, hk⟩ | ⟨h, _⟩
    · rw [h1] at hk
      cases hk
      exact absurd ⟨hv, hu⟩ hreq
    · exact h
  · rintro ⟨h1, h2⟩
    constructor
    · rcases hs.runtime with ⟨v, hv, _⟩ | ⟨_, h⟩
      · exact absurd hv (h1 v)
      · exact h
    · rcases hs.amqpUri with ⟨v, hv, _⟩ | ⟨_, h⟩
      · exact absurd hv (h2 v)
      · exact h

/-- C83, the last sentence as far as it is true: if the user has given a runtime, a configuration that was read does not make starting panic. Missing: it does when neither a runtime nor an address was given (`C83_panic_witness`). -/
theorem C83_no_panic_partial {args : List Tok} {env : String → Option Tok} {c : Config} (hp : parse args env = some c) {occ : List (Opt × Tok)} (hw : Written occ args)
    (hr : ∃ v, Said occ env .runtime v) (reachable : String → Bool) (n : Nat) : ∀ why, connect reachable n c ≠ .panic why := by
  intro why h
  obtain ⟨v, hv⟩ := hr
  exact ((C83_panics_iff hp hw reachable n).1 ⟨why, h⟩).1 v hv

/-- C83, negative part: a command line without runtime and address is accepted, though the runtime it stands for needs an address; starting panics, as worker and as leader. -/
theorem C83_panic_witness (reachable : String → Bool) (n : Nat) :
    parse ["--serializer".toList, "cbor".toList] (fun _ => none) = some { serializer := .cbor } ∧
    connect reachable n { serializer := .cbor } = .panic "amqp_uri is required" ∧
    parse ["--serializer".toList, "cbor".toList, "--runtime=amqp".toList] (fun _ => none) = none :=
  ⟨by decide +kernel, rfl, by decide +kernel⟩

/-- A case for the theorems above: options in several styles, an address that begins with a hyphen, a variable that is overruled and holds nonsense, and one that is used. -/
example :
    parse ["-scbor".toList, "--runtime".toList, "amqp".toList, "--amqp-uri=-x=y".toList, "-n=+07".toList, "--".toList]
      (fun x => if x = "PALADIN_SERIALIZER" then some "yaml".toList else if x = "PALADIN_TASK_BUS_ROUTING_KEY" then some "bus".toList else none) =
    some { serializer := .cbor, runtime := .amqp, numWorkers := some 7, amqpUri := some "-x=y", taskKey := some "bus" } := by decide +kernel

/-- Written the first way. -/
example : Written [(.serializer, "cbor".toList), (.amqpUri, "u".toList)] ["-scbor".toList, "--amqp-uri".toList, "u".toList] :=
  .cons (ts := ["-scbor".toList]) (.shortGlued .serializer 's' "cbor".toList rfl (by decide) (by decide)) (.cons (.longSep .amqpUri "u".toList (by decide)) .nil)

/-- Refused: an option twice, a value that begins with a hyphen, a number too large, an argument that belongs to no option, a name in capitals. -/
example : parse ["-n".toList, "1".toList, "--num-workers=1".toList] (fun _ => none) = none ∧
    parse ["--amqp-uri".toList, "-x".toList] (fun _ => none) = none ∧
    parse ["-n18446744073709551616".toList] (fun _ => none) = none ∧
    parse ["bus".toList] (fun _ => none) = none ∧
    parse ["-sCbor".toList] (fun _ => none) = none := by decide +kernel

end Cli
end Paladin
