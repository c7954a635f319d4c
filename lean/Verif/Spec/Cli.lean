import Verif.Model.Cli
/-!
# Specification: command lines

How options can be written, and what a command line and an environment say. `Written` is a grammar; `Says` reads one field at a time.
-/
namespace Paladin
namespace Cli
open Setup

/-- The long name of an option. -/
def longName : Opt → Tok
  | .serializer => "serializer".toList
  | .runtime => "runtime".toList
  | .numWorkers => "num-workers".toList
  | .amqpUri => "amqp-uri".toList
  | .taskKey => "task-bus-routing-key".toList

/-- The letter of an option. -/
def shortName : Opt → Option Char
  | .serializer => some 's'
  | .runtime => some 'r'
  | .numWorkers => some 'n'
  | _ => none

/-- The environment variable of an option. -/
def varName : Opt → String
  | .serializer => "PALADIN_SERIALIZER"
  | .runtime => "PALADIN_RUNTIME"
  | .numWorkers => "PALADIN_NUM_WORKERS"
  | .amqpUri => "PALADIN_AMQP_URI"
  | .taskKey => "PALADIN_TASK_BUS_ROUTING_KEY"

/-- `Arg o v ts`: the arguments `ts` give the option `o` the value `v`. -/
inductive Arg : Opt → Tok → List Tok → Prop where
  /-- `--name=value` -/
  | longEq (o : Opt) (v : Tok) : Arg o v [['-', '-'] ++ longName o ++ ['='] ++ v]
  /-- `--name value`, unless the value begins with a hyphen (a lone hyphen is fine) -/
  | longSep (o : Opt) (v : Tok) (h : v.head? ≠ some '-' ∨ v = ['-']) : Arg o v [['-', '-'] ++ longName o, v]
  /-- `-n=value` -/
  | shortEq (o : Opt) (c : Char) (v : Tok) (hc : shortName o = some c) : Arg o v [['-', c, '='] ++ v]
  /-- `-nvalue`, unless the value is empty or begins with an equals sign -/
  | shortGlued (o : Opt) (c : Char) (v : Tok) (hc : shortName o = some c) (h : v ≠ []) (h' : v.head? ≠ some '=') : Arg o v [['-', c] ++ v]
  /-- `-n value`, unless the value begins with a hyphen (a lone hyphen is fine) -/
  | shortSep (o : Opt) (c : Char) (v : Tok) (hc : shortName o = some c) (h : v.head? ≠ some '-' ∨ v = ['-']) : Arg o v [['-', c], v]

/-- `Written occ args`: the arguments give these options these values, in this order. -/
inductive Written : List (Opt × Tok) → List Tok → Prop where
  | nil : Written [] []
  /-- `--` at the end -/
  | stop : Written [] [['-', '-']]
  | cons {o : Opt} {v : Tok} {ts : List Tok} {occ : List (Opt × Tok)} {args : List Tok} (h : Arg o v ts) (hw : Written occ args) : Written ((o, v) :: occ) (ts ++ args)

/-- What is said about an option: a value on the command line, or else one in the environment. -/
inductive Said (occ : List (Opt × Tok)) (env : String → Option Tok) (o : Opt) : Tok → Prop where
  | args {v : Tok} (h : (o, v) ∈ occ) : Said occ env o v
  | env {v : Tok} (h : ∀ w, (o, w) ∉ occ) (he : env (varName o) = some v) : Said occ env o v

/-- Nothing is said about an option. -/
def Unsaid (occ : List (Opt × Tok)) (env : String → Option Tok) (o : Opt) : Prop := ∀ v, ¬ Said occ env o v

/-- The names of the serializers. -/
inductive SerName : Tok → Ser → Prop where
  | postcard : SerName "postcard".toList .postcard
  | cbor : SerName "cbor".toList .cbor

/-- The names of the runtimes. -/
inductive KindName : Tok → Kind → Prop where
  | amqp : KindName "amqp".toList .amqp
  | inMemory : KindName "in-memory".toList .inMemory

/-- The decimal number that digits denote. -/
def number (ds : Tok) : Nat := ds.foldl (fun n c => n * 10 + (c.toNat - '0'.toNat)) 0

/-- The ways to write a number of 64 bits. -/
inductive Number : Tok → Nat → Prop where
  | plain {ds : Tok} (h : ds ≠ []) (hd : ∀ c ∈ ds, c.isDigit = true) (hb : number ds < 2 ^ 64) : Number ds (number ds)
  | plus {ds : Tok} (h : ds ≠ []) (hd : ∀ c ∈ ds, c.isDigit = true) (hb : number ds < 2 ^ 64) : Number ('+' :: ds) (number ds)

/-- The configuration that a command line and an environment describe, field by field. -/
structure Says (occ : List (Opt × Tok)) (env : String → Option Tok) (c : Config) : Prop where
  serializer : (∃ v, Said occ env .serializer v ∧ SerName v c.serializer) ∨ (Unsaid occ env .serializer ∧ c.serializer = .postcard)
  runtime : (∃ v, Said occ env .runtime v ∧ KindName v c.runtime) ∨ (Unsaid occ env .runtime ∧ c.runtime = .amqp)
  numWorkers : (∃ v n, Said occ env .numWorkers v ∧ Number v n ∧ c.numWorkers = some n) ∨ (Unsaid occ env .numWorkers ∧ c.numWorkers = none)
  amqpUri : (∃ v, Said occ env .amqpUri v ∧ c.amqpUri = some (String.ofList v)) ∨ (Unsaid occ env .amqpUri ∧ c.amqpUri = none)
  taskKey : (∃ v, Said occ env .taskKey v ∧ c.taskKey = some (String.ofList v)) ∨ (Unsaid occ env .taskKey ∧ c.taskKey = none)

/-- No option is written twice. -/
def Once (occ : List (Opt × Tok)) : Prop := occ.Pairwise fun x y => x.1 ≠ y.1

end Cli
end Paladin
