import Verif.Model.Setup
/-!
# Model of how a configuration is read from the command line and the environment

Code: `Config` in `config/mod.rs` with its `clap` attributes, flattened into the command line of a program as in `examples/hello-world-rabbitmq/worker/src/main.rs`:9-13, :20, and handed to `from_config` (:22).
The attributes are code of this repository; what they mean is `clap`'s business and part of the trusted base (version 4.5.20 by `Cargo.lock`): how arguments are split, that an option may be given once, that the command line
goes before the environment and the environment before the default, and that `required_if_eq` looks at values the user has given, not at defaults.
Simplified: arguments and variables are lists of characters (what is not Unicode is left out); all the ways in which reading ends the program (errors, `--help`) are one value, `none`;
the program has no options of its own (the leader of the example has one more, `--timeout`); 64-bit `usize`.
-/
namespace Paladin
namespace Cli
open Setup

/-- An argument, or the value of a variable. Code: worker/src/main.rs:20. -/
abbrev Tok := List Char

/-- The fields of `Config`, each an option: config/mod.rs:27-47. -/
inductive Opt where
  | serializer
  | runtime
  | numWorkers
  | amqpUri
  | taskKey
  deriving DecidableEq, Repr

/-- `long`: the name of the field with hyphens, config/mod.rs:28, :32, :37, :41, :46. -/
def long : Opt → Tok
  | .serializer => "serializer".toList
  | .runtime => "runtime".toList
  | .numWorkers => "num-workers".toList
  | .amqpUri => "amqp-uri".toList
  | .taskKey => "task-bus-routing-key".toList

/-- `short`: the first letter of the field, for three of them, config/mod.rs:28, :32, :37. -/
def short : Opt → Option Char
  | .serializer => some 's'
  | .runtime => some 'r'
  | .numWorkers => some 'n'
  | .amqpUri => none
  | .taskKey => none

/-- `env`: the variable of an option, config/mod.rs:28, :32, :37, :41, :46. -/
def var : Opt → String
  | .serializer => "PALADIN_SERIALIZER"
  | .runtime => "PALADIN_RUNTIME"
  | .numWorkers => "PALADIN_NUM_WORKERS"
  | .amqpUri => "PALADIN_AMQP_URI"
  | .taskKey => "PALADIN_TASK_BUS_ROUTING_KEY"

/-- All options, config/mod.rs:27-47. -/
def all : List Opt := [.serializer, .runtime, .numWorkers, .amqpUri, .taskKey]

/-- The option with a long name; abbreviations are not accepted. Code: config/mod.rs:28-46. -/
def ofLong (n : Tok) : Option Opt := all.find? fun o => long o == n

/-- The option with a short name. Code: config/mod.rs:28-37. -/
def ofShort (c : Char) : Option Opt := all.find? fun o => short o == some c

/-- An argument that begins with a hyphen is not taken as the value of the option before it; a lone hyphen is. Code: config/mod.rs:28-46 (no `allow_hyphen_values`). -/
def isValue (v : Tok) : Bool := v.head? != some '-' || v == ['-']

/-- Splitting the arguments into options and values: `--name value`, `--name=value`, `-n value`, `-nvalue`, `-n=value`, and a last `--`. Anything else ends the program. Code: worker/src/main.rs:20 (`Cli::parse`). -/
def lex : List Tok → Option (List (Opt × Tok))
  | [] => some []
  | ('-' :: '-' :: body) :: ts =>
    if body = [] then
      if ts = [] then some [] else none
    else
      match ofLong (body.takeWhile (· != '=')) with
      | none => none
      | some o =>
        match body.dropWhile (· != '=') with
        | _ :: v => (lex ts).map ((o, v) :: ·)
        | [] =>
          match ts with
          | [] => none
          | v :: ts' => if isValue v then (lex ts').map ((o, v) :: ·) else none
  | ('-' :: c :: rest) :: ts =>
    match ofShort c with
    | none => none
    | some o =>
      match rest with
      | [] =>
        match ts with
        | [] => none
        | v :: ts' => if isValue v then (lex ts').map ((o, v) :: ·) else none
      | '=' :: v => (lex ts).map ((o, v) :: ·)
      | v => (lex ts).map ((o, v) :: ·)
  | _ :: _ => none

/-- The values of `config::Serializer` (derived `ValueEnum`, config/mod.rs:51-56). -/
def readSer (v : Tok) : Option Ser :=
  if v = "postcard".toList then some .postcard else if v = "cbor".toList then some .cbor else none

/-- The values of `config::Runtime` (derived `ValueEnum`, config/mod.rs:59-64). -/
def readKind (v : Tok) : Option Kind :=
  if v = "amqp".toList then some .amqp else if v = "in-memory".toList then some .inMemory else none

/-- One or more digits, below 2^64. Code: config/mod.rs:38. -/
def readDigits (ds : Tok) : Option Nat :=
  if ds ≠ [] ∧ ds.all Char.isDigit ∧ Nat.ofDigitChars 10 ds 0 < 2 ^ 64 then some (Nat.ofDigitChars 10 ds 0) else none

/-- `usize::from_str`: digits, with a plus sign before them if one likes. Code: config/mod.rs:38. -/
def readUsize : Tok → Option Nat
  | '+' :: ds => readDigits ds
  | ds => readDigits ds

/-- What the user has given for an option: on the command line, else in the variable named by `env`. Code: config/mod.rs:28, :32, :37, :41, :46. -/
def given (occ : List (Opt × Tok)) (env : String → Option Tok) (o : Opt) : Option Tok :=
  match occ.lookup o with
  | some v => some v
  | none => env (var o)

/-- A value that need not be given; a value that cannot be read ends the program. Code: config/mod.rs:28-47. -/
def optional (read : Tok → Option α) : Option Tok → Option (Option α)
  | none => some none
  | some v => (read v).map some

/-- `Cli::parse` for `Config`: worker/src/main.rs:20, config/mod.rs:26-48. `env x` is the value of the variable `x`, if it is set.
`default_value_t` gives the serializer and the runtime when nothing is given (config/mod.rs:28, :32); `required_if_eq("runtime", "amqp")` (config/mod.rs:41) ends the program if the user has given `amqp` and no address. -/
def parse (args : List Tok) (env : String → Option Tok) : Option Config :=
  match lex args with
  | none => none
  | some occ =>
    if ¬ (occ.map Prod.fst).Nodup then none
    else if given occ env .runtime = some "amqp".toList ∧ given occ env .amqpUri = none then none
    else
      match optional readSer (given occ env .serializer), optional readKind (given occ env .runtime), optional readUsize (given occ env .numWorkers) with
      | some ser, some kind, some n =>
        some { serializer := ser.getD .postcard, runtime := kind.getD .amqp, numWorkers := n,
               amqpUri := (given occ env .amqpUri).map String.ofList, taskKey := (given occ env .taskKey).map String.ofList }
      | _, _, _ => none

end Cli
end Paladin
