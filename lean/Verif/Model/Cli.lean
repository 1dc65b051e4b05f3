import Verif.Model.Client

/-!
# The command line interface

cli/lib/src/parse.rs, cli/lib/src/print.rs, cli/lib/src/process.rs, cli/bin/src/main.rs.

Text is a list of characters. The client is one with the in-memory backend, as in cli/bin/src/main.rs 25.
-/

namespace Hop.Cli

/-- `&str` and `String`. As in cli/lib/src/parse.rs 58. -/
abbrev Text := List Char

/-- What the CLI takes from the Rust standard library and this model does not define: `str::parse::<f64>`,
`f64::to_string`, and `String::from_utf8_lossy`, of which only that valid text is returned unchanged is known. Used
in cli/lib/src/parse.rs 140 and cli/lib/src/print.rs 20, 33-35 and 47-48. -/
structure Std where
  parseFloat : Text → Option F64
  showFloat : F64 → Text
  lossy : Bytes → Text
  lossy_text : ∀ s, lossy (strBytes s) = s

/-! ## parse.rs -/

/-- cli/lib/src/parse.rs 14-22 (`ParseError`). `MapIncomplete` is never created. -/
inductive ParseError where
  | argumentInvalid (argument : Text) (keyType : KeyType)
  | buildingRequest (source : BuilderError)
  | invalidCommandType (name : Text)
  | keyUnspecified
  | mapIncomplete (key : Text)
  | noCommandProvided
deriving DecidableEq

/-- `str::split(' ')`: never empty; adjacent separators enclose an empty piece. Used in cli/lib/src/parse.rs 59. -/
def splitOn (sep : Char) : Text → List Text
  | [] => [[]]
  | c :: cs =>
    if c = sep then [] :: splitOn sep cs
    else match splitOn sep cs with
      | [] => [[c]]
      | w :: ws => (c :: w) :: ws

/-- `str::rsplitn(2, ':')`: what follows the last separator, and what precedes it if there is one. Used in
cli/lib/src/parse.rs 185. -/
def rsplit2 (sep : Char) (s : Text) : Text × Option Text :=
  ((s.reverse.takeWhile (· ≠ sep)).reverse,
    match s.reverse.dropWhile (· ≠ sep) with
    | [] => none
    | _ :: before => some before.reverse)

/-- cli/lib/src/parse.rs 194-206 (`key_type`). -/
def keyType (s : Text) : Option KeyType :=
  if s = "boolean".toList ∨ s = "bool".toList then some .boolean
  else if s = "bytes".toList then some .bytes
  else if s = "float".toList then some .float
  else if s = "integer".toList ∨ s = "int".toList then some .integer
  else if s = "list".toList then some .list
  else if s = "map".toList then some .map
  else if s = "set".toList then some .set
  else if s = "string".toList ∨ s = "str".toList then some .string
  else none

/-- cli/lib/src/parse.rs 180-192 (`command`). -/
def command (name : Text) : Option (CommandId × Option KeyType) :=
  match CommandId.ofName (String.ofList name) with
  | some c => some (c, none)
  | none =>
    match keyType (rsplit2 ':' name).1 with
    | none => none
    | some t =>
      match (rsplit2 ':' name).2 with
      | none => none
      | some before =>
        match CommandId.ofName (String.ofList before) with
        | none => none
        | some c => some (c, some t)

/-- `str::parse::<bool>`. Used in cli/lib/src/parse.rs 129. -/
def parseBool (s : Text) : Option Bool :=
  if s = "true".toList then some true
  else if s = "false".toList then some false
  else none

/-- The value of a decimal digit. Part of `parse::<i64>`, cli/lib/src/parse.rs 150. -/
def digit (c : Char) : Option Nat :=
  if 48 ≤ c.toNat ∧ c.toNat ≤ 57 then some (c.toNat - 48) else none

/-- Digits, most significant first, continuing from `acc`. Part of `parse::<i64>`, cli/lib/src/parse.rs 150. -/
def digits : Nat → Text → Option Nat
  | acc, [] => some acc
  | acc, c :: cs =>
    match digit c with
    | none => none
    | some d => digits (10 * acc + d) cs

/-- The sign of a number (whether it is `-`), and what follows the sign. Part of `parse::<i64>`,
cli/lib/src/parse.rs 150. -/
def signed : Text → Bool × Text
  | '-' :: ds => (true, ds)
  | '+' :: ds => (false, ds)
  | ds => (false, ds)

/-- `str::parse::<i64>` (`from_str_radix` with radix 10): an optional sign, at least one digit, and no overflow.
Simplification: the standard library checks for overflow after each digit, which fails exactly if the final number
is out of range. Used in cli/lib/src/parse.rs 150. -/
def parseInt (s : Text) : Option Int64 :=
  if (signed s).2 = [] then none
  else match digits 0 (signed s).2 with
    | none => none
    | some n =>
      let i : Int := if (signed s).1 then -(n : Int) else n
      if -2 ^ 63 ≤ i ∧ i < 2 ^ 63 then some (Int64.ofInt i) else none

/-- cli/lib/src/parse.rs 126-175: the loop over the arguments after the keys. A map key without a value
ends the loop without an error. -/
def values (std : Std) (t : KeyType) : List Text → Except ParseError (List Bytes)
  | [] => .ok []
  | a :: rest =>
    match t with
    | .boolean =>
      match parseBool a with
      | none => .error (.argumentInvalid a .boolean)
      | some b => (values std t rest).map ([if b then 1 else 0] :: ·)
    | .float =>
      match std.parseFloat a with
      | none => .error (.argumentInvalid a .float)
      | some f => (values std t rest).map (f.toBytes :: ·)
    | .integer =>
      match parseInt a with
      | none => .error (.argumentInvalid a .integer)
      | some i => (values std t rest).map (i64Bytes i :: ·)
    | .map =>
      match rest with
      | [] => .ok []
      | v :: rest' => (values std t rest').map (fun l => strBytes a :: strBytes v :: l)
    | .bytes | .list | .set | .string => (values std t rest).map (strBytes a :: ·)

/-- cli/lib/src/parse.rs 95-178 (`input_args`). -/
def inputArgs (std : Std) (provided : List Text) (c : CommandId) (t : KeyType) :
    Except ParseError (List Bytes) :=
  match c.keyNotation with
  | .none => values std t provided
  | .one =>
    match provided with
    | [] => .error .keyUnspecified
    | k :: rest => (values std t rest).map (strBytes k :: ·)
  | .two =>
    match provided with
    | k :: l :: rest => (values std t rest).map (fun x => strBytes k :: strBytes l :: x)
    | _ => .error .keyUnspecified
  | .multiple => .ok (provided.map strBytes)

/-- cli/lib/src/parse.rs 58-84 (`parse`). -/
def parse (m : Mode) (std : Std) (input : Text) : Outcome ParseError Request :=
  match splitOn ' ' input with
  | [] => .err .noCommandProvided
  | [] :: _ => .err .noCommandProvided
  | name :: rest =>
    match command name with
    | none => .err (.invalidCommandType name)
    | some (c, kt) =>
      let t := kt.getD .bytes
      let b := Builder.newWithKeyType c (some t)
      match rest with
      | [] => .ok b.intoRequest
      | _ =>
        match inputArgs std rest c t with
        | .error e => .err e
        | .ok args =>
          match b.bytesAll m args with
          | (.ok (), b') => .ok b'.intoRequest
          | (.err e, _) => .err (.buildingRequest e)
          | (.panic, _) => .panic
          | (.stuck, _) => .stuck

/-! ## print.rs -/

/-- cli/lib/src/print.rs 3-14 (`key_type_name`). -/
def typeName : KeyType → Text
  | .boolean => "bool".toList
  | .bytes => "bytes".toList
  | .float => "float".toList
  | .integer => "int".toList
  | .list => "list".toList
  | .map => "map".toList
  | .set => "set".toList
  | .string => "str".toList

/-- The text up to byte `n`; `none` (a panic) if that is not between two characters. `String::truncate`, used in
cli/lib/src/print.rs 24 and 39. -/
def cut : Text → Nat → Option Text
  | _, 0 => some []
  | [], _ + 1 => none
  | c :: cs, n + 1 => if c.utf8Size ≤ n + 1 then (cut cs (n + 1 - c.utf8Size)).map (c :: ·) else none

/-- `output.truncate(output.len() - 2)`: the subtraction overflows below 2, which panics in a debug build; in a
release build it gives a number above the length, which `truncate` ignores. cli/lib/src/print.rs 24 and 39. -/
def truncate2 (m : Mode) (s : Text) : Option Text :=
  if (strBytes s).length < 2 then (if m = .debug then none else some s)
  else cut s ((strBytes s).length - 2)

/-- cli/lib/src/print.rs 16-27 (`list`); `none` is a panic. -/
def list (m : Mode) (std : Std) (items : List Bytes) : Option Text :=
  truncate2 m (items.flatMap fun i => std.lossy i ++ ['\n'])

/-- cli/lib/src/print.rs 29-42 (`map`); `none` is a panic. -/
def map (m : Mode) (std : Std) (pairs : BMap) : Option Text :=
  truncate2 m (pairs.flatMap fun e => std.lossy e.1 ++ ['='] ++ std.lossy e.2 ++ ['\n'])

/-- Decimal digits of a number. Part of `i64::to_string`, cli/lib/src/print.rs 49. -/
def showNat (n : Nat) : Text :=
  if n < 10 then [Char.ofNat (48 + n)] else showNat (n / 10) ++ [Char.ofNat (48 + n % 10)]
termination_by n

/-- `i64::to_string`. Used in cli/lib/src/print.rs 49. -/
def showInt (i : Int64) : Text :=
  if i.toInt < 0 then '-' :: showNat i.toInt.natAbs else showNat i.toInt.natAbs

/-- `bool::to_string`. Used in cli/lib/src/print.rs 46. -/
def showBool (b : Bool) : Text := if b then "true".toList else "false".toList

/-- cli/lib/src/print.rs 44-55 (`value`); `none` is a panic. -/
def value (env : Env) (std : Std) : Value → Option Text
  | .boolean b => some (showBool b)
  | .bytes b => some (std.lossy b)
  | .float f => some (std.showFloat f)
  | .integer i => some (showInt i)
  | .list l => list env.mode std l
  | .map m => map env.mode std (env.mapOrd m)
  | .set s => list env.mode std (env.setOrd s)
  | .string s => some s

/-! ## process.rs -/

/-- cli/lib/src/process.rs 75-93 (`InnerProcessError`). `Backend` does not occur with the in-memory
backend, `WritingOutput` not when writing to a string. -/
inductive Fault where
  | badRequest | buildingRequest | dispatching | keyDestinationRequired | keyNonexistent
  | keyRequiredMinimum | keySourceRequired | keyTypeDifferent | keyTypeInvalid | keyTypeRequired
  | keyTypeUnexpected | keyUnspecified | preconditionFailed | tooFewArguments | tooManyArguments
deriving DecidableEq

/-- cli/lib/src/process.rs 121-163: the text printed for an error. -/
def Fault.message : Fault → Text
  | badRequest => "The server rejected the request due to being invalid.".toList
  | buildingRequest => "Building the request failed, such as due to too many arguments.".toList
  | dispatching => "The engine failed to properly run the request.".toList
  | keyDestinationRequired => "The destination key name is required.".toList
  | keyNonexistent => "The specified key does not exist.".toList
  | keyRequiredMinimum => "A minimum of at least one key or more is required.".toList
  | keySourceRequired => "The source key name is required.".toList
  | keyTypeDifferent => "The type of the key is different than specified by the command.".toList
  | keyTypeInvalid => "A key type was provided that isn't supported by the command.".toList
  | keyTypeRequired => "A key type was required but one was not specified.".toList
  | keyTypeUnexpected => "A key type was specified when the command can't be given one.".toList
  | keyUnspecified => "Specifying a key is required.".toList
  | preconditionFailed => "A precondition failed, such as the key not existing.".toList
  | tooFewArguments => "Too few arguments were provided for this command.".toList
  | tooManyArguments => "You may only provide at most 255 arguments.".toList

/-- cli/lib/src/process.rs 167-201 (`backend_err`), for the errors of the in-memory backend. -/
def fault : Client.Error → Fault
  | .badRequest _ => .badRequest
  | .buildingRequest _ => .buildingRequest
  | .dispatching _ => .dispatching
  | .keyTypeInvalid _ => .keyTypeInvalid
  | .keyTypeUnsupported _ _ => .keyTypeInvalid
  | .runningCommand .argumentRetrieval => .tooFewArguments
  | .runningCommand .keyNonexistent => .keyNonexistent
  | .runningCommand .keyTypeDifferent => .keyTypeDifferent
  | .runningCommand .keyTypeInvalid => .keyTypeInvalid
  | .runningCommand .keyTypeRequired => .keyTypeRequired
  | .runningCommand .keyTypeUnexpected => .keyTypeUnexpected
  | .runningCommand .keyUnspecified => .keyUnspecified
  | .runningCommand .preconditionFailed => .preconditionFailed

/-- A CLI program: ends in text, a fault, or a panic. What cli/lib/src/process.rs 203-334 returns. -/
abbrev Job := Prog (Except Fault Text)

/-- `Err(fault)`. As in cli/lib/src/process.rs 203-334. -/
def fail (f : Fault) : Job := .done (.ok (.error f))

/-- The text, or a panic while printing. As in cli/lib/src/process.rs 203-334. -/
def shown : Option Text → Job
  | some s => .done (.ok (.ok s))
  | none => .done .panic

/-- `call.await.map_err(backend_err)?`, then print. As in cli/lib/src/process.rs 203-334. -/
def awaiting {α} (p : Client.Job α) (f : α → Option Text) : Job :=
  p.andThen fun o =>
    match o with
    | .ok (.ok a) => shown (f a)
    | .ok (.error e) => fail (fault e)
    | .err e => .done (.err e)
    | .panic => .done .panic
    | .stuck => .done .stuck

/-- `Option::ok_or_else(..)?`. As in cli/lib/src/process.rs 203-334. -/
def needing {α} (o : Option α) (f : Fault) (k : α → Job) : Job :=
  match o with
  | some a => k a
  | none => fail f

/-- `join` with a separator. Used in cli/lib/src/process.rs 227 and 234. -/
def joinWith {α} (sep : α) : List (List α) → List α
  | [] => []
  | [x] => x
  | x :: y :: l => x ++ sep :: joinWith sep (y :: l)

/-- cli/lib/src/process.rs 203-334 (`process_inner`). Key types are looked at by `is` only. -/
def processInner (env : Env) (std : Std) (r : Request) : Job :=
  match r.commandId with
  | .decrement => needing r.key .keyUnspecified fun k => awaiting (Client.decrement env k none) (value env std)
  | .delete => needing r.key .keyUnspecified fun k => awaiting (Client.delete env k) (fun v => some (std.lossy v))
  | .echo =>
    match r.argsFrom 0 with
    | some args =>
      awaiting (Client.echo env (joinWith 32 args)) (fun l => some (joinWith ' ' (l.map std.lossy)))
    | none => shown (some [])
  | .exists => needing (r.argsFrom 0) .keyUnspecified fun args =>
      match Client.checkKeys args with
      | .ok keys => awaiting (Client.exists env keys) (fun b => some (showBool b))
      | .error .noKeys => fail .keyRequiredMinimum
      | .error .tooManyKeys => fail .tooManyArguments
  | .get => needing r.key .keyUnspecified fun k => awaiting (Client.get env k) (value env std)
  | .increment => needing r.key .keyUnspecified fun k => awaiting (Client.increment env k none) (value env std)
  | .is => needing r.keyType .keyTypeRequired fun t => needing (r.argsFrom 0) .tooFewArguments fun args =>
      match Client.checkKeys args with
      | .ok keys => awaiting (Client.is env t keys) (fun b => some (showBool b))
      | .error .noKeys => fail .keyRequiredMinimum
      | .error .tooManyKeys => fail .tooManyArguments
  | .keys => needing r.key .keyUnspecified fun k =>
      awaiting (Client.keys env k) (fun l => some (joinWith '\n' (l.map std.lossy)))
  | .rename => needing r.key .keyDestinationRequired fun src => needing (r.arg 1) .keySourceRequired fun dst =>
      awaiting (Client.rename env src dst) (fun v => some (std.lossy v))
  | .stats => awaiting (Client.stats env) fun m => some
      ("Commands successful: ".toList ++ showInt (Client.statsInt m .commandsSuccessful) ++ ['\n'] ++
        "Commands errored: ".toList ++ showInt (Client.statsInt m .commandsErrored) ++ ['\n'] ++
        "Sessions started: ".toList ++ showInt (Client.statsInt m .sessionsStarted) ++ ['\n'] ++
        "Sessions ended: ".toList ++ showInt (Client.statsInt m .sessionsEnded))
  | .type => needing r.key .keyUnspecified fun k => awaiting (Client.keyType env k) (fun t => some (typeName t))
  | .append | .decrementBy | .incrementBy | .length | .set => .done .panic

/-- cli/lib/src/process.rs 110-165 (`process`): text to print, or the error that the line cannot be
parsed. -/
def process (env : Env) (std : Std) (input : Text) : Prog (Except ParseError Text) :=
  match parse env.mode std input with
  | .ok r => (processInner env std r).andThen fun o =>
    match o with
    | .ok (.ok s) => .done (.ok (.ok s))
    | .ok (.error f) => .done (.ok (.ok f.message))
    | .err e => .done (.err e)
    | .panic => .done .panic
    | .stuck => .done .stuck
  | .err e => .done (.ok (.error e))
  | .panic => .done .panic
  | .stuck => .done .stuck

/-! ## main.rs -/

/-- `char::is_whitespace` (the Unicode property White_Space). Part of `trim_end`, cli/bin/src/main.rs 33. -/
def isSpace (c : Char) : Bool :=
  (9 ≤ c.toNat && c.toNat ≤ 13) || c.toNat == 32 || c.toNat == 0x85 || c.toNat == 0xA0 || c.toNat == 0x1680 ||
    (0x2000 ≤ c.toNat && c.toNat ≤ 0x200A) || c.toNat == 0x2028 || c.toNat == 0x2029 || c.toNat == 0x202F ||
    c.toNat == 0x205F || c.toNat == 0x3000

/-- `str::trim_end`. Used in cli/bin/src/main.rs 33. -/
def trimEnd (s : Text) : Text := (s.reverse.dropWhile isSpace).reverse

/-- How the CLI ends: with the error of a line that cannot be parsed, or with a panic. The `?` of
cli/bin/src/main.rs 33. -/
inductive Ending where
  | error (e : ParseError)
  | panic
  | other
deriving DecidableEq

/-- cli/bin/src/main.rs 21-39 (`run`), on the lines read from the input (with their line ends); after the
last line `read_line` leaves the buffer empty. The outputs in order, how the loop ended, and the database
then. Writing is assumed to succeed and the input to be UTF-8. The prompts are left out. -/
def session (env : Env) (std : Std) : List Text → Db → List Text × Ending × Db
  | [], db =>
    match (process env std (trimEnd [])).run db with
    | (.ok (.error e), db') => ([], .error e, db')
    | (.panic, db') => ([], .panic, db')
    | (_, db') => ([], .other, db')
  | line :: lines, db =>
    match (process env std (trimEnd line)).run db with
    | (.ok (.ok s), db') =>
      let (outs, e, db'') := session env std lines db'
      ((s ++ ['\n']) :: outs, e, db'')
    | (.ok (.error e), db') => ([], .error e, db')
    | (.panic, db') => ([], .panic, db')
    | (_, db') => ([], .other, db')

end Hop.Cli
