import Verif.Model.Cli

/-!
# The texts of errors, their sources, and conversions

engine/src/command/error.rs, engine/src/command/request/builder.rs, engine/src/state/value.rs,
engine/src/command/response/mod.rs, client/src/backend/memory.rs, client/src/backend/server.rs,
client/src/request/mod.rs, cli/lib/src/parse.rs, cli/lib/src/process.rs.

`Display` writes to a formatter, which cannot fail when writing to a string; the text written is modelled.
-/

namespace Hop

open Cli (Text)

/-- A text, written as a string and elaborated to the list of its characters. -/
macro:max "text!" s:str : term => do
  let cs : Array (Lean.TSyntax `term) := (s.getString.toList.map fun c => ⟨Lean.Syntax.mkCharLit c⟩).toArray
  `(([$cs,*] : List Char))

/-- engine/src/command/error.rs 22-37 (`Display`). -/
def DispatchError.text : DispatchError → Text
  | argumentRetrieval => text!"couldn't retrieve required argument"
  | keyNonexistent => text!"the specified key does not exist"
  | keyTypeDifferent => text!"the key has a different type than required"
  | keyTypeInvalid => text!"the specified key type is not supported by the command"
  | keyTypeRequired => text!"a key type is required to be specified"
  | keyTypeUnexpected => text!"didn't expect a specified request key type"
  | keyUnspecified => text!"the key wasn't specified"
  | preconditionFailed => text!"a precondition for the command failed"

/-- engine/src/command/error.rs 9 (derived `Debug`): the name of the variant. -/
def DispatchError.debug : DispatchError → Text
  | argumentRetrieval => text!"ArgumentRetrieval"
  | keyUnspecified => text!"KeyUnspecified"
  | keyTypeDifferent => text!"KeyTypeDifferent"
  | keyTypeUnexpected => text!"KeyTypeUnexpected"
  | preconditionFailed => text!"PreconditionFailed"
  | keyNonexistent => text!"KeyNonexistent"
  | keyTypeRequired => text!"KeyTypeRequired"
  | keyTypeInvalid => text!"KeyTypeInvalid"

/-- engine/src/command/request/builder.rs 17-27 (`Display`). -/
def BuilderError.text : BuilderError → Text
  | argumentEmpty => text!"the provided argument is empty"
  | tooManyArguments => text!"too many arguments have been given to the builder"
  | valueEmpty => text!"the provided value variant is empty (0 length)"

/-- engine/src/command/request/builder.rs 10 (derived `Debug`). -/
def BuilderError.debug : BuilderError → Text
  | argumentEmpty => text!"ArgumentEmpty"
  | tooManyArguments => text!"TooManyArguments"
  | valueEmpty => text!"ValueEmpty"

/-- engine/src/command/request/context.rs 9 (derived `Debug`). -/
def ReqParseError.debug : ReqParseError → Text
  | commandIdInvalid => text!"CommandIdInvalid"
  | keyTypeInvalid => text!"KeyTypeInvalid"

/-- client/src/request/mod.rs 47-54 (`Display`). -/
def Client.ConfigError.text : Client.ConfigError → Text
  | .noKeys => text!"no keys were provided"
  | .tooManyKeys => text!"too many keys were provided"

/-- cli/lib/src/parse.rs 208-219 (`key_type_name`). -/
def Cli.keyTypeName : KeyType → Text
  | .boolean => text!"bool"
  | .bytes => text!"bytes"
  | .float => text!"float"
  | .integer => text!"int"
  | .list => text!"list"
  | .map => text!"map"
  | .set => text!"set"
  | .string => text!"str"

/-- cli/lib/src/parse.rs 24-48 (`Display`). -/
def Cli.ParseError.text : Cli.ParseError → Text
  | .argumentInvalid a t => text!"the argument '" ++ (a ++ (text!"' is not a " ++ Cli.keyTypeName t))
  | .buildingRequest e => text!"Failed to build request: " ++ e.text
  | .invalidCommandType n => text!"the command '" ++ (n ++ text!"' is invalid")
  | .keyUnspecified => text!"A key is required for this command but none was provided"
  | .mapIncomplete k => text!"the map has an incomplete key-value; the last key was " ++ k
  | .noCommandProvided => text!"no command was provided"

/-- client/src/backend/memory.rs 29-53 (`Display`). `debugValue` is the derived `Debug` of `Value`
(engine/src/state/value.rs 5), which this model does not define. -/
def Client.Error.text (debugValue : Value → Text) : Client.Error → Text
  | .badRequest e => text!"request is invalid: " ++ e.debug
  | .buildingRequest e => text!"failed to build request: " ++ e.debug
  | .dispatching e => text!"dispatching the request failed: " ++ e.debug
  | .keyTypeInvalid n => text!"the provided key type (" ++ (Cli.showNat n.toNat ++ text!") is invalid")
  | .keyTypeUnsupported t v =>
    text!"key type " ++ (Cli.showNat t.toByte.toNat ++
      (text!" is not supported by this command (value: " ++ (debugValue v ++ text!")")))
  | .runningCommand e => e.text

/-- client/src/backend/server.rs 30-42 (`Error`), with the `io::Error`s that the model of the calls leaves
out. -/
inductive Client.Server.FullError (Io : Type) where
  | badRequest (reason : ReqParseError)
  | badResponse
  | buildingRequest (source : BuilderError)
  | connecting (source : Io)
  | connectionClosed
  | dispatching (reason : DispatchError)
  | keyTypeInvalid (number : UInt8)
  | keyTypeUnsupported (keyType : KeyType)
  | readingMessage (source : Io)
  | writingMessage (source : Io)

/-- client/src/backend/server.rs 44-72 (`Display`). -/
def Client.Server.FullError.text {Io : Type} : Client.Server.FullError Io → Text
  | .badRequest e => text!"server couldn't parse request: " ++ e.debug
  | .badResponse => text!"the response wasn't an expected type"
  | .buildingRequest e => text!"failed to build request: " ++ e.debug
  | .connecting _ => text!"failed to connect"
  | .connectionClosed => text!"connection closed"
  | .dispatching e => text!"server couldn't process command: " ++ e.debug
  | .keyTypeInvalid n => text!"the provided key type (" ++ (Cli.showNat n.toNat ++ text!") is invalid")
  | .keyTypeUnsupported t =>
    text!"key type " ++ (Cli.showNat t.toByte.toNat ++ text!" is not supported by this command")
  | .readingMessage _ => text!"failed to read a message"
  | .writingMessage _ => text!"failed to write a message"

/-- cli/lib/src/process.rs 15-23 (`ProcessError`), for a backend with errors in `B`. The only `fmt::Error`
there is carries nothing. -/
inductive Cli.ProcessError (B : Type) where
  | backend (source : B)
  | parsingInput (source : Cli.ParseError)
  | writingOutput

/-- `fmt::Error`'s `Display`, from the Rust standard library. Used for cli/lib/src/process.rs 67-72. -/
def Cli.fmtErrorText : Text := text!"an error occurred when formatting an argument"

/-- cli/lib/src/process.rs 25-42 (`Display`). -/
def Cli.ProcessError.text {B : Type} (backendText : B → Text) : Cli.ProcessError B → Text
  | .backend e => text!"backend encountered an error: " ++ backendText e
  | .parsingInput e => text!"failed to parse input: " ++ e.text
  | .writingOutput => text!"failed to write output: " ++ Cli.fmtErrorText

/-! ## Sources -/

/-- An error inside another one. The `source`s of cli/lib/src/process.rs 75-93, client/src/backend/memory.rs 19-27
and client/src/backend/server.rs 30-42. -/
inductive Cause (Io B : Type) where
  | request (e : ReqParseError)
  | builder (e : BuilderError)
  | dispatch (e : DispatchError)
  | io (e : Io)
  | parsing (e : Cli.ParseError)
  | backend (e : B)
  | formatting

/-- client/src/backend/memory.rs 55-71 (`source`). -/
def Client.Error.source {Io B : Type} : Client.Error → Option (Cause Io B)
  | .badRequest _ => none
  | .buildingRequest _ => none
  | .dispatching _ => none
  | .keyTypeInvalid _ => none
  | .keyTypeUnsupported _ _ => none
  | .runningCommand _ => none

/-- client/src/backend/server.rs 74-89 (`source`). -/
def Client.Server.FullError.source {Io B : Type} : Client.Server.FullError Io → Option (Cause Io B)
  | .badRequest _ => none
  | .badResponse => none
  | .buildingRequest _ => none
  | .connecting e => some (.io e)
  | .connectionClosed => none
  | .dispatching _ => none
  | .keyTypeInvalid _ => none
  | .keyTypeUnsupported _ => none
  | .readingMessage e => some (.io e)
  | .writingMessage e => some (.io e)

/-- cli/lib/src/parse.rs 50: `Error` is implemented with its defaults, so `source` returns `None`. -/
def Cli.ParseError.source {Io B : Type} : Cli.ParseError → Option (Cause Io B) := fun _ => none

/-- cli/lib/src/process.rs 44-55 (`source`). -/
def Cli.ProcessError.source {Io B : Type} : Cli.ProcessError B → Option (Cause Io B)
  | .backend e => some (.backend e)
  | .parsingInput e => some (.parsing e)
  | .writingOutput => some .formatting

/-! ## Conversions -/

/-- What can be converted: the Rust types with a `From` implementation. cli/lib/src/process.rs 69-73 and 95-108,
cli/lib/src/parse.rs 52-56, client/src/backend/memory.rs 78-82 and client/src/backend/server.rs 91-95. -/
inductive Plain where
  | bool (b : Bool)
  | vec (b : Bytes)
  | f64 (f : F64)
  | i64 (i : Int64)
  | vecVec (l : List Bytes)
  | map (m : BMap)
  | set (s : BSet)
  | string (s : Text)

/-- engine/src/state/value.rs 208-254 (`From` implementations of `Value`). -/
def Value.ofPlain : Plain → Value
  | .bool b => .boolean b
  | .vec b => .bytes b
  | .f64 f => .float f
  | .i64 i => .integer i
  | .vecVec l => .list l
  | .map m => .map m
  | .set s => .set s
  | .string s => .string s

/-- engine/src/command/response/mod.rs 71-117 (`From` implementations of `Response` for values). -/
def Response.ofPlain : Plain → Response
  | .bool b => .value (.boolean b)
  | .vec b => .value (.bytes b)
  | .f64 f => .value (.float f)
  | .i64 i => .value (.integer i)
  | .vecVec l => .value (.list l)
  | .map m => .value (.map m)
  | .set s => .value (.set s)
  | .string s => .value (.string s)

/-- engine/src/command/response/mod.rs 119-123. -/
def Response.ofDispatchError (e : DispatchError) : Response := .dispatchError e

/-- engine/src/command/response/mod.rs 125-129. -/
def Response.ofParseError (e : ReqParseError) : Response := .parseError e

end Hop
