import Verif.Model.Basic

/-!
# Commands, key types, values, errors
-/

namespace Hop

/-- engine/src/command/command_id.rs 25-44 (`CommandId`). -/
inductive CommandId where
  | increment | decrement | incrementBy | decrementBy
  | set | get | delete | exists | is | rename | type
  | append | length | keys | echo | stats
deriving DecidableEq, Repr

/-- engine/src/command/command_id.rs `KeyNotation`. -/
inductive KeyNotation where
  | one | two | multiple | none
deriving DecidableEq, Repr

/-- engine/src/command/command_id.rs `ArgumentNotation`. -/
inductive ArgumentNotation where
  | one | multiple | none
deriving DecidableEq, Repr

namespace CommandId

/-- `command_id as u8`, the explicit discriminants of engine/src/command/command_id.rs 27-44. -/
def toByte : CommandId → UInt8
  | increment => 0
  | decrement => 1
  | incrementBy => 2
  | decrementBy => 3
  | set => 10
  | get => 11
  | delete => 12
  | .exists => 13
  | is => 14
  | rename => 15
  | type => 16
  | append => 20
  | length => 21
  | keys => 22
  | echo => 100
  | stats => 101

/-- engine/src/command/command_id.rs 156-180 (`TryFrom<u8>`). -/
def ofByte (b : UInt8) : Option CommandId :=
  if b = 0 then some increment
  else if b = 1 then some decrement
  else if b = 2 then some incrementBy
  else if b = 3 then some decrementBy
  else if b = 10 then some set
  else if b = 11 then some get
  else if b = 12 then some delete
  else if b = 13 then some .exists
  else if b = 14 then some is
  else if b = 15 then some rename
  else if b = 16 then some type
  else if b = 20 then some append
  else if b = 21 then some length
  else if b = 22 then some keys
  else if b = 100 then some echo
  else if b = 101 then some stats
  else Option.none

/-- engine/src/command/command_id.rs 47-69 (`argument_notation`). -/
def argumentNotation : CommandId → ArgumentNotation
  | append | decrementBy | delete | incrementBy | length | set => .one
  | echo => .multiple
  | _ => .none

/-- engine/src/command/command_id.rs 71-93 (`key_notation`). -/
def keyNotation : CommandId → KeyNotation
  | echo | stats => .none
  | .exists | is => .multiple
  | rename => .two
  | _ => .one

/-- engine/src/command/command_id.rs 95-100 (`is_simple`): no arguments and no keys. -/
def isSimple (c : CommandId) : Bool :=
  c.argumentNotation == .none && c.keyNotation == .none

/-- engine/src/command/command_id.rs 102-121 (`name`). -/
def name : CommandId → String
  | append => "append"
  | decrementBy => "decrement:by"
  | decrement => "decrement"
  | delete => "delete"
  | echo => "echo"
  | .exists => "exists"
  | get => "get"
  | incrementBy => "increment:by"
  | increment => "increment"
  | is => "is"
  | keys => "keys"
  | length => "length"
  | rename => "rename"
  | set => "set"
  | stats => "stats"
  | type => "type"

/-- engine/src/command/command_id.rs 130-154 (`FromStr`). -/
def ofName (s : String) : Option CommandId :=
  if s = "append" then some append
  else if s = "decrement:by" then some decrementBy
  else if s = "decrement" then some decrement
  else if s = "delete" then some delete
  else if s = "echo" then some echo
  else if s = "exists" then some .exists
  else if s = "get" then some get
  else if s = "increment:by" then some incrementBy
  else if s = "increment" then some increment
  else if s = "is" then some is
  else if s = "keys" then some keys
  else if s = "length" then some length
  else if s = "rename" then some rename
  else if s = "set" then some set
  else if s = "stats" then some stats
  else if s = "type" then some type
  else Option.none

end CommandId

/-- engine/src/state/mod.rs 14-25 (`KeyType`). -/
inductive KeyType where
  | bytes | boolean | float | integer | string | list | map | set
deriving DecidableEq, Repr

namespace KeyType

/-- `key_type as u8`, engine/src/state/mod.rs 16-25. -/
def toByte : KeyType → UInt8
  | bytes => 0
  | boolean => 1
  | float => 2
  | integer => 3
  | string => 4
  | list => 5
  | map => 6
  | set => 7

/-- engine/src/state/mod.rs 27-45 (`TryFrom<u8>`). -/
def ofByte (b : UInt8) : Option KeyType :=
  if b = 0 then some bytes
  else if b = 1 then some boolean
  else if b = 2 then some float
  else if b = 3 then some integer
  else if b = 4 then some string
  else if b = 5 then some list
  else if b = 6 then some map
  else if b = 7 then some set
  else none

end KeyType

/-- engine/src/command/error.rs 9-20 (`Error`, exported as `DispatchError`). -/
inductive DispatchError where
  | argumentRetrieval | keyUnspecified | keyTypeDifferent | keyTypeUnexpected
  | preconditionFailed | keyNonexistent | keyTypeRequired | keyTypeInvalid
deriving DecidableEq, Repr

namespace DispatchError

/-- `value as u8`, engine/src/command/error.rs 9-20. -/
def toByte : DispatchError → UInt8
  | argumentRetrieval => 0
  | keyUnspecified => 1
  | keyTypeDifferent => 2
  | keyTypeUnexpected => 3
  | preconditionFailed => 4
  | keyNonexistent => 5
  | keyTypeRequired => 6
  | keyTypeInvalid => 7

/-- engine/src/command/error.rs 39-55 (`TryFrom<u8>`). -/
def ofByte (b : UInt8) : Option DispatchError :=
  if b = 0 then some argumentRetrieval
  else if b = 1 then some keyUnspecified
  else if b = 2 then some keyTypeDifferent
  else if b = 3 then some keyTypeUnexpected
  else if b = 4 then some preconditionFailed
  else if b = 5 then some keyNonexistent
  else if b = 6 then some keyTypeRequired
  else if b = 7 then some keyTypeInvalid
  else none

end DispatchError

/-- engine/src/command/request/context.rs 9-14 (`ParseError` of the request parser). -/
inductive ReqParseError where
  | commandIdInvalid | keyTypeInvalid
deriving DecidableEq, Repr

namespace ReqParseError

/-- `value as u8`, engine/src/command/request/context.rs 11-14. -/
def toByte : ReqParseError → UInt8
  | commandIdInvalid => 0
  | keyTypeInvalid => 1

/-- engine/src/command/request/context.rs 16-26 (`TryFrom<u8>`). -/
def ofByte (b : UInt8) : Option ReqParseError :=
  if b = 0 then some commandIdInvalid
  else if b = 1 then some keyTypeInvalid
  else none

end ReqParseError

/-- engine/src/command/response/mod.rs 12-25 (`ResponseType`). -/
inductive ResponseType where
  | boolean | bytes | float | integer | list | map | set | string | parseError | dispatchError
deriving DecidableEq, Repr

namespace ResponseType

/-- `kind as u8`, engine/src/command/response/mod.rs 14-25. -/
def toByte : ResponseType → UInt8
  | boolean => 0
  | bytes => 1
  | float => 2
  | integer => 3
  | list => 4
  | map => 5
  | set => 6
  | string => 7
  | parseError => 8
  | dispatchError => 9

/-- engine/src/command/response/mod.rs 27-45 (`TryFrom<u8>`). -/
def ofByte (b : UInt8) : Option ResponseType :=
  if b = 0 then some boolean
  else if b = 1 then some bytes
  else if b = 2 then some float
  else if b = 3 then some integer
  else if b = 4 then some list
  else if b = 5 then some map
  else if b = 6 then some set
  else if b = 7 then some string
  else if b = 8 then some parseError
  else if b = 9 then some dispatchError
  else none

end ResponseType

/-- Contents of a `DashMap<Vec<u8>, Vec<u8>>` as an association list. The list order carries no meaning; the order
in which Rust iterates is `Env.mapOrd`. engine/src/state/value.rs 12. -/
abbrev BMap := List (Bytes × Bytes)

/-- `DashMap::get`. As in client/src/model.rs 17. -/
def BMap.get (m : BMap) (k : Bytes) : Option Bytes := List.lookup k m

/-- `DashMap::insert`: replaces the value of an existing key. As in engine/src/command/response/context.rs 344. -/
def BMap.insert : BMap → Bytes → Bytes → BMap
  | [], k, v => [(k, v)]
  | (k', v') :: m, k, v => if k' = k then (k, v) :: m else (k', v') :: BMap.insert m k v

/-- Contents of a `DashSet<Vec<u8>>` as a list without repetition. engine/src/state/value.rs 13. -/
abbrev BSet := List Bytes

/-- `DashSet::insert`. As in engine/src/command/response/context.rs 480. -/
def BSet.insert (s : BSet) (k : Bytes) : BSet := if k ∈ s then s else s ++ [k]

/-- engine/src/state/value.rs 5-15 (`Value`). -/
inductive Value where
  | boolean (b : Bool)
  | bytes (b : Bytes)
  | float (f : F64)
  | integer (i : Int64)
  | list (l : List Bytes)
  | map (m : BMap)
  | set (s : BSet)
  | string (s : List Char)
deriving DecidableEq, Repr

/-- engine/src/state/value.rs 18-29 (`kind`). -/
def Value.kind : Value → KeyType
  | boolean _ => .boolean
  | bytes _ => .bytes
  | float _ => .float
  | integer _ => .integer
  | list _ => .list
  | map _ => .map
  | set _ => .set
  | string _ => .string

/-- The default constructors `Value::boolean` .. `Value::string`
(engine/src/state/value.rs 31-33, 53-55, 75-77, 97-99, 119-121, 141-143, 163-165, 185-187). -/
def Value.default : KeyType → Value
  | .boolean => .boolean false
  | .bytes => .bytes []
  | .float => .float ⟨0⟩
  | .integer => .integer 0
  | .list => .list []
  | .map => .map []
  | .set => .set []
  | .string => .string []

/-- engine/src/metrics.rs 7-14 (`Metric`). -/
inductive Metric where
  | commandsSuccessful | commandsErrored | sessionsStarted | sessionsEnded
deriving DecidableEq, Repr

/-- engine/src/metrics.rs 17-24 (`name`). -/
def Metric.name : Metric → String
  | commandsErrored => "commands_errored"
  | commandsSuccessful => "commands_successful"
  | sessionsEnded => "sessions_ended"
  | sessionsStarted => "sessions_started"

/-- Parameters of the model: facts about the execution environment that the code does not fix.

* `mode`: build profile;
* `fadd`, `fsub`: IEEE-754 addition and subtraction on bit patterns. Nothing is assumed about them;
* `mapOrd`, `setOrd`: the order in which `DashMap`/`DashSet` contents are iterated, an arbitrary
  permutation;
* `spins`: how many additional rounds the retry loop in `key_or_insert_with` may take.

See /repo/Cargo.toml 12-16 for the profiles and engine/src/state/mod.rs 180-191 for `spins`. -/
structure Env where
  mode : Mode
  fadd : F64 → F64 → F64
  fsub : F64 → F64 → F64
  mapOrd : BMap → BMap
  mapOrd_perm : ∀ m, (mapOrd m).Perm m
  setOrd : BSet → BSet
  setOrd_perm : ∀ s, (setOrd s).Perm s
  spins : Nat

/-- Bit pattern of `1f64`. engine/src/command/impl/increment.rs 15. -/
def fone : F64 := ⟨0x3ff0000000000000⟩
/-- Bit pattern of `-1f64`. engine/src/command/impl/decrement.rs 15. -/
def fnegone : F64 := ⟨0xbff0000000000000⟩
/-- Bit pattern of `0f64`. engine/src/state/value.rs 76 and engine/src/command/impl/decrement_by.rs 17. -/
def fzero : F64 := ⟨0⟩

end Hop
