import Verif.Model.Types

/-!
# Requests and the request builder

engine/src/command/request/mod.rs and engine/src/command/request/builder.rs.
-/

namespace Hop

/-- engine/src/command/request/mod.rs 123-129 (`Request`). `Cow` is dropped. `positions` is an
`ArrayVec<[usize; 256]>`: a list that the model keeps within 256 entries by making the push that would
exceed it a panic. -/
structure Request where
  buf : Bytes
  commandId : CommandId
  keyType : Option KeyType
  positions : List Nat
deriving DecidableEq, Repr

namespace Request

/-- engine/src/command/request/mod.rs 179-181 (`arg_count`). -/
def argCount (r : Request) : Nat := r.positions.length

/-- engine/src/command/request/mod.rs 165-177 (`arg`). `buf.get(a..=p)` is `buf.get(a..p + 1)`. -/
def arg (r : Request) (idx : Nat) : Option Bytes :=
  match r.positions[idx]? with
  | none => none
  | some position =>
    if idx = 0 then
      let base := if r.keyType.isSome then 1 else 0
      slice r.buf (6 + base) (position + 1)
    else
      match r.positions[idx - 1]? with
      | none => none
      | some previous => slice r.buf (previous + 5) (position + 1)

/-- engine/src/command/request/mod.rs 108-121 (`Iterator for Arguments`), collected: the items produced
from index `idx` when `n = to - idx` indices remain. Iteration ends at the first missing argument. -/
def collect (r : Request) : Nat → Nat → List Bytes
  | _, 0 => []
  | idx, n + 1 =>
    match r.arg idx with
    | none => []
    | some a => a :: collect r (idx + 1) n

/-- engine/src/command/request/mod.rs 136-157 (`args`), for the ranges `start..` used in the code. All
callers use `..` (start 0) or `1..`, so `start ≤ arg_count` whenever `arg_count > 0`. -/
def argsFrom (r : Request) (start : Nat) : Option (List Bytes) :=
  if r.argCount = 0 then none
  else some (r.collect start (r.argCount - start))

/-- engine/src/command/request/mod.rs 189-195 (`key`). -/
def key (r : Request) : Option Bytes :=
  if r.commandId.keyNotation = .none then none else r.arg 0

end Request

/-! ## Argument conversions (engine/src/command/request/mod.rs 35-93) -/

/-- `bool::convert`, lines 41-47. -/
def convBool (b : Bytes) : Option Bool := b.head?.map (fun x => decide (x > 0))

/-- `f64::convert`, lines 49-55: the first eight bytes; more are ignored. -/
def convFloat (b : Bytes) : Option F64 := (slice b 0 8).map F64.ofBytes

/-- `i64::convert`, lines 57-63: the first eight bytes; more are ignored. -/
def convInt (b : Bytes) : Option Int64 := (slice b 0 8).map i64OfBytes

/-- `<&str>::convert`, lines 89-93. -/
def convStr (b : Bytes) : Option (List Char) := fromUtf8 b

/-- `DashMap::convert`, lines 65-75: consecutive pairs; a trailing key without value is dropped. -/
def convMapAux : BMap → List Bytes → BMap
  | m, k :: v :: rest => convMapAux (m.insert k v) rest
  | m, _ => m

/-- `DashMap::convert`, lines 65-75. -/
def convMap (args : List Bytes) : BMap := convMapAux [] args

/-- `DashSet::convert`, lines 77-87. -/
def convSet (args : List Bytes) : BSet := args.foldl BSet.insert []

/-! ## The builder -/

/-- engine/src/command/request/builder.rs 10-15. -/
inductive BuilderError where
  | argumentEmpty | tooManyArguments | valueEmpty
deriving DecidableEq, Repr

/-- engine/src/command/request/builder.rs 33-40 (`RequestBuilder`). -/
structure Builder where
  argumentCount : Nat
  buf : Bytes
  commandId : CommandId
  keyType : Option KeyType
  positions : List Nat
deriving DecidableEq, Repr

namespace Builder

/-- engine/src/command/request/builder.rs 44-60 (`new`). -/
def new (c : CommandId) : Builder :=
  { argumentCount := 0
    buf := [c.toByte] ++ (if c.isSimple then [] else [0])
    commandId := c
    keyType := none
    positions := [] }

/-- engine/src/command/request/builder.rs 62-89 (`new_with_key_type`). -/
def newWithKeyType (c : CommandId) (kt : Option KeyType) : Builder :=
  { argumentCount := 0
    buf :=
      [if kt.isSome then c.toByte ||| 0b1000_0000 else c.toByte]
        ++ (match kt with
            | some t => [t.toByte]
            | none => [])
        ++ (if c.isSimple then [] else [0])
    commandId := c
    keyType := kt
    positions := [] }

/-- engine/src/command/request/builder.rs 92-99 (`into_request`). -/
def intoRequest (b : Builder) : Request :=
  { buf := b.buf, commandId := b.commandId, keyType := b.keyType, positions := b.positions }

/-- engine/src/command/request/builder.rs 225-227 (`arguments_would_overfill`), argument already
truncated to `u8` by the caller. -/
def wouldOverfill (b : Builder) (amount : Nat) : Bool := decide (255 < b.argumentCount + amount)

/-- `1` if a key type is present. engine/src/command/request/builder.rs 230 and engine/src/command/request/mod.rs
171. -/
def base (b : Builder) : Nat := if b.keyType.isSome then 1 else 0

/-- engine/src/command/request/builder.rs 241-274 (`push_argument`) with `update_count` (229-231)
inlined. `none` is a panic: `argument_count += 1` on `u8` overflows in a debug build; the index
expression in `update_count` is out of range; `ArrayVec::push` on a full array (256 positions).
It never returns an error. -/
def pushArgument (m : Mode) (b : Builder) (arg : Bytes) : Option Builder :=
  let buf := b.buf ++ beBytes 4 (arg.length % 2 ^ 32) ++ arg
  match addU m 8 b.argumentCount 1 with
  | none => none
  | some count =>
    if 1 + b.base < buf.length then
      let position :=
        match b.positions.getLast? with
        | some position => position + 4 + arg.length
        | none => b.base + 1 + 4 + arg.length
      if b.positions.length < 256 then
        some { b with
          argumentCount := count
          buf := buf.set (1 + b.base) (UInt8.ofNat count)
          positions := b.positions ++ [position] }
      else none
    else none

/-- The result of a builder call together with the builder afterwards (it is `&mut`). A panic leaves no usable
builder. As in engine/src/command/request/builder.rs 123. -/
abbrev Res := Outcome BuilderError Unit × Builder

/-- Push several arguments (the loops in `_value`). engine/src/command/request/builder.rs 178-184, 195-198 and
209-211. -/
def pushAll (m : Mode) (b : Builder) : List Bytes → Res
  | [] => (.ok (), b)
  | a :: as =>
    match pushArgument m b a with
    | none => (.panic, b)
    | some b' => pushAll m b' as

/-- engine/src/command/request/builder.rs 127-135 (`_bytes`). -/
def bytes (m : Mode) (b : Builder) (arg : Bytes) : Res :=
  if arg = [] then (.err .argumentEmpty, b)
  else pushAll m b [arg]

/-- engine/src/command/request/builder.rs 178-184: the loop over a list, rejecting empty items when
they are reached. -/
def pushItems (m : Mode) (b : Builder) : List Bytes → Res
  | [] => (.ok (), b)
  | a :: as =>
    if a = [] then (.err .valueEmpty, b)
    else match pushArgument m b a with
      | none => (.panic, b)
      | some b' => pushItems m b' as

/-- The pairs of a map, flattened in iteration order (engine/src/command/request/builder.rs 195-198). -/
def flattenPairs : BMap → List Bytes
  | [] => []
  | (k, v) :: m => k :: v :: flattenPairs m

/-- engine/src/command/request/builder.rs 157-223 (`_value`). -/
def value (env : Env) (b : Builder) : Value → Res
  | .boolean x => pushAll env.mode b [[if x then 1 else 0]]
  | .bytes x => if x = [] then (.err .valueEmpty, b) else pushAll env.mode b [x]
  | .float f => pushAll env.mode b [f.toBytes]
  | .integer i => pushAll env.mode b [i64Bytes i]
  | .list l =>
    if b.wouldOverfill (l.length % 256) then (.err .tooManyArguments, b)
    else pushItems env.mode b l
  | .map mp =>
    if b.wouldOverfill (mp.length % 256) then (.err .tooManyArguments, b)
    else if mp = [] then (.err .valueEmpty, b)
    else pushAll env.mode b (flattenPairs (env.mapOrd mp))
  | .set s =>
    if b.wouldOverfill (s.length % 256) then (.err .tooManyArguments, b)
    else if s = [] then (.err .valueEmpty, b)
    else pushAll env.mode b (env.setOrd s)
  | .string s => if s = [] then (.err .valueEmpty, b) else pushAll env.mode b [strBytes s]

/-- engine/src/command/request/builder.rs 277-285 (`From<Request> for RequestBuilder`): the argument
count is not restored. -/
def ofRequest (r : Request) : Builder :=
  { newWithKeyType r.commandId r.keyType with buf := r.buf, positions := r.positions }

end Builder

/-- Several `bytes` calls in a row, stopping at the first failure (`?` / `unwrap` chains in clients). As in
client/src/backend/memory.rs 135-137. -/
def Builder.bytesAll (m : Mode) (b : Builder) : List Bytes → Builder.Res
  | [] => (.ok (), b)
  | a :: as =>
    match b.bytes m a with
    | (.ok (), b') => bytesAll m b' as
    | r => r

end Hop
