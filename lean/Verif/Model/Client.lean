import Verif.Model.Dispatch
import Verif.Model.ResponseParser

/-!
# The client: in-memory backend, server backend and the typed requests built on them

client/src/backend/memory.rs, client/src/backend/server.rs, client/src/model.rs, client/src/request/.

Futures are dropped: an `async` call is the program it executes when awaited. Calls on the in-memory
backend are programs over the shared database, so they interleave like any other request.
-/

namespace Hop.Client

/-- client/src/backend/memory.rs 19-27 (`Error`). -/
inductive Error where
  | badRequest (source : ReqParseError)
  | buildingRequest (source : BuilderError)
  | dispatching (source : DispatchError)
  | keyTypeInvalid (number : UInt8)
  | keyTypeUnsupported (keyType : KeyType) (value : Value)
  | runningCommand (source : DispatchError)
deriving DecidableEq

/-- A call on the in-memory backend: a program ending in `Ok(a)`, `Err(e)` or a panic (`Outcome.err` is not used by
these programs). client/src/backend/memory.rs 116-345. -/
abbrev Job (α : Type) := Prog (Except Error α)

/-- `Ok(a)`. As in client/src/backend/memory.rs 103. -/
def ret {α} (a : α) : Job α := .done (.ok (.ok a))

/-- `Err(e)`. As in client/src/backend/memory.rs 105. -/
def throw {α} (e : Error) : Job α := .done (.ok (.error e))

/-- `panic!()` and `unreachable!()`. As in client/src/backend/memory.rs 110 and 168. -/
def panic {α} : Job α := .done .panic

/-- `p?` followed by more work. As in client/src/backend/memory.rs 98. -/
def bind {α β} (p : Job α) (f : α → Job β) : Job β :=
  p.andThen fun o =>
    match o with
    | .ok (.ok a) => f a
    | .ok (.error e) => throw e
    | .err e => .done (.err e)
    | .panic => panic
    | .stuck => .done .stuck

/-- A builder call followed by `?`: errors are converted by client/src/backend/memory.rs 79-83. -/
def built {α} (r : Builder.Res) (f : Builder → Job α) : Job α :=
  match r.1 with
  | .ok () => f r.2
  | .err e => throw (.buildingRequest e)
  | .panic => panic
  | .stuck => .done .stuck

/-- client/src/backend/memory.rs 95-112 (`send`): dispatch into an empty buffer (`?` converts the error,
73-77), decode the buffer with a fresh decoder (`unwrap`), and take the value out. -/
def send (env : Env) (b : Builder) : Job Value :=
  (dispatch env b.intoRequest []).andThen fun o =>
    match o with
    | .ok resp =>
      match (RespParser.feed env.mode .new resp).1 with
      | .concluded (.value v) => ret v
      | .concluded (.dispatchError e) => throw (.dispatching e)
      | .concluded (.parseError e) => throw (.badRequest e)
      | .error _ => panic
      | .readBytes _ => panic
      | .panic => panic
      | .stuck => .done .stuck
    | .err e => throw (.runningCommand e)
    | .panic => panic
    | .stuck => .done .stuck

/-- `match .. { Value::Float(f) => Ok(..), Value::Integer(i) => Ok(..), _ => panic!() }`
(memory.rs 165-169, 176-180, 243-247, 254-258). -/
def asNumber : Value → Job Value
  | .float f => ret (.float f)
  | .integer i => ret (.integer i)
  | _ => panic

/-- `Value::Bytes(bytes) => Ok(bytes)`, else panic. client/src/backend/memory.rs 187-190 and 319-322. -/
def asBytes : Value → Job Bytes
  | .bytes b => ret b
  | _ => panic

/-- `Value::List(list) => Ok(list)`, else panic. client/src/backend/memory.rs 197-200 and 298-301. -/
def asList : Value → Job (List Bytes)
  | .list l => ret l
  | _ => panic

/-- `Value::Boolean(b) => Ok(b)`, else panic. client/src/backend/memory.rs 213-216 and 272-275. -/
def asBool : Value → Job Bool
  | .boolean b => ret b
  | _ => panic

/-- `Value::Integer(int) => Ok(int)`, else panic. client/src/backend/memory.rs 308-311. -/
def asInt : Value → Job Int64
  | .integer i => ret i
  | _ => panic

/-- `Value::Map(map) => Ok(map)`, else panic. client/src/backend/memory.rs 339-342. -/
def asMap : Value → Job BMap
  | .map m => ret m
  | _ => panic

/-- memory.rs 283-289: `int as u8`, then `KeyType::try_from`. -/
def asKeyType : Value → Job KeyType
  | .integer i =>
    match KeyType.ofByte (UInt8.ofNat (i.toUInt64.toNat % 256)) with
    | some t => ret t
    | none => throw (.keyTypeInvalid (UInt8.ofNat (i.toUInt64.toNat % 256)))
  | _ => panic

/-- client/src/backend/memory.rs 119-146 (`append`). -/
def append (env : Env) (key : Bytes) (value : Value) : Job Value :=
  built ((Builder.newWithKeyType .append (some value.kind)).bytes env.mode key) fun b =>
    match value with
    | .bytes x => built (b.bytes env.mode x) (send env)
    | .list l => built (b.bytesAll env.mode l) (send env)
    | .string s => built (b.bytes env.mode (strBytes s)) (send env)
    | v => throw (.keyTypeUnsupported value.kind v)

/-- client/src/backend/memory.rs 148-170 (`decrement_by`). -/
def decrementBy (env : Env) (key : Bytes) (value : Value) : Job Value :=
  built ((Builder.newWithKeyType .decrementBy (some value.kind)).bytes env.mode key) fun b =>
    if value.kind ≠ .float ∧ value.kind ≠ .integer then throw (.keyTypeUnsupported value.kind value)
    else built (b.value env value) fun b => bind (send env b) asNumber

/-- client/src/backend/memory.rs 172-181 (`decrement`). -/
def decrement (env : Env) (key : Bytes) (kt : Option KeyType) : Job Value :=
  built ((Builder.newWithKeyType .decrement kt).bytes env.mode key) fun b => bind (send env b) asNumber

/-- client/src/backend/memory.rs 183-191 (`delete`). -/
def delete (env : Env) (key : Bytes) : Job Bytes :=
  built ((Builder.new .delete).bytes env.mode key) fun b => bind (send env b) asBytes

/-- client/src/backend/memory.rs 193-201 (`echo`). -/
def echo (env : Env) (content : Bytes) : Job (List Bytes) :=
  built ((Builder.new .echo).bytes env.mode content) fun b => bind (send env b) asList

/-- client/src/backend/memory.rs 203-217 (`exists`). -/
def «exists» (env : Env) (keys : List Bytes) : Job Bool :=
  built ((Builder.new .exists).bytesAll env.mode keys) fun b => bind (send env b) asBool

/-- client/src/backend/memory.rs 219-224 (`get`). -/
def get (env : Env) (key : Bytes) : Job Value :=
  built ((Builder.new .get).bytes env.mode key) (send env)

/-- client/src/backend/memory.rs 226-248 (`increment_by`). -/
def incrementBy (env : Env) (key : Bytes) (value : Value) : Job Value :=
  built ((Builder.newWithKeyType .incrementBy (some value.kind)).bytes env.mode key) fun b =>
    if value.kind ≠ .float ∧ value.kind ≠ .integer then throw (.keyTypeUnsupported value.kind value)
    else built (b.value env value) fun b => bind (send env b) asNumber

/-- client/src/backend/memory.rs 250-259 (`increment`). -/
def increment (env : Env) (key : Bytes) (kt : Option KeyType) : Job Value :=
  built ((Builder.newWithKeyType .increment kt).bytes env.mode key) fun b => bind (send env b) asNumber

/-- client/src/backend/memory.rs 261-276 (`is`). -/
def is (env : Env) (kt : KeyType) (keys : List Bytes) : Job Bool :=
  built ((Builder.newWithKeyType .is (some kt)).bytesAll env.mode keys) fun b => bind (send env b) asBool

/-- client/src/backend/memory.rs 278-292 (`key_type`). -/
def keyType (env : Env) (key : Bytes) : Job KeyType :=
  built ((Builder.new .type).bytes env.mode key) fun b => bind (send env b) asKeyType

/-- client/src/backend/memory.rs 294-302 (`keys`). -/
def keys (env : Env) (key : Bytes) : Job (List Bytes) :=
  built ((Builder.new .keys).bytes env.mode key) fun b => bind (send env b) asList

/-- client/src/backend/memory.rs 304-312 (`length`). -/
def length (env : Env) (key : Bytes) (kt : Option KeyType) : Job Int64 :=
  built ((Builder.newWithKeyType .length kt).bytes env.mode key) fun b => bind (send env b) asInt

/-- client/src/backend/memory.rs 314-323 (`rename`). -/
def rename (env : Env) (src dst : Bytes) : Job Bytes :=
  built ((Builder.new .rename).bytes env.mode src) fun b =>
    built (b.bytes env.mode dst) fun b => bind (send env b) asBytes

/-- client/src/backend/memory.rs 325-334 (`set`). -/
def set (env : Env) (key : Bytes) (value : Value) : Job Value :=
  built ((Builder.newWithKeyType .set (some value.kind)).bytes env.mode key) fun b =>
    built (b.value env value) (send env)

/-- client/src/backend/memory.rs 336-345 (`stats`). `StatsData::new(stats.into_iter().collect())` is the
same map. -/
def stats (env : Env) : Job BMap := bind (send env (Builder.new .stats)) asMap

/-- client/src/model.rs 15-21 (`StatsData::int`) with the names of lib/metrics `Metric::name`. -/
def statsInt (m : BMap) (metric : Metric) : Int64 :=
  match List.lookup (ascii metric.name) m with
  | some b => if b.length = 8 then i64OfBytes b else 0
  | none => 0

/-! ## Typed requests -/

/-- `match value { Value::T(x) => Ok(x), _ => unreachable!() }` for the type the request was configured
with: client/src/request/get/get_*.rs 44-49, set/set_*.rs 47-52 (set_set.rs 48-55), append/append_*.rs 47-52,
increment/increment_*.rs 53-58, decrement/decrement_*.rs 53-58. -/
def typed (t : KeyType) (p : Job Value) : Job Value := bind p fun v => if v.kind = t then ret v else panic

/-- client/src/request/get/get_*.rs (`get(key).<type>()`). -/
def getTyped (env : Env) (t : KeyType) (key : Bytes) : Job Value := typed t (get env key)

/-- client/src/request/set/set_*.rs (`set(key).<type>(value)`). -/
def setTyped (env : Env) (key : Bytes) (v : Value) : Job Value := typed v.kind (set env key v)

/-- client/src/request/append/append_*.rs (`append(key).<type>(value)`). -/
def appendTyped (env : Env) (key : Bytes) (v : Value) : Job Value := typed v.kind (append env key v)

/-- client/src/request/increment/increment_float.rs 45-63 and increment_int.rs 45-63
(`increment(key).float().by(amount)`, `increment(key).int().by(amount)`). -/
def incrementTyped (env : Env) (key : Bytes) (amount : Value) : Job Value :=
  typed amount.kind (incrementBy env key amount)

/-- client/src/request/decrement/decrement_float.rs 45-63 and decrement_int.rs 45-63. -/
def decrementTyped (env : Env) (key : Bytes) (amount : Value) : Job Value :=
  typed amount.kind (decrementBy env key amount)

/-- client/src/request/mod.rs 41-45 (`CommandConfigurationError`). -/
inductive ConfigError where
  | noKeys | tooManyKeys
deriving DecidableEq, Repr

/-- client/src/request/exists.rs 81-94 and client/src/request/is.rs 83-96 (`keys`): the checks made before
the request is configured. -/
def checkKeys (keys : List Bytes) : Except ConfigError (List Bytes) :=
  if keys = [] then .error .noKeys
  else if keys.length > 255 then .error .tooManyKeys
  else .ok keys

/-! ## The server backend -/

namespace Server

/-- client/src/backend/server.rs 30-42 (`Error`), without the sources of I/O errors. `connecting` is left
out: a connected backend is modelled. -/
inductive Error where
  | badRequest (reason : ReqParseError)
  | badResponse
  | buildingRequest (source : BuilderError)
  | connectionClosed
  | dispatching (reason : DispatchError)
  | keyTypeInvalid (number : UInt8)
  | keyTypeUnsupported (keyType : KeyType)
  | readingMessage
  | writingMessage
deriving DecidableEq, Repr

/-- The connection as the backend sees it: how many more bytes it takes before writing fails (`none`: it never
fails), and everything the server will ever send. See client/src/backend/server.rs 98-101. -/
structure Conn where
  room : Option Nat
  incoming : Bytes

/-- tokio's `write_all`: the bytes that get through, and whether all did. Used in client/src/backend/server.rs 121.
-/
def writeAll (room : Option Nat) (w : Bytes) : Bytes × Bool :=
  match room with
  | none => (w, true)
  | some n => (w.take n, decide (w.length ≤ n))

/-- tokio's `read_exact(&mut buf)`: fills the slice of the vector's current *length* `n`, returning `n`; an error if
the stream ends before. With `n = 0` it reads nothing and returns 0. Used in client/src/backend/server.rs 132. -/
def readExact (incoming : Bytes) (n : Nat) : Option (Bytes × Bytes) :=
  if n ≤ incoming.length then some (incoming.take n, incoming.drop n) else none

/-- client/src/backend/server.rs 130-152: the loop, with an iteration budget. `resp` is the vector: it
starts out empty, `read_exact` overwrites its contents, and `reserve_exact` changes its capacity but not
its length. -/
def waitLoop (m : Mode) : Nat → RespParser.Ctx → Bytes → Bytes → Outcome Error Value
  | 0, _, _, _ => .stuck
  | fuel + 1, ctx, resp, incoming =>
    match readExact incoming resp.length with
    | none => .err .readingMessage
    | some (got, rest) =>
      if got.length = 0 then .err .connectionClosed
      else match RespParser.feed m ctx got with
        | (.concluded (.value v), _) => .ok v
        | (.concluded (.dispatchError e), _) => .err (.dispatching e)
        | (.concluded (.parseError e), _) => .err (.badRequest e)
        | (.readBytes _, ctx') => waitLoop m fuel ctx' got rest
        | (.error _, _) => .panic
        | (.panic, _) => .panic
        | (.stuck, _) => .stuck

/-- client/src/backend/server.rs 117-153 (`send_and_wait`): the bytes written, and the result. -/
def sendAndWait (m : Mode) (fuel : Nat) (c : Conn) (b : Builder) : Bytes × Outcome Error Value :=
  let (sent, all) := writeAll c.room b.intoRequest.buf
  (sent, if all then waitLoop m fuel .new [] c.incoming else .err .writingMessage)

/-- What a call writes to the connection and what it resolves to. client/src/backend/server.rs 117-153. -/
abbrev Job (α : Type) := Bytes × Outcome Error α

/-- A builder call followed by `?` (server.rs 91-95). -/
def built {α} (r : Builder.Res) (f : Builder → Job α) : Job α :=
  match r.1 with
  | .ok () => f r.2
  | .err e => ([], .err (.buildingRequest e))
  | .panic => ([], .panic)
  | .stuck => ([], .stuck)

/-- `send_and_wait(..).await?` followed by a `match` on the value. As in client/src/backend/server.rs 198-204. -/
def bind {α} (r : Job Value) (f : Value → Outcome Error α) : Job α :=
  (r.1, match r.2 with
    | .ok v => f v
    | .err e => .err e
    | .panic => .panic
    | .stuck => .stuck)

/-- `Float` and `Integer` pass, everything else is `BadResponse`. client/src/backend/server.rs 200-204, 213-217,
283-287 and 296-300. -/
def asNumber : Value → Outcome Error Value
  | .float f => .ok (.float f)
  | .integer i => .ok (.integer i)
  | _ => .err .badResponse

/-- `Value::Bytes(bytes) => Ok(bytes)`, else `BadResponse`. client/src/backend/server.rs 226-229 and 371-374. -/
def asBytes : Value → Outcome Error Bytes
  | .bytes b => .ok b
  | _ => .err .badResponse

/-- `Value::List(list) => Ok(list)`, else `BadResponse`. client/src/backend/server.rs 238-241 and 346-349. -/
def asList : Value → Outcome Error (List Bytes)
  | .list l => .ok l
  | _ => .err .badResponse

/-- `Value::Boolean(b) => Ok(b)`, else `BadResponse`. client/src/backend/server.rs 256-259 and 316-319. -/
def asBool : Value → Outcome Error Bool
  | .boolean b => .ok b
  | _ => .err .badResponse

/-- `Value::Integer(int) => Ok(int)`, else `BadResponse`. client/src/backend/server.rs 358-361. -/
def asInt : Value → Outcome Error Int64
  | .integer i => .ok i
  | _ => .err .badResponse

/-- `Value::Map(map) => Ok(map)`, else `BadResponse`. client/src/backend/server.rs 382-385. -/
def asMap : Value → Outcome Error BMap
  | .map m => .ok m
  | _ => .err .badResponse

/-- client/src/backend/server.rs 328-337. -/
def asKeyType : Value → Outcome Error KeyType
  | .integer i =>
    match KeyType.ofByte (UInt8.ofNat (i.toUInt64.toNat % 256)) with
    | some t => .ok t
    | none => .err (.keyTypeInvalid (UInt8.ofNat (i.toUInt64.toNat % 256)))
  | _ => .err .badResponse

/-! The calls are written for any `send`, which for a connection is `sendAndWait env.mode fuel c`. -/

variable (env : Env) (send : Builder → Job Value)

/-- client/src/backend/server.rs 160-183 (`append`). -/
def append (key : Bytes) (value : Value) : Job Value :=
  built ((Builder.newWithKeyType .append (some value.kind)).bytes env.mode key) fun b =>
    match value with
    | .bytes x => built (b.bytes env.mode x) send
    | .list l => built (b.bytesAll env.mode l) send
    | .string s => built (b.bytes env.mode (strBytes s)) send
    | _ => ([], .err (.keyTypeUnsupported value.kind))

/-- client/src/backend/server.rs 185-205 (`decrement_by`). -/
def decrementBy (key : Bytes) (value : Value) : Job Value :=
  built ((Builder.newWithKeyType .decrementBy (some value.kind)).bytes env.mode key) fun b =>
    if value.kind ≠ .float ∧ value.kind ≠ .integer then ([], .err (.keyTypeUnsupported value.kind))
    else built (b.value env value) fun b => bind (send b) asNumber

/-- client/src/backend/server.rs 207-218 (`decrement`). -/
def decrement (key : Bytes) (kt : Option KeyType) : Job Value :=
  built ((Builder.newWithKeyType .decrement kt).bytes env.mode key) fun b =>
    bind (send b) asNumber

/-- client/src/backend/server.rs 220-230 (`delete`). -/
def delete (key : Bytes) : Job Bytes :=
  built ((Builder.new .delete).bytes env.mode key) fun b => bind (send b) asBytes

/-- client/src/backend/server.rs 232-242 (`echo`). -/
def echo (content : Bytes) : Job (List Bytes) :=
  built ((Builder.new .echo).bytes env.mode content) fun b => bind (send b) asList

/-- client/src/backend/server.rs 244-260 (`exists`). -/
def «exists» (keys : List Bytes) : Job Bool :=
  built ((Builder.new .exists).bytesAll env.mode keys) fun b => bind (send b) asBool

/-- client/src/backend/server.rs 262-267 (`get`). -/
def get (key : Bytes) : Job Value :=
  built ((Builder.new .get).bytes env.mode key) send

/-- client/src/backend/server.rs 269-288 (`increment_by`): unlike `decrement_by`, the type is checked
before the key. -/
def incrementBy (key : Bytes) (value : Value) : Job Value :=
  if value.kind ≠ .float ∧ value.kind ≠ .integer then ([], .err (.keyTypeUnsupported value.kind))
  else built ((Builder.newWithKeyType .incrementBy (some value.kind)).bytes env.mode key) fun b =>
    built (b.value env value) fun b => bind (send b) asNumber

/-- client/src/backend/server.rs 290-301 (`increment`): the key type is ignored. -/
def increment (key : Bytes) (_kt : Option KeyType) : Job Value :=
  built ((Builder.new .increment).bytes env.mode key) fun b =>
    bind (send b) asNumber

/-- client/src/backend/server.rs 303-320 (`is`). -/
def is (kt : KeyType) (keys : List Bytes) : Job Bool :=
  built ((Builder.newWithKeyType .is (some kt)).bytesAll env.mode keys) fun b =>
    bind (send b) asBool

/-- client/src/backend/server.rs 322-338 (`key_type`). -/
def keyType (key : Bytes) : Job KeyType :=
  built ((Builder.new .type).bytes env.mode key) fun b => bind (send b) asKeyType

/-- client/src/backend/server.rs 340-350 (`keys`). -/
def keys (key : Bytes) : Job (List Bytes) :=
  built ((Builder.new .keys).bytes env.mode key) fun b => bind (send b) asList

/-- client/src/backend/server.rs 352-362 (`length`). -/
def length (key : Bytes) (kt : Option KeyType) : Job Int64 :=
  built ((Builder.newWithKeyType .length kt).bytes env.mode key) fun b =>
    bind (send b) asInt

/-- client/src/backend/server.rs 364-375 (`rename`). -/
def rename (src dst : Bytes) : Job Bytes :=
  built ((Builder.new .rename).bytes env.mode src) fun b =>
    built (b.bytes env.mode dst) fun b => bind (send b) asBytes

/-- client/src/backend/server.rs 377-388 (`stats`). -/
def stats : Job BMap := bind (send (Builder.new .stats)) asMap

/-- client/src/backend/server.rs 390-399 (`set`). -/
def set (key : Bytes) (value : Value) : Job Value :=
  built ((Builder.newWithKeyType .set (some value.kind)).bytes env.mode key) fun b =>
    built (b.value env value) send

end Server

end Hop.Client
