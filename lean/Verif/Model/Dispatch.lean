import Verif.Model.Prog
import Verif.Model.Request
import Verif.Model.Response

/-!
# The engine: state access and the sixteen commands

engine/src/state/mod.rs, engine/src/command/impl/*.rs, engine/src/hop.rs.

A command takes the response buffer and ends with the new one. In the code every write to the response
buffer is followed only by infallible statements before `Ok(())`, so an error leaves it unchanged.
-/

namespace Hop

open Prog

/-! ## State (engine/src/state/mod.rs) -/

/-- The bytes of `__hop__:` (engine/src/state/mod.rs 129, 143, 174). -/
def internalPrefix : Bytes := [95, 95, 104, 111, 112, 95, 95, 58]

/-- `key.starts_with(b"__hop__:")`. engine/src/state/mod.rs 129, 143 and 174. -/
def isInternal (k : Bytes) : Bool := internalPrefix.isPrefixOf k

/-- engine/src/state/mod.rs 70-72 (`contains_key`). -/
def containsKey {α} (k : Bytes) (next : Bool → Prog α) : Prog α := readKey k (fun o => next o.isSome)

/-- engine/src/state/mod.rs 86-88 (`insert`), result ignored by all callers. -/
def insertKey {α} (k : Bytes) (v : Value) (next : Prog α) : Prog α :=
  onKey k (fun _ => some v) (fun _ => next)

/-- engine/src/state/mod.rs 106-108 (`remove`). -/
def removeKey {α} (k : Bytes) (next : Option Value → Prog α) : Prog α := onKey k (fun _ => none) next

/-- engine/src/state/mod.rs 128-136 (`key_ref`): panics on an internal key, and on an empty key in a
debug build. -/
def keyRef {α} (env : Env) (k : Bytes) (next : Option Value → Prog α) : Prog α :=
  if isInternal k then done .panic
  else if env.mode = .debug ∧ k = [] then done .panic
  else readKey k next

/-- engine/src/state/mod.rs 207-209 (`key_type`). -/
def keyTypeOf {α} (k : Bytes) (next : Option KeyType → Prog α) : Prog α :=
  readKey k (fun o => next (o.map Value.kind))

/-- engine/src/state/mod.rs 180-191: the loop of `key_or_insert_with`, with an iteration budget. `body`
is what the caller does with the guard: it maps the value to its new value and the outcome. -/
def keyOrInsertLoop {α} (k : Bytes) (mk : Value)
    (body : Value → Value × Outcome DispatchError α) : Nat → Prog α
  | 0 => done .stuck
  | n + 1 =>
    onKey k (fun o => o.map (fun v => (body v).1)) (fun o =>
      match o with
      | some v => done (body v).2
      | none => insertKey k mk (keyOrInsertLoop k mk body n))

/-- engine/src/state/mod.rs 169-192 (`key_or_insert_with`) followed by the caller's use of the guard.
Alone, the loop needs at most two rounds; `Env.spins` more are allowed for interference. -/
def keyOrInsertWith {α} (env : Env) (k : Bytes) (mk : Value)
    (body : Value → Value × Outcome DispatchError α) : Prog α :=
  if isInternal k then done .panic
  else if env.mode = .debug ∧ k = [] then done .panic
  else keyOrInsertLoop k mk body (env.spins + 2)

/-! ## Append (engine/src/command/impl/append.rs) -/

/-- append.rs 15-26 (`bytes`). -/
def appendBytes (env : Env) (args : List Bytes) (resp key : Bytes) : Prog Bytes :=
  keyOrInsertWith env key (Value.default .bytes) fun v =>
    match v with
    | .bytes b =>
      let b := args.foldl (fun acc a => acc ++ a) b
      (.bytes b, .ofOption (Response.writeBytes env.mode resp b))
    | v => (v, .err .keyTypeDifferent)

/-- append.rs 28-37 (`list`). -/
def appendList (env : Env) (args : List Bytes) (resp key : Bytes) : Prog Bytes :=
  keyOrInsertWith env key (Value.default .list) fun v =>
    match v with
    | .list l =>
      let l := l ++ args
      (.list l, .ofOption (Response.writeList env.mode resp l))
    | v => (v, .err .keyTypeDifferent)

/-- append.rs 48-52: arguments that are not UTF-8 are skipped. -/
def pushStrs (s : List Char) (args : List Bytes) : List Char :=
  args.foldl (fun acc a => match fromUtf8 a with
    | some t => acc ++ t
    | none => acc) s

/-- append.rs 39-57 (`string`). -/
def appendString (env : Env) (args : List Bytes) (resp key : Bytes) : Prog Bytes :=
  keyOrInsertWith env key (Value.default .string) fun v =>
    match v with
    | .string s =>
      let s := pushStrs s args
      (.string s, .ofOption (Response.writeStr env.mode resp s))
    | v => (v, .err .keyTypeDifferent)

/-- `req.key_type().or_else(|| hop.state().key_type(key)).unwrap_or(dflt)`
(append.rs 64-67, set.rs 134-137, length.rs 72-75, keys.rs 25-28). -/
def resolveKeyType {α} (req : Request) (key : Bytes) (dflt : KeyType) (next : KeyType → Prog α) :
    Prog α :=
  match req.keyType with
  | some t => next t
  | none => keyTypeOf key (fun o => next (o.getD dflt))

/-- append.rs 60-76. -/
def dispatchAppend (env : Env) (req : Request) (resp : Bytes) : Prog Bytes :=
  orErr (req.arg 0) .keyUnspecified fun key =>
  orErr (req.argsFrom 1) .argumentRetrieval fun args =>
  resolveKeyType req key .bytes fun
    | .bytes => appendBytes env args resp key
    | .list => appendList env args resp key
    | .string => appendString env args resp key
    | _ => fail .keyTypeDifferent

/-! ## Counters (increment_by.rs, decrement_by.rs, increment.rs, decrement.rs) -/

/-- `a + b` on `i64`: overflow panics in a debug build and wraps in a release build. Used for
engine/src/command/impl/increment_by.rs 35. -/
def addI64 (m : Mode) (a b : Int64) : Option Int64 :=
  if (a + b).toInt = a.toInt + b.toInt then some (a + b)
  else match m with
    | .debug => none
    | .release => some (a + b)

/-- `0 - a` on `i64`: overflow panics in a debug build and wraps in a release build. Used for
engine/src/command/impl/decrement_by.rs 15. -/
def negI64 (m : Mode) (a : Int64) : Option Int64 :=
  if (0 - a).toInt = 0 - a.toInt then some (0 - a)
  else match m with
    | .debug => none
    | .release => some (0 - a)

/-- increment_by.rs 8-22 (`increment_float_by`): the key is created as an *integer*. -/
def incrementFloatBy (env : Env) (key : Bytes) (amount : F64) (resp : Bytes) : Prog Bytes :=
  keyOrInsertWith env key (Value.default .integer) fun v =>
    match v with
    | .float f => (.float (env.fadd f amount), .ok (Response.writeFloat resp (env.fadd f amount)))
    | v => (v, .err .keyTypeDifferent)

/-- increment_by.rs 24-40 (`increment_int_by`). -/
def incrementIntBy (env : Env) (key : Bytes) (amount : Int64) (resp : Bytes) : Prog Bytes :=
  keyOrInsertWith env key (Value.default .integer) fun v =>
    match v with
    | .integer i =>
      match addI64 env.mode i amount with
      | some j => (.integer j, .ok (Response.writeInt resp j))
      | none => (.integer i, .panic)
    | v => (v, .err .keyTypeDifferent)

/-- increment_by.rs 43-55. -/
def dispatchIncrementBy (env : Env) (req : Request) (resp : Bytes) : Prog Bytes :=
  orErr req.key .keyUnspecified fun key =>
  match (req.arg 1).bind convInt with
  | some int => incrementIntBy env key int resp
  | none =>
    match (req.arg 1).bind convFloat with
    | some float => incrementFloatBy env key float resp
    | none => fail .argumentRetrieval

/-- decrement_by.rs 10-22. -/
def dispatchDecrementBy (env : Env) (req : Request) (resp : Bytes) : Prog Bytes :=
  orErr req.key .keyUnspecified fun key =>
  match (req.arg 1).bind convInt with
  | some int =>
    match negI64 env.mode int with
    | some neg => incrementIntBy env key neg resp
    | none => done .panic
  | none =>
    match (req.arg 1).bind convFloat with
    | some float => incrementFloatBy env key (env.fsub fzero float) resp
    | none => fail .argumentRetrieval

/-- increment.rs 10-20. -/
def dispatchIncrement (env : Env) (req : Request) (resp : Bytes) : Prog Bytes :=
  orErr req.key .keyUnspecified fun key =>
  if req.keyType = some .float then incrementFloatBy env key fone resp
  else incrementIntBy env key 1 resp

/-- decrement.rs 10-20. -/
def dispatchDecrement (env : Env) (req : Request) (resp : Bytes) : Prog Bytes :=
  orErr req.key .keyUnspecified fun key =>
  if req.keyType = some .float then incrementFloatBy env key fnegone resp
  else incrementIntBy env key (-1) resp

/-! ## Delete, Echo, Exists, Get, Is, Keys, Length, Rename, Type -/

/-- delete.rs 7-24. -/
def dispatchDelete (env : Env) (req : Request) (resp : Bytes) : Prog Bytes :=
  if req.keyType.isSome then fail .keyTypeUnexpected
  else orErr req.key .keyUnspecified fun key =>
    removeKey key fun o =>
      match o with
      | none => fail .preconditionFailed
      | some _ => done (.ofOption (Response.writeBytes env.mode resp key))

/-- echo.rs 7-20. -/
def dispatchEcho (env : Env) (req : Request) (resp : Bytes) : Prog Bytes :=
  match req.argsFrom 0 with
  | some args => done (.ofOption (Response.writeList env.mode resp args))
  | none => done (.ofOption (Response.writeList env.mode resp []))

/-- exists.rs 15: `args.all(|key| hop.state().contains_key(key))`, stopping at the first `false`. -/
def allExist {α} (next : Bool → Prog α) : List Bytes → Prog α
  | [] => next true
  | k :: ks => containsKey k fun b => if b then allExist next ks else next false

/-- exists.rs 7-21. -/
def dispatchExists (_env : Env) (req : Request) (resp : Bytes) : Prog Bytes :=
  if req.keyType.isSome then fail .keyTypeUnexpected
  else orErr (req.argsFrom 0) .argumentRetrieval fun args =>
    allExist (fun b => done (.ok (Response.writeBool resp b))) args

/-- get.rs 9-27. -/
def dispatchGet (env : Env) (req : Request) (resp : Bytes) : Prog Bytes :=
  orErr req.key .keyUnspecified fun key =>
  keyRef env key fun o =>
    match o with
    | none => fail .keyNonexistent
    | some v =>
      match req.keyType with
      | some t =>
        if v.kind ≠ t then fail .keyTypeDifferent
        else done (.ofOption (Response.writeValue env resp v))
      | none => done (.ofOption (Response.writeValue env resp v))

/-- is.rs 14-19: stops at the first key that is missing or of another type. -/
def allAre {α} (t : KeyType) (next : Bool → Prog α) : List Bytes → Prog α
  | [] => next true
  | k :: ks => keyTypeOf k fun o =>
      if (o.map (fun k => k == t)).getD false then allAre t next ks else next false

/-- is.rs 7-25. -/
def dispatchIs (_env : Env) (req : Request) (resp : Bytes) : Prog Bytes :=
  orErr req.keyType .keyTypeRequired fun t =>
  orErr (req.argsFrom 0) .argumentRetrieval fun args =>
  allAre t (fun b => done (.ok (Response.writeBool resp b))) args

/-- keys.rs 8-19 (`map`). -/
def keysMap (env : Env) (key resp : Bytes) : Prog Bytes :=
  keyRef env key fun o =>
    match o with
    | none => fail .keyNonexistent
    | some (.map m) =>
      done (.ofOption (Response.writeList env.mode resp ((env.mapOrd m).map Prod.fst)))
    | some _ => fail .keyTypeDifferent

/-- keys.rs 22-35. -/
def dispatchKeys (env : Env) (req : Request) (resp : Bytes) : Prog Bytes :=
  orErr req.key .keyUnspecified fun key =>
  resolveKeyType req key .map fun
    | .map => keysMap env key resp
    | _ => fail .keyTypeInvalid

/-- The number each of length.rs 8-66 answers for a value of the requested type: bytes of a byte string,
items of a list or set, entries of a map, characters of a string. -/
def lengthOf : KeyType → Value → Option Nat
  | .bytes, .bytes b => some b.length
  | .list, .list l => some l.length
  | .map, .map m => some m.length
  | .set, .set s => some s.length
  | .string, .string s => some s.length
  | _, _ => none

/-- length.rs 8-66 (`bytes`, `list`, `map`, `set`, `string`: the same code up to the variant). -/
def lengthAs (env : Env) (t : KeyType) (key resp : Bytes) : Prog Bytes :=
  keyRef env key fun o =>
    match o with
    | none => fail .keyNonexistent
    | some v =>
      match lengthOf t v with
      | none => fail .keyTypeDifferent
      | some n => done (.ok (Response.writeInt resp (Int64.ofNat n)))

/-- length.rs 69-86. -/
def dispatchLength (env : Env) (req : Request) (resp : Bytes) : Prog Bytes :=
  orErr req.key .keyUnspecified fun key =>
  resolveKeyType req key .bytes fun
    | .bytes => lengthAs env .bytes key resp
    | .list => lengthAs env .list key resp
    | .map => lengthAs env .map key resp
    | .set => lengthAs env .set key resp
    | .string => lengthAs env .string key resp
    | _ => fail .keyTypeInvalid

/-- rename.rs 7-32. -/
def dispatchRename (env : Env) (req : Request) (resp : Bytes) : Prog Bytes :=
  if req.keyType.isSome then fail .keyTypeUnexpected
  else
    orErr (req.arg 0) .keyUnspecified fun key =>
    orErr (req.arg 1) .argumentRetrieval fun arg =>
    containsKey key fun has =>
    if !has then fail .keyNonexistent
    else containsKey arg fun taken =>
      if taken then fail .preconditionFailed
      else removeKey key fun o =>
        match o with
        | none => fail .keyNonexistent
        | some v =>
          insertKey arg v (done (.ofOption (Response.writeBytes env.mode resp arg)))

/-- type.rs 9-26. -/
def dispatchType (_env : Env) (req : Request) (resp : Bytes) : Prog Bytes :=
  orErr req.key .keyUnspecified fun key =>
  if req.keyType.isSome then fail .keyTypeUnexpected
  else keyTypeOf key fun o =>
    match o with
    | none => fail .keyNonexistent
    | some t => done (.ok (Response.writeInt resp (Int64.ofNat t.toByte.toNat)))

/-! ## Set (engine/src/command/impl/set.rs) -/

/-- set.rs 11-24 (`boolean`). -/
def setBoolean (env : Env) (req : Request) (resp key : Bytes) : Prog Bytes :=
  orErr ((req.arg 1).bind convBool) .argumentRetrieval fun arg =>
  removeKey key fun _ =>
  keyOrInsertWith env key (Value.default .boolean) fun v =>
    match v with
    | .boolean _ => (.boolean arg, .ok (Response.writeBool resp arg))
    | v => (v, .err .keyTypeDifferent)

/-- set.rs 26-39 (`bytes`). -/
def setBytes (env : Env) (req : Request) (resp key : Bytes) : Prog Bytes :=
  orErr (req.arg 1) .argumentRetrieval fun arg =>
  removeKey key fun _ =>
  keyOrInsertWith env key (Value.default .bytes) fun v =>
    match v with
    | .bytes _ => (.bytes arg, .ofOption (Response.writeBytes env.mode resp arg))
    | v => (v, .err .keyTypeDifferent)

/-- set.rs 41-52 (`float`). -/
def setFloat (env : Env) (req : Request) (resp key : Bytes) : Prog Bytes :=
  orErr ((req.arg 1).bind convFloat) .argumentRetrieval fun arg =>
  removeKey key fun _ =>
  keyOrInsertWith env key (Value.default .float) fun v =>
    match v with
    | .float _ => (.float arg, .ok (Response.writeFloat resp arg))
    | v => (v, .err .keyTypeDifferent)

/-- set.rs 54-67 (`integer`). -/
def setInteger (env : Env) (req : Request) (resp key : Bytes) : Prog Bytes :=
  orErr ((req.arg 1).bind convInt) .argumentRetrieval fun arg =>
  removeKey key fun _ =>
  keyOrInsertWith env key (Value.default .integer) fun v =>
    match v with
    | .integer _ => (.integer arg, .ok (Response.writeInt resp arg))
    | v => (v, .err .keyTypeDifferent)

/-- set.rs 69-81 (`list`). -/
def setList (env : Env) (req : Request) (resp key : Bytes) : Prog Bytes :=
  orErr (req.argsFrom 1) .argumentRetrieval fun args =>
  removeKey key fun _ =>
  keyOrInsertWith env key (Value.default .list) fun v =>
    match v with
    | .list _ => (.list args, .ofOption (Response.writeList env.mode resp args))
    | v => (v, .err .keyTypeDifferent)

/-- set.rs 83-94 (`map`): the response is written before the value is stored, so a panic while writing
leaves the default (empty) map in place. -/
def setMap (env : Env) (req : Request) (resp key : Bytes) : Prog Bytes :=
  orErr ((req.argsFrom 1).map convMap) .argumentRetrieval fun args =>
  removeKey key fun _ =>
  keyOrInsertWith env key (Value.default .map) fun v =>
    match v with
    | .map old =>
      match Response.writeMap env resp args with
      | some resp' => (.map args, .ok resp')
      | none => (.map old, .panic)
    | v => (v, .err .keyTypeDifferent)

/-- set.rs 96-107 (`set`): as for `map`. -/
def setSet (env : Env) (req : Request) (resp key : Bytes) : Prog Bytes :=
  orErr ((req.argsFrom 1).map convSet) .argumentRetrieval fun args =>
  removeKey key fun _ =>
  keyOrInsertWith env key (Value.default .set) fun v =>
    match v with
    | .set old =>
      match Response.writeSet env resp args with
      | some resp' => (.set args, .ok resp')
      | none => (.set old, .panic)
    | v => (v, .err .keyTypeDifferent)

/-- set.rs 109-122 (`string`). -/
def setString (env : Env) (req : Request) (resp key : Bytes) : Prog Bytes :=
  orErr ((req.arg 1).bind convStr) .argumentRetrieval fun arg =>
  removeKey key fun _ =>
  keyOrInsertWith env key (Value.default .string) fun v =>
    match v with
    | .string _ => (.string arg, .ofOption (Response.writeStr env.mode resp arg))
    | v => (v, .err .keyTypeDifferent)

/-- set.rs 125-150. -/
def dispatchSet (env : Env) (req : Request) (resp : Bytes) : Prog Bytes :=
  orErr req.key .keyUnspecified fun key =>
  if (req.arg 1).isNone then fail .argumentRetrieval
  else resolveKeyType req key .bytes fun
    | .bytes => setBytes env req resp key
    | .boolean => setBoolean env req resp key
    | .float => setFloat env req resp key
    | .integer => setInteger env req resp key
    | .list => setList env req resp key
    | .map => setMap env req resp key
    | .set => setSet env req resp key
    | .string => setString env req resp key

/-! ## Stats (engine/src/command/impl/stats.rs) -/

/-- stats.rs 11-15 (`COUNTERS`). -/
def statsCounters : List Metric := [.commandsErrored, .commandsSuccessful, .sessionsStarted]

/-- stats.rs 27-36: one lookup per counter; a counter that is missing or exceeds `i64::MAX` is skipped. -/
def statsLoop {α} (next : BMap → Prog α) : List Metric → BMap → Prog α
  | [], m => next m
  | c :: cs, m => readCtr c fun o =>
      match o with
      | some n =>
        if n < 2 ^ 63 then
          statsLoop next cs (m.insert (ascii c.name) (i64Bytes (Int64.ofNat n)))
        else statsLoop next cs m
      | none => statsLoop next cs m

/-- stats.rs 18-42. -/
def dispatchStats (env : Env) (req : Request) (resp : Bytes) : Prog Bytes :=
  if req.keyType.isSome then fail .keyTypeUnexpected
  else statsLoop (fun m => done (.ofOption (Response.writeMap env resp m))) statsCounters []

/-! ## Dispatch (engine/src/hop.rs) -/

/-- lib/metrics/src/lib.rs 243-250 (`Writer::increment`): one `entry().or_default() += 1` on a `u64`.
The metrics instance lives as long as the engine (hop.rs 122-129), so `upgrade` succeeds. -/
def incrementMetric {α} (env : Env) (m : Metric) (next : Prog α) : Prog α :=
  onCtr m
    (fun o => some ((addU env.mode 64 (o.getD 0) 1).getD (o.getD 0)))
    (fun o => match addU env.mode 64 (o.getD 0) 1 with
      | some _ => next
      | none => done .panic)

/-- hop.rs 171-188: the command itself. -/
def command (env : Env) (req : Request) (resp : Bytes) : Prog Bytes :=
  match req.commandId with
  | .append => dispatchAppend env req resp
  | .decrementBy => dispatchDecrementBy env req resp
  | .decrement => dispatchDecrement env req resp
  | .delete => dispatchDelete env req resp
  | .echo => dispatchEcho env req resp
  | .exists => dispatchExists env req resp
  | .get => dispatchGet env req resp
  | .increment => dispatchIncrement env req resp
  | .incrementBy => dispatchIncrementBy env req resp
  | .is => dispatchIs env req resp
  | .keys => dispatchKeys env req resp
  | .rename => dispatchRename env req resp
  | .set => dispatchSet env req resp
  | .stats => dispatchStats env req resp
  | .type => dispatchType env req resp
  | .length => dispatchLength env req resp

/-- hop.rs 190-196: count the outcome, then return it. A panic unwinds past this. -/
def countOutcome (env : Env) (r : Outcome DispatchError Bytes) : Prog Bytes :=
  match r with
  | .ok a => incrementMetric env .commandsSuccessful (done (.ok a))
  | .err e => incrementMetric env .commandsErrored (done (.err e))
  | .panic => done .panic
  | .stuck => done .stuck

/-- hop.rs 170-197 (`Hop::dispatch`). -/
def dispatch (env : Env) (req : Request) (resp : Bytes) : Prog Bytes :=
  (command env req resp).andThen (countOutcome env)

end Hop
