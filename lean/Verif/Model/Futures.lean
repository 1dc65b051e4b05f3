import Verif.Spec.Client

/-!
# Requests of the client as futures

client/src/lib.rs, client/src/request/: what a request object holds, how it is configured, and what polling
it does. Generic in the backend, like the code. The methods of the `Backend` trait (client/src/backend/mod.rs
18-102) with their arguments are written as `Spec.Api`, what they return as `Spec.Got`.

The 36 request structs have the same three parts: `Option`s holding the backend and the arguments, plain
fields, and `fut`. They are written as one structure; `Shape` says which struct it is.
-/

namespace Hop.Client.Futures

open Spec

/-- `core::task::Poll`, or a panic. As in client/src/request/get/get_boolean.rs 37. -/
inductive Poll (α : Type) where
  | pending
  | ready (a : α)
  | panic
deriving DecidableEq

/-- A backend: the futures its methods return, as state machines acting on a shared world. Calling a method does
nothing until the future is polled (`async_trait`). client/src/backend/mod.rs 16-102. -/
structure Backend (σ ε : Type) where
  State : Type
  start : Api → State
  poll : State → σ → Poll (Except ε Got) × State × σ

/-- An `async move { .. }` block of a request: waiting for the backend's future, then checking the type (`match
value { Value::T(x) => Ok(x), _ => unreachable!() }`) if it is a typed request; or completed.
client/src/request/get/get_boolean.rs 42-50 and the like. -/
inductive Block (S : Type) where
  | running (s : S) (t : Option KeyType)
  | over

/-- The end of the `async` block: untyped requests return what the backend returned, typed ones its payload
(client/src/request/get/get_boolean.rs 44-49 and the like). -/
def settle {ε} : Option KeyType → Got → Poll (Except ε Got)
  | none, g => .ready (.ok g)
  | some t, .value v => if v.kind = t then .ready (.ok (.value v)) else .panic
  | some _, _ => .panic

/-- Polling an `async` block. A block that has completed or panicked panics when polled again.
client/src/request/get/get_boolean.rs 53 and the like. -/
def Block.poll {σ ε} (B : Backend σ ε) : Block B.State → σ → Poll (Except ε Got) × Block B.State × σ
  | .running s t, w =>
    match B.poll s w with
    | (.pending, s', w') => (.pending, .running s' t, w')
    | (.ready (.ok g), _, w') => (settle t g, .over, w')
    | (.ready (.error e), _, w') => (.ready (.error e), .over, w')
    | (.panic, _, w') => (.panic, .over, w')
  | .over, w => (.panic, .over, w)

/-- The request structs. `get none` is `GetUnconfigured`, `get (some .boolean)` is `GetBoolean` and so on; `set
none` is `SetValue`, `set (some .boolean)` is `SetBoolean`; `incrementBy .float` is `IncrementFloat`.
client/src/request/get/get_boolean.rs 16-20 and the like. -/
inductive Shape where
  | append (t : KeyType)
  | decrement
  | decrementBy (t : KeyType)
  | delete
  | echo
  | exists
  | get (t : Option KeyType)
  | increment
  | incrementBy (t : KeyType)
  | is (t : KeyType)
  | keyType
  | keys
  | length
  | rename
  | set (t : Option KeyType)
  | stats
deriving DecidableEq

/-- A request object. `first` is the field `key`, `content` or `from`, `second` the field `to`. Fields a struct does
not have are not used. client/src/request/get/get_boolean.rs 16-20 and the like. -/
structure ClientRequest (S : Type) where
  shape : Shape
  backend : Bool
  first : Option Bytes
  second : Option Bytes
  keys : Option (List Bytes)
  value : Option Value
  kind : Option KeyType
  amount : Value
  fut : Option (Block S)

/-- All fields absent. client/src/request/get/get_boolean.rs 23-29 and the like fill some of them. -/
def blank (S : Type) (shape : Shape) : ClientRequest S :=
  ⟨shape, true, none, none, none, none, none, .integer 0, none⟩

variable {S : Type}

/-- A key and nothing else: the `new` functions in client/src/request, client/src/request/get/mod.rs 67-73, delete.rs 17-23, echo.rs 17-23, keys.rs 17-23,
type.rs 18-24, length.rs 21-28, increment/mod.rs 24-31, decrement/mod.rs 23-29; those of typed requests add a value or an
amount to it (append/append_*.rs 24-31, set/set_*.rs 24-31, increment/increment_*.rs 24-31, decrement/decrement_*.rs 24-31,
get/get_*.rs 23-29). They are called in client/src/lib.rs 107-445. -/
def ofKey (shape : Shape) (key : Bytes) : ClientRequest S := { blank S shape with first := some key }

/-- client/src/lib.rs 463-465 and client/src/request/stats.rs 16-22. -/
def stats : ClientRequest S := blank S .stats

/-- client/src/lib.rs 411-417 and client/src/request/rename.rs 27-34. -/
def rename (src dst : Bytes) : ClientRequest S := { blank S .rename with first := some src, second := some dst }

/-- `1` and `1f64`: client/src/request/increment/increment_int.rs 26, increment_float.rs 26 and the same for
decrement. -/
def one : KeyType → Value
  | .float => .float ⟨0x3FF0000000000000⟩
  | _ => .integer 1

/-- client/src/request/get/mod.rs 78-269 (`boolean`, `bool`, `bytes`, `float`, `integer`, `int`, `list`, `map`,
`set`, `string`, `str`): `self.backend.unwrap()` and `self.key.unwrap()` panic (`none`) if they were taken. -/
def getAs (r : ClientRequest S) (t : KeyType) : Option (ClientRequest S) :=
  if r.backend then r.first.map (ofKey (.get (some t))) else none

/-- client/src/request/increment/mod.rs 33-39 (`float`, `int`). -/
def incrementAs (r : ClientRequest S) (t : KeyType) : Option (ClientRequest S) :=
  if r.backend then r.first.map fun k => { ofKey (.incrementBy t) k with amount := one t } else none

/-- client/src/request/decrement/mod.rs 31-37 (`float`, `int`). -/
def decrementAs (r : ClientRequest S) (t : KeyType) : Option (ClientRequest S) :=
  if r.backend then r.first.map fun k => { ofKey (.decrementBy t) k with amount := one t } else none

/-- client/src/request/increment/increment_int.rs 33-37, increment_float.rs 33-37 and the same for decrement
(`by`). -/
def byAmount (r : ClientRequest S) (amount : Value) : ClientRequest S := { r with amount := amount }

/-- client/src/request/length.rs 31-70 (`bytes`, `list`, `map`, `set`, `string`, `str`). -/
def withType (r : ClientRequest S) (t : KeyType) : ClientRequest S := { r with kind := some t }

/-- client/src/request/set/mod.rs 71-280: `AppendUnconfigured` and `SetUnconfigured` have no `Option`s, so
configuring them cannot fail. How `map` and `set` collect their argument is in `Verif.Model.Collections`. -/
def setAs (key : Bytes) (v : Value) : ClientRequest S :=
  { ofKey (.set (some v.kind)) key with value := some v }

/-- client/src/request/set/mod.rs 278-280 (`value`). -/
def setValue (key : Bytes) (v : Value) : ClientRequest S := { ofKey (.set none) key with value := some v }

/-- client/src/request/append/mod.rs 41-61 (`bytes`, `list`, `string`, `str`). -/
def appendAs (key : Bytes) (v : Value) : ClientRequest S :=
  { ofKey (.append v.kind) key with value := some v }

/-- client/src/request/exists.rs 60-65 (`key`). -/
def existsKey (key : Bytes) : ClientRequest S := { blank S .exists with keys := some [key] }

/-- client/src/request/exists.rs 81-94 (`keys`). -/
def existsKeys (keys : List Bytes) : Except ConfigError (ClientRequest S) :=
  (checkKeys keys).map fun ks => { blank S .exists with keys := some ks }

/-- client/src/request/is.rs 62-67 (`key`). -/
def isKey (t : KeyType) (key : Bytes) : ClientRequest S := { blank S (.is t) with keys := some [key] }

/-- client/src/request/is.rs 83-96 (`keys`). -/
def isKeys (t : KeyType) (keys : List Bytes) : Except ConfigError (ClientRequest S) :=
  (checkKeys keys).map fun ks => { blank S (.is t) with keys := some ks }

/-- The method called with what was taken out of the fields. client/src/request/get/get_boolean.rs 44 and the like.
-/
def method (r : ClientRequest S) : Option Api :=
  match r.shape, r.first, r.second, r.keys, r.value with
  | .append _, some k, _, _, some v => some (.append k v)
  | .decrement, some k, _, _, _ => some (.decrement k none)
  | .decrementBy _, some k, _, _, _ => some (.decrementBy k r.amount)
  | .delete, some k, _, _, _ => some (.delete k)
  | .echo, some k, _, _, _ => some (.echo k)
  | .exists, _, _, some ks, _ => some (.exists ks)
  | .get _, some k, _, _, _ => some (.get k)
  | .increment, some k, _, _, _ => some (.increment k r.kind)
  | .incrementBy _, some k, _, _, _ => some (.incrementBy k r.amount)
  | .is t, _, _, some ks, _ => some (.is t ks)
  | .keyType, some k, _, _, _ => some (.keyType k)
  | .keys, some k, _, _, _ => some (.keys k)
  | .length, some k, _, _, _ => some (.length k r.kind)
  | .rename, some a, some b, _, _ => some (.rename a b)
  | .set _, some k, _, _, some v => some (.set k v)
  | .stats, _, _, _, _ => some .stats
  | _, _, _, _, _ => none

/-- The type a typed request insists on. client/src/request/get/get_boolean.rs 46-49 and the like. -/
def Shape.typed : Shape → Option KeyType
  | .append t | .decrementBy t | .incrementBy t => some t
  | .get t | .set t => t
  | _ => none

/-- `take()` of the backend and of every optional argument. client/src/request/get/get_boolean.rs 39-40 and the
like. -/
def emptied (r : ClientRequest S) : ClientRequest S :=
  { r with backend := false, first := none, second := none, keys := none, value := none, kind := none }

/-- The `poll` functions of client/src/request (append/append_*.rs 39-57, decrement/decrement_*.rs 45-63,
decrement/mod.rs 45-57, delete.rs 31-43, echo.rs 31-43, exists.rs 119-129, get/get_*.rs 37-54, get/mod.rs 277-289,
increment/increment_*.rs 45-63, increment/mod.rs 47-61, is.rs 123-134, keys.rs 31-43, length.rs 78-91, rename.rs 44-59,
set/set_*.rs 39-60, set/set_value.rs 41-54, stats.rs 27-36, type.rs 32-44): if there is no future yet, take the backend and the
arguments out of their `Option`s (`expect`, a panic if they are gone) and create it; then poll it. -/
def ClientRequest.poll {σ ε} (B : Backend σ ε) (r : ClientRequest B.State) (w : σ) :
    Poll (Except ε Got) × ClientRequest B.State × σ :=
  match r.fut with
  | some b =>
    match b.poll B w with
    | (p, b', w') => (p, { r with fut := some b' }, w')
  | none =>
    if r.backend then
      match method r with
      | some a =>
        match (Block.running (B.start a) r.shape.typed).poll B w with
        | (p, b', w') => (p, { emptied r with fut := some b' }, w')
      | none => (.panic, emptied r, w)
    else (.panic, r, w)

/-- client/src/lib.rs 48-56 (`Client::connect`), given the result of `ServerBackend::connect`
(client/src/backend/server.rs 104-115, which reports a failed connection as `Connecting`):
`.await.unwrap()`. -/
def connect {α ε} (attempt : Except ε α) : Outcome ε α :=
  match attempt with
  | .ok a => .ok a
  | .error _ => .panic

/-- The in-memory backend as futures: its methods contain no `.await`
(client/src/backend/memory.rs 114-345), so they run to the end when first polled (other threads may run in between, see `Prog`; here the call is run alone); afterwards the state is
`none`. -/
def memory (env : Env) : Backend Db Client.Error where
  State := Option Api
  start := some
  poll
    | some a, db =>
      match (a.start env).run db with
      | (.ok r, db') => (.ready r, none, db')
      | (_, db') => (.panic, none, db')
    | none, db => (.panic, none, db)

end Hop.Client.Futures
