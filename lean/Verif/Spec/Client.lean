import Verif.Model.Client
import Verif.Spec.History

/-!
# Specification of the client

The calls of the client API, the engine command each of them stands for, when a call is refused before it
reaches the engine, and what the caller is given for the engine's answer. No builders, buffers or decoders.
-/

namespace Hop.Spec

/-- A call of the client API. -/
inductive Api where
  | append (k : Bytes) (v : Value)
  | decrementBy (k : Bytes) (v : Value)
  | decrement (k : Bytes) (t : Option KeyType)
  | delete (k : Bytes)
  | echo (c : Bytes)
  | exists (ks : List Bytes)
  | get (k : Bytes)
  | incrementBy (k : Bytes) (v : Value)
  | increment (k : Bytes) (t : Option KeyType)
  | is (t : KeyType) (ks : List Bytes)
  | keyType (k : Bytes)
  | keys (k : Bytes)
  | length (k : Bytes) (t : Option KeyType)
  | rename (a b : Bytes)
  | set (k : Bytes) (v : Value)
  | stats

/-- What a successful call resolves to. -/
inductive Got where
  | value (v : Value)
  | bytes (b : Bytes)
  | list (l : List Bytes)
  | bool (b : Bool)
  | int (i : Int64)
  | kind (t : KeyType)
  | stats (m : BMap)
deriving DecidableEq

deriving instance DecidableEq for Except

/-- Wrap the result of a call. -/
def wrap {α} (f : α → Got) (p : Client.Job α) : Client.Job Got := Client.bind p fun a => Client.ret (f a)

/-- The call as executed by the in-memory backend. -/
def Api.start (env : Env) : Api → Client.Job Got
  | .append k v => wrap .value (Client.append env k v)
  | .decrementBy k v => wrap .value (Client.decrementBy env k v)
  | .decrement k t => wrap .value (Client.decrement env k t)
  | .delete k => wrap .bytes (Client.delete env k)
  | .echo c => wrap .list (Client.echo env c)
  | .exists ks => wrap .bool (Client.exists env ks)
  | .get k => wrap .value (Client.get env k)
  | .incrementBy k v => wrap .value (Client.incrementBy env k v)
  | .increment k t => wrap .value (Client.increment env k t)
  | .is t ks => wrap .bool (Client.is env t ks)
  | .keyType k => wrap .kind (Client.keyType env k)
  | .keys k => wrap .list (Client.keys env k)
  | .length k t => wrap .int (Client.length env k t)
  | .rename a b => wrap .bytes (Client.rename env a b)
  | .set k v => wrap .value (Client.set env k v)
  | .stats => wrap .stats (Client.stats env)

/-- The entries of a map, keys and values alternating. -/
def alternating : BMap → List Bytes
  | [] => []
  | (k, v) :: m => k :: v :: alternating m

/-- The arguments that spell a value: one for a scalar (numbers as 8 bytes, most significant first), the
items of a list or set, the keys and values of a map. -/
def spelled (env : Env) : Value → List Bytes
  | .boolean b => [[if b then 1 else 0]]
  | .bytes b => [b]
  | .float f => [beBytes 8 f.bits.toNat]
  | .integer i => [beBytes 8 i.toUInt64.toNat]
  | .list l => l
  | .map m => alternating (env.mapOrd m)
  | .set s => env.setOrd s
  | .string s => [strBytes s]

/-- The engine command a call stands for. -/
def Api.call (env : Env) : Api → Call
  | .append k v => ⟨.append, some v.kind, k :: spelled env v⟩
  | .decrementBy k v => ⟨.decrementBy, some v.kind, k :: spelled env v⟩
  | .decrement k t => ⟨.decrement, t, [k]⟩
  | .delete k => ⟨.delete, none, [k]⟩
  | .echo c => ⟨.echo, none, [c]⟩
  | .exists ks => ⟨.exists, none, ks⟩
  | .get k => ⟨.get, none, [k]⟩
  | .incrementBy k v => ⟨.incrementBy, some v.kind, k :: spelled env v⟩
  | .increment k t => ⟨.increment, t, [k]⟩
  | .is t ks => ⟨.is, some t, ks⟩
  | .keyType k => ⟨.type, none, [k]⟩
  | .keys k => ⟨.keys, none, [k]⟩
  | .length k t => ⟨.length, t, [k]⟩
  | .rename a b => ⟨.rename, none, [a, b]⟩
  | .set k v => ⟨.set, some v.kind, k :: spelled env v⟩
  | .stats => ⟨.stats, none, []⟩

/-- Values that are refused for being empty or having an empty item. -/
def hollow : Value → Bool
  | .bytes b => b.isEmpty
  | .string s => s.isEmpty
  | .map m => m.isEmpty
  | .set s => s.isEmpty
  | .list l => l.any List.isEmpty
  | _ => false

/-- Kinds of values that can be appended. -/
def appendable : KeyType → Bool
  | .bytes | .list | .string => true
  | _ => false

/-- Kinds of values that can be added or subtracted. -/
def numeric : KeyType → Bool
  | .float | .integer => true
  | _ => false

/-- The error of a call that is refused before the engine sees it. -/
def Api.refusal : Api → Option Client.Error
  | .append k v =>
    if k = [] then some (.buildingRequest .argumentEmpty)
    else if !appendable v.kind then some (.keyTypeUnsupported v.kind v)
    else if hollow v then some (.buildingRequest .argumentEmpty) else none
  | .decrementBy k v | .incrementBy k v =>
    if k = [] then some (.buildingRequest .argumentEmpty)
    else if !numeric v.kind then some (.keyTypeUnsupported v.kind v) else none
  | .set k v =>
    if k = [] then some (.buildingRequest .argumentEmpty)
    else if hollow v then some (.buildingRequest .valueEmpty) else none
  | .rename a b => if a = [] ∨ b = [] then some (.buildingRequest .argumentEmpty) else none
  | .exists ks | .is _ ks => if [] ∈ ks then some (.buildingRequest .argumentEmpty) else none
  | .decrement k _ | .delete k | .echo k | .get k | .increment k _ | .keyType k | .keys k | .length k _ =>
    if k = [] then some (.buildingRequest .argumentEmpty) else none
  | .stats => none

/-- What the caller is given for a value answered by the engine, if it has the shape the call promises. -/
def Api.understood : Api → Value → Option Got
  | .append .., v | .get .., v | .set .., v => some (.value v)
  | .decrementBy .., v | .decrement .., v | .incrementBy .., v | .increment .., v =>
    if numeric v.kind then some (.value v) else none
  | .delete .., .bytes b | .rename .., .bytes b => some (.bytes b)
  | .echo .., .list l | .keys .., .list l => some (.list l)
  | .exists .., .boolean b | .is .., .boolean b => some (.bool b)
  | .length .., .integer i => some (.int i)
  | .keyType .., .integer i =>
    if 0 ≤ i.toInt ∧ i.toInt < 8 then (KeyType.ofByte (UInt8.ofNat i.toInt.toNat)).map .kind else none
  | .stats, .map m => some (.stats m)
  | _, _ => none

/-- What the caller is given for the engine's answer: the value with maps and sets in some order, the
engine's error, or a panic. -/
def Api.given (env : Env) (a : Api) : Answer → Outcome DispatchError (Except Client.Error Got)
  | .value v =>
    match a.understood (orderedValue env v) with
    | some g => .ok (.ok g)
    | none => .panic
  | .error e => .ok (.error (.runningCommand e))
  | .crash => .panic

/-- The answer fits into a response that the client can read back. -/
def Carriable (m : Mode) : Answer → Prop
  | .value v => FitsValue m v
  | _ => True

/-- Values that `set` can carry to the engine and back: nothing empty, at most 254 list or set items or 127
map entries, map keys below 256 bytes, set items below 65536 bytes, everything below 4 GiB. -/
def Carried : Value → Prop
  | .bytes b => b ≠ [] ∧ b.length + 5 < 2 ^ 32
  | .string s => s ≠ [] ∧ (strBytes s).length + 5 < 2 ^ 32
  | .list l => l ≠ [] ∧ l.length ≤ 254 ∧ (∀ i ∈ l, i ≠ []) ∧ 3 + (l.map fun i => 4 + i.length).sum < 2 ^ 32
  | .map m => m ≠ [] ∧ m.length ≤ 127 ∧ (∀ e ∈ m, e.1.length < 256) ∧
      3 + (m.map fun e => 5 + e.1.length + e.2.length).sum < 2 ^ 32
  | .set s => s ≠ [] ∧ s.length ≤ 254 ∧ (∀ i ∈ s, i.length < 65536) ∧
      3 + (s.map fun i => 2 + i.length).sum < 2 ^ 32
  | _ => True

/-- The number of bytes a value takes in a response. -/
def weight : Value → Nat
  | .bytes b => b.length + 5
  | .string s => (strBytes s).length + 5
  | .list l => 3 + (l.map fun i => 4 + i.length).sum
  | .map m => 3 + (m.map fun e => 5 + e.1.length + e.2.length).sum
  | .set s => 3 + (s.map fun i => 2 + i.length).sum
  | .boolean _ => 2
  | _ => 9

/-- Keys named by a call. -/
def Api.named : Api → List Bytes
  | .append k _ | .decrementBy k _ | .decrement k _ | .delete k | .get k | .incrementBy k _ | .increment k _
  | .keyType k | .keys k | .length k _ | .set k _ => [k]
  | .exists ks | .is _ ks => ks
  | .rename a b => [a, b]
  | .echo _ | .stats => []

/-- The number a value given to `increment_by` or `decrement_by` is taken for: the 8 bytes it is sent as,
read as a signed number (also for floats). -/
def amount : Value → Int
  | .integer i => i.toInt
  | .float f => (Int64.ofUInt64 f.bits).toInt
  | _ => 0

/-- By how much a call changes an integer counter. -/
def Api.delta : Api → Option (Bytes × Int)
  | .increment k t => if t = some .float then none else some (k, 1)
  | .decrement k t => if t = some .float then none else some (k, -1)
  | .incrementBy k v => some (k, amount v)
  | .decrementBy k v => some (k, -amount v)
  | _ => none

/-- Debug builds only: the counter the call changes stays within 64 bits, and the amount can be negated. -/
def CounterFits (m : Mode) (a : Api) (db : Db) : Prop :=
  m = .debug → ∀ k n, a.delta = some (k, n) →
    n ≠ 2 ^ 63 ∧ ∀ i, (db.keys k).getD (.integer 0) = .integer i → inRange (i.toInt + n)

/-- What the client is to receive is within the limits of a response: key names (and echoed text) below
4 GiB, and for the calls that return stored data, that data. -/
def Moderate (env : Env) (a : Api) (db : Db) : Prop :=
  (∀ x ∈ (a.call env).args, x.length + 8 < 2 ^ 32) ∧
  match a with
  | .append .. | .get .. | .set .. | .keys .. => Carriable env.mode (perform env (a.call env) db).1
  | _ => True

end Hop.Spec
