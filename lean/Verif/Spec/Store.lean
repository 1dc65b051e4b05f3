import Verif.Model.Prog
import Verif.Model.Request

/-!
# Specification of the engine: a typed key-value store

What each command answers and how it changes the stored keys, described as functions on a mapping from
keys to values. There are no programs, guards, retry loops, buffers or positions here. Conversions of
maps and sets from argument lists (`convMap`, `convSet`) are characterised separately (C52).
-/

namespace Hop.Spec

/-- What a client is answered: a value, an error, or nothing because the request crashed. -/
inductive Answer where
  | value (v : Value)
  | error (e : DispatchError)
  | crash
deriving DecidableEq

/-- The stored keys. -/
abbrev Store := Bytes → Option Value

/-- The store with one entry replaced (`none`: removed). -/
def Store.put (s : Store) (k : Bytes) (v : Option Value) : Store := fun k' => if k' = k then v else s k'

/-- Keys reserved for internal use: those starting with `__hop__:`. -/
def reserved (k : Bytes) : Prop := k.take 8 = ascii "__hop__:"

instance (k : Bytes) : Decidable (reserved k) := by unfold reserved; infer_instance

/-- Keys that most commands crash on: reserved ones, and in debug builds the empty one. -/
def unusable (m : Mode) (k : Bytes) : Prop := reserved k ∨ (m = .debug ∧ k = [])

instance (m : Mode) (k : Bytes) : Decidable (unusable m k) := by unfold unusable; infer_instance

/-- Representable as a 64-bit signed number. -/
def inRange (n : Int) : Prop := -2 ^ 63 ≤ n ∧ n < 2 ^ 63

instance (n : Int) : Decidable (inRange n) := by unfold inRange; infer_instance

/-- The type a command works with: the requested one, else that of the stored value, else a default. -/
def effectiveType (kt : Option KeyType) (stored : Option Value) (dflt : KeyType) : KeyType :=
  match kt, stored with
  | some t, _ => t
  | none, some v => v.kind
  | none, none => dflt

/-- Integer counters: a missing key counts from zero; results outside the 64-bit range crash in debug
builds and wrap around in release builds. -/
def addInteger (m : Mode) (k : Bytes) (n : Int) (s : Store) : Answer × Store :=
  if unusable m k then (.crash, s)
  else match (s k).getD (.integer 0) with
    | .integer i =>
      if inRange (i.toInt + n) ∨ m = .release then
        (.value (.integer (Int64.ofInt (i.toInt + n))), s.put k (some (.integer (Int64.ofInt (i.toInt + n)))))
      else (.crash, s)
    | _ => (.error .keyTypeDifferent, s)

/-- Float counters: only float keys; a missing key is created as the integer 0 and reported as an error. -/
def addFloat (m : Mode) (add : F64 → F64) (k : Bytes) (s : Store) : Answer × Store :=
  if unusable m k then (.crash, s)
  else match s k with
    | some (.float f) => (.value (.float (add f)), s.put k (some (.float (add f))))
    | some _ => (.error .keyTypeDifferent, s)
    | none => (.error .keyTypeDifferent, s.put k (some (.integer 0)))

/-- Appending arguments to a value. Pieces of text that are not UTF-8 are skipped. -/
def appended : Value → List Bytes → Option Value
  | .bytes b, items => some (.bytes (b ++ items.flatten))
  | .list l, items => some (.list (l ++ items))
  | .string t, items => some (.string (t ++ (items.filterMap fromUtf8).flatten))
  | _, _ => none

/-- The value of a given type spelled by the arguments after the key. -/
def parseValue : KeyType → List Bytes → Option Value
  | .list, items => some (.list items)
  | .map, items => some (.map (convMap items))
  | .set, items => some (.set (convSet items))
  | _, [] => none
  | .bytes, a :: _ => some (.bytes a)
  | .boolean, a :: _ => a.head?.map fun b => .boolean (b != 0)
  | .float, a :: _ => if 8 ≤ a.length then some (.float (F64.ofBytes (a.take 8))) else none
  | .integer, a :: _ => if 8 ≤ a.length then some (.integer (i64OfBytes (a.take 8))) else none
  | .string, a :: _ => (fromUtf8 a).map .string

/-- The size of a value: bytes, items, entries, characters. -/
def size : Value → Option Nat
  | .bytes b => some b.length
  | .list l => some l.length
  | .map m => some m.length
  | .set s => some s.length
  | .string s => some s.length
  | _ => none

/-- Types that have a size. -/
def sized : KeyType → Bool
  | .bytes | .list | .map | .set | .string => true
  | _ => false

/-- A counter as Stats reports it, unless it was never counted (or does not fit). -/
def reported (ctrs : Metric → Option Nat) (m : Metric) : Option Bytes :=
  match ctrs m with
  | some n => if n < 2 ^ 63 then some (beBytes 8 n) else none
  | none => none

/-- The counters reported by Stats, by name. -/
def statistics (ctrs : Metric → Option Nat) : BMap :=
  [(Metric.commandsErrored, "commands_errored"), (Metric.commandsSuccessful, "commands_successful"),
    (Metric.sessionsStarted, "sessions_started")].filterMap fun e =>
      (reported ctrs e.1).map fun n => (ascii e.2, n)

/-- What a command with a key type and arguments answers, and the stored keys afterwards. `env` supplies
the build profile, float addition and the order in which the keys of a map are listed. -/
def execute (env : Env) (ctrs : Metric → Option Nat) (c : CommandId) (kt : Option KeyType)
    (args : List Bytes) (s : Store) : Answer × Store :=
  match c, args with
  | .append, [] | .decrement, [] | .decrementBy, [] | .get, [] | .increment, [] | .incrementBy, [] | .keys, []
  | .length, [] | .set, [] | .type, [] => (.error .keyUnspecified, s)
  | .delete, [] | .rename, [] =>
    (.error (if kt.isSome then .keyTypeUnexpected else .keyUnspecified), s)
  | .append, k :: items =>
    let t := effectiveType kt (s k) .bytes
    if t ≠ .bytes ∧ t ≠ .list ∧ t ≠ .string then (.error .keyTypeDifferent, s)
    else if unusable env.mode k then (.crash, s)
    else if ((s k).getD (.default t)).kind ≠ t then (.error .keyTypeDifferent, s)
    else match appended ((s k).getD (.default t)) items with
      | some v => (.value v, s.put k (some v))
      | none => (.error .keyTypeDifferent, s)
  | .increment, k :: _ =>
    if kt = some .float then addFloat env.mode (fun f => env.fadd f ⟨0x3ff0000000000000⟩) k s else addInteger env.mode k 1 s
  | .decrement, k :: _ =>
    if kt = some .float then addFloat env.mode (fun f => env.fadd f ⟨0xbff0000000000000⟩) k s
    else addInteger env.mode k (-1) s
  | .incrementBy, [_] | .decrementBy, [_] => (.error .argumentRetrieval, s)
  | .incrementBy, k :: a :: _ =>
    if 8 ≤ a.length then addInteger env.mode k (i64OfBytes (a.take 8)).toInt s
    else (.error .argumentRetrieval, s)
  | .decrementBy, k :: a :: _ =>
    if 8 ≤ a.length then
      if env.mode = .debug ∧ (i64OfBytes (a.take 8)).toInt = -2 ^ 63 then (.crash, s)
      else addInteger env.mode k (-(i64OfBytes (a.take 8)).toInt) s
    else (.error .argumentRetrieval, s)
  | .delete, k :: _ =>
    if kt.isSome then (.error .keyTypeUnexpected, s)
    else if (s k).isNone then (.error .preconditionFailed, s)
    else (.value (.bytes k), s.put k none)
  | .echo, args => (.value (.list args), s)
  | .exists, args =>
    if kt.isSome then (.error .keyTypeUnexpected, s)
    else if args = [] then (.error .argumentRetrieval, s)
    else (.value (.boolean (args.all fun k => (s k).isSome)), s)
  | .is, args =>
    match kt with
    | none => (.error .keyTypeRequired, s)
    | some t =>
      if args = [] then (.error .argumentRetrieval, s)
      else (.value (.boolean (args.all fun k => (s k).map Value.kind = some t)), s)
  | .get, k :: _ =>
    if unusable env.mode k then (.crash, s)
    else match s k with
      | none => (.error .keyNonexistent, s)
      | some v => if kt = none ∨ kt = some v.kind then (.value v, s) else (.error .keyTypeDifferent, s)
  | .keys, k :: _ =>
    if effectiveType kt (s k) .map ≠ .map then (.error .keyTypeInvalid, s)
    else if unusable env.mode k then (.crash, s)
    else match s k with
      | none => (.error .keyNonexistent, s)
      | some (.map m) => (.value (.list ((env.mapOrd m).map Prod.fst)), s)
      | some _ => (.error .keyTypeDifferent, s)
  | .length, k :: _ =>
    let t := effectiveType kt (s k) .bytes
    if sized t = false then (.error .keyTypeInvalid, s)
    else if unusable env.mode k then (.crash, s)
    else match s k with
      | none => (.error .keyNonexistent, s)
      | some v =>
        if v.kind ≠ t then (.error .keyTypeDifferent, s)
        else match size v with
          | some n => (.value (.integer (Int64.ofNat n)), s)
          | none => (.error .keyTypeDifferent, s)
  | .rename, [_] =>
    (.error (if kt.isSome then .keyTypeUnexpected else .argumentRetrieval), s)
  | .rename, a :: b :: _ =>
    if kt.isSome then (.error .keyTypeUnexpected, s)
    else if (s a).isNone then (.error .keyNonexistent, s)
    else if (s b).isSome then (.error .preconditionFailed, s)
    else (.value (.bytes b), (s.put a none).put b (s a))
  | .set, [_] => (.error .argumentRetrieval, s)
  | .set, k :: items =>
    match parseValue (effectiveType kt (s k) .bytes) items with
    | none => (.error .argumentRetrieval, s)
    | some v => if unusable env.mode k then (.crash, s.put k none) else (.value v, s.put k (some v))
  | .type, k :: _ =>
    if kt.isSome then (.error .keyTypeUnexpected, s)
    else match s k with
      | none => (.error .keyNonexistent, s)
      | some v => (.value (.integer (Int64.ofNat v.kind.toByte.toNat)), s)
  | .stats, _ =>
    if kt.isSome then (.error .keyTypeUnexpected, s) else (.value (.map (statistics ctrs)), s)

end Hop.Spec
