import Verif.Model.Cli
import Verif.Spec.Client

/-!
# Specification of the command line interface

How a line spells a command, which client call it stands for, and how results are written out. No splitting,
builders, byte positions or truncation. Decimal numbers are those of Lean's library.
-/

namespace Hop.Spec

open Hop.Cli (Text Std ParseError)

/-! ## Lines -/

/-- The names a type can be given by. -/
def typeNames : KeyType → List String
  | .boolean => ["bool", "boolean"]
  | .bytes => ["bytes"]
  | .float => ["float"]
  | .integer => ["int", "integer"]
  | .list => ["list"]
  | .map => ["map"]
  | .set => ["set"]
  | .string => ["str", "string"]

/-- The first word of a line: the command's name, optionally followed by a colon and a type name; without a
type it is `bytes`. -/
def Head (c : CommandId) (t : KeyType) (w : Text) : Prop :=
  (w = c.name.toList ∧ t = .bytes) ∨ ∃ a ∈ typeNames t, w = c.name.toList ++ ':' :: a.toList

/-- A line: the first word and the others, with a space before each. -/
def lineOf (w : Text) (words : List Text) : Text := w ++ words.flatMap (' ' :: ·)

/-- `s` is a decimal number, with or without a sign, whose value is `n`. -/
def Decimal (s : Text) (n : Int) : Prop :=
  ∃ ds : Text, ds ≠ [] ∧ (∀ c ∈ ds, c.isDigit = true) ∧
    (((s = ds ∨ s = '+' :: ds) ∧ n = Nat.ofDigitChars 10 ds 0) ∨ (s = '-' :: ds ∧ n = -Nat.ofDigitChars 10 ds 0))

/-- The bytes a word stands for as a value of a type. -/
def Spells (std : Std) : KeyType → Text → Bytes → Prop
  | .boolean, w, b => (w = "true".toList ∧ b = [1]) ∨ (w = "false".toList ∧ b = [0])
  | .integer, w, b => ∃ n : Int, Decimal w n ∧ inRange n ∧ b = beBytes 8 (Int64.ofInt n).toUInt64.toNat
  | .float, w, b => ∃ f, std.parseFloat w = some f ∧ b = beBytes 8 f.bits.toNat
  | _, w, b => b = strBytes w

/-- Words that stand for values of a type, one by one. -/
inductive SpellsAll (std : Std) (t : KeyType) : List Text → List Bytes → Prop
  | nil : SpellsAll std t [] []
  | cons {w : Text} {b : Bytes} {ws : List Text} {bs : List Bytes} :
    Spells std t w b → SpellsAll std t ws bs → SpellsAll std t (w :: ws) (b :: bs)

/-- How many of the words are keys. -/
def keyWords : CommandId → List Text → Nat
  | .echo, _ | .stats, _ => 0
  | .exists, ws | .is, ws => ws.length
  | .rename, _ => 2
  | _, _ => 1

/-- The arguments a list of words stands for: keys as they are, then values of the type, which for maps
come in pairs. A line without any words has no arguments. -/
def Arguments (std : Std) (c : CommandId) (t : KeyType) (words : List Text) (args : List Bytes) : Prop :=
  (words = [] ∧ args = []) ∨
  ∃ ks vs bs, words = ks ++ vs ∧ ks.length = keyWords c words ∧ SpellsAll std t vs bs ∧
    (t = .map → vs.length % 2 = 0) ∧ args = ks.map strBytes ++ bs

/-- What the arguments of a line are if it has an odd last map key: that word is ignored. -/
def Ignoring (std : Std) (c : CommandId) (t : KeyType) (words : List Text) (args : List Bytes) : Prop :=
  ∃ kept lost, words = kept ++ lost ∧ lost.length ≤ 1 ∧ (lost ≠ [] → t = .map) ∧ Arguments std c t kept args

/-- The Unicode characters with the property White_Space. -/
def whiteSpace (c : Char) : Prop :=
  c.toNat ∈ [0x9, 0xA, 0xB, 0xC, 0xD, 0x20, 0x85, 0xA0, 0x1680, 0x2000, 0x2001, 0x2002, 0x2003, 0x2004, 0x2005, 0x2006, 0x2007,
    0x2008, 0x2009, 0x200A, 0x2028, 0x2029, 0x202F, 0x205F, 0x3000]

/-! ## What a line does -/

/-- What a line asks for: a client call, a fixed message, nothing (an empty output), or something the CLI
does not support and panics on. -/
inductive Meaning where
  | call (a : Api)
  | message (s : String)
  | blank
  | unsupported

/-- Words joined by spaces. -/
def spaced : List Bytes → Bytes
  | [] => []
  | a :: as => a ++ as.flatMap (32 :: ·)

/-- What a command with its arguments asks for. The type matters for `is` only. -/
def meaning : CommandId → KeyType → List Bytes → Meaning
  | .decrement, _, k :: _ => .call (.decrement k none)
  | .delete, _, k :: _ => .call (.delete k)
  | .get, _, k :: _ => .call (.get k)
  | .increment, _, k :: _ => .call (.increment k none)
  | .keys, _, k :: _ => .call (.keys k)
  | .type, _, k :: _ => .call (.keyType k)
  | .rename, _, a :: b :: _ => .call (.rename a b)
  | .rename, _, [_] => .message "The source key name is required."
  | .rename, _, [] => .message "The destination key name is required."
  | .exists, _, [] => .message "Specifying a key is required."
  | .exists, _, ks => .call (.exists ks)
  | .is, _, [] => .message "Too few arguments were provided for this command."
  | .is, t, ks => .call (.is t ks)
  | .echo, _, [] => .blank
  | .echo, _, ws => .call (.echo (spaced ws))
  | .stats, _, _ => .call .stats
  | .append, _, _ | .decrementBy, _, _ | .incrementBy, _, _ | .length, _, _ | .set, _, _ => .unsupported
  | .decrement, _, [] | .delete, _, [] | .get, _, [] | .increment, _, [] | .keys, _, [] | .type, _, [] =>
    .message "Specifying a key is required."

/-! ## What is written out -/

/-- Lines of text, without what the CLI cuts off at the end: the last line break and the character before
it. Nothing is written out (a panic) if that character is not ASCII, or (debug builds) if there are not
even two characters. -/
def chopped (m : Mode) (s : Text) : Option Text :=
  match s.reverse with
  | _ :: c :: rest => if c.toNat < 128 then some rest.reverse else none
  | _ => if m = .debug then none else some s

/-- A signed number in decimal. -/
def decimal (n : Int) : Text := (toString n).toList

/-- A number of the statistics. -/
def statLine (label : String) (m : BMap) (name : String) : Text :=
  label.toList ++ decimal (match List.lookup (ascii name) m with
    | some b => if b.length = 8 then (i64OfBytes b).toInt else 0
    | none => 0)

/-- Texts with a separator between them. -/
def separated (sep : Char) (l : List Text) : Text := (l.flatMap (· ++ [sep])).dropLast

/-- What is written out for the result of a call. -/
def written (env : Env) (std : Std) (a : Api) : Got → Option Text
  | .value (.boolean b) | .bool b => some (if b then "true".toList else "false".toList)
  | .value (.bytes b) | .bytes b => some (std.lossy b)
  | .value (.float f) => some (std.showFloat f)
  | .value (.integer i) | .int i => some (decimal i.toInt)
  | .value (.string s) => some s
  | .value (.list l) => chopped env.mode (l.flatMap fun i => std.lossy i ++ ['\n'])
  | .value (.set l) => chopped env.mode ((env.setOrd l).flatMap fun i => std.lossy i ++ ['\n'])
  | .value (.map l) =>
    chopped env.mode ((env.mapOrd l).flatMap fun e => std.lossy e.1 ++ '=' :: (std.lossy e.2 ++ ['\n']))
  | .list l => some (separated (match a with | .echo _ => ' ' | _ => '\n') (l.map std.lossy))
  | .kind t => (typeNames t).head?.map String.toList
  | .stats m => some (statLine "Commands successful: " m "commands_successful" ++ '\n' ::
      (statLine "Commands errored: " m "commands_errored" ++ '\n' ::
        (statLine "Sessions started: " m "sessions_started" ++ '\n' ::
          statLine "Sessions ended: " m "sessions_ended")))

/-- What is written out for a failed call. -/
def complaint : Client.Error → String
  | .badRequest _ => "The server rejected the request due to being invalid."
  | .buildingRequest _ => "Building the request failed, such as due to too many arguments."
  | .dispatching _ => "The engine failed to properly run the request."
  | .keyTypeInvalid _ | .keyTypeUnsupported _ _ | .runningCommand .keyTypeInvalid =>
    "A key type was provided that isn't supported by the command."
  | .runningCommand .argumentRetrieval => "Too few arguments were provided for this command."
  | .runningCommand .keyNonexistent => "The specified key does not exist."
  | .runningCommand .keyTypeDifferent => "The type of the key is different than specified by the command."
  | .runningCommand .keyTypeRequired => "A key type was required but one was not specified."
  | .runningCommand .keyTypeUnexpected => "A key type was specified when the command can't be given one."
  | .runningCommand .keyUnspecified => "Specifying a key is required."
  | .runningCommand .preconditionFailed => "A precondition failed, such as the key not existing."

/-- What a line results in, given what its call resolves to: text, or a panic. -/
def reply (env : Env) (std : Std) (a : Api) :
    Outcome DispatchError (Except Client.Error Got) → Outcome DispatchError (Except ParseError Text)
  | .ok (.ok g) => match written env std a g with
    | some s => .ok (.ok s)
    | none => .panic
  | .ok (.error e) => .ok (.ok (complaint e).toList)
  | .err e => .err e
  | .panic => .panic
  | .stuck => .stuck

end Hop.Spec
