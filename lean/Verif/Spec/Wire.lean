import Verif.Model.Response
import Verif.Model.Request

/-!
# Specification of the bytes on the wire

Positional notation, two's complement and UTF-8 spelled out with Lean's own integers and strings,
without the model's `beBytes`, `beNat`, `i64Bytes`, `strBytes` or `fromUtf8`.
-/

namespace Hop.Spec.Wire

/-- `n` in `k` bytes, most significant byte first. -/
def bigEndian (k n : Nat) : Bytes :=
  (List.range k).map fun i => UInt8.ofNat (n / 256 ^ (k - 1 - i) % 256)

/-- The number that bytes spell, most significant byte first: the sum of `bᵢ · 256^(len-1-i)`. -/
def number : Bytes → Nat
  | [] => 0
  | b :: bs => b.toNat * 256 ^ bs.length + number bs

/-- Two's complement reading of 64 bits. -/
def signed (n : Nat) : Int := if n < 2 ^ 63 then n else (n : Int) - 2 ^ 64

/-- A signed number in eight bytes. -/
def bytes64 (i : Int) : Bytes := bigEndian 8 (i % 2 ^ 64).toNat

/-- The UTF-8 bytes of a string, by Lean's own `String`. -/
def utf8 (s : List Char) : Bytes := (String.ofList s).toUTF8.data.toList

/-- Length-prefixed data. -/
def prefixed (k : Nat) (b : Bytes) : Bytes := bigEndian k b.length ++ b

/-- The type code of a response and the bytes after it. -/
def body : Response → Bytes
  | .value (.boolean b) => [0, if b then 1 else 0]
  | .value (.bytes b) => 1 :: prefixed 4 b
  | .value (.float f) => 2 :: bigEndian 8 f.bits.toNat
  | .value (.integer i) => 3 :: bytes64 i.toInt
  | .value (.list l) => 4 :: bigEndian 2 l.length ++ l.flatMap (prefixed 4)
  | .value (.map m) => 5 :: bigEndian 2 m.length ++ m.flatMap fun e => prefixed 1 e.1 ++ prefixed 4 e.2
  | .value (.set s) => 6 :: bigEndian 2 s.length ++ s.flatMap (prefixed 2)
  | .value (.string s) => 7 :: prefixed 4 (utf8 s)
  | .parseError e => [8, e.toByte]
  | .dispatchError e => [9, e.toByte]

/-- A request: command byte, optional key-type byte, argument count, length-prefixed arguments. -/
def request (c : CommandId) (kt : Option KeyType) (args : List Bytes) : Bytes :=
  (match kt with
    | none => [c.toByte]
    | some t => [UInt8.ofNat (128 + c.toByte.toNat), t.toByte]) ++
    UInt8.ofNat args.length :: args.flatMap (prefixed 4)

end Hop.Spec.Wire
