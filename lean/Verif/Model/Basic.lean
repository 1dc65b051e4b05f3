/-!
# Basic vocabulary of the model

Bytes, slices, big-endian integers, build profiles and outcomes. These stand for Rust language and
standard-library facilities used throughout /repo (slices, `to_be_bytes`, `from_be_bytes`, checked and
unchecked arithmetic, panics).
-/

namespace Hop

/-- `Vec<u8>` / `&[u8]`. As in the `Key` of engine/src/state/mod.rs 49 and in engine/src/state/value.rs 8. -/
abbrev Bytes := List UInt8

/-- Cargo build profile. /repo/Cargo.toml 12-16 only sets `opt-level` (dev) and `lto` (release), so the
dev profile has `overflow-checks` and `debug_assert!` enabled and the release profile has neither. -/
inductive Mode where
  | debug
  | release
deriving DecidableEq, Repr

/-- What a call can end in. `panic` is an unwinding Rust panic; `stuck` is only used for a loop whose iteration
budget (fuel) ran out, and stands for "still running". Results such as `DispatchResult` (engine/src/hop.rs 170) with
the panics, e.g. engine/src/state/mod.rs 130. -/
inductive Outcome (ε α : Type) where
  | ok (a : α)
  | err (e : ε)
  | panic
  | stuck
deriving DecidableEq, Repr

namespace Outcome

/-- `res.is_ok()`. Used in engine/src/hop.rs 190. -/
def isOk {ε α} : Outcome ε α → Bool
  | ok _ => true
  | _ => false

/-- Lift a computation whose only failure is a panic. Used for writing responses, where arithmetic may overflow,
e.g. engine/src/command/response/mod.rs 142. -/
def ofOption {ε α} : Option α → Outcome ε α
  | some a => ok a
  | none => panic

end Outcome

/-- `buf.get(a..b)`: `None` if `a > b` or `b > buf.len()`. Used in engine/src/command/request/context.rs 169 and 176
and in engine/src/command/response/context.rs 132-509. -/
def slice (buf : Bytes) (a b : Nat) : Option Bytes :=
  if a ≤ b ∧ b ≤ buf.length then some ((buf.drop a).take (b - a)) else none

/-- The `k` big-endian bytes of `n` (higher bits dropped): `uN::to_be_bytes` with `N = 8 k`. Used in
engine/src/command/request/builder.rs 248 and engine/src/command/response/mod.rs 133-240. -/
def beBytes : Nat → Nat → Bytes
  | 0, _ => []
  | k + 1, n => beBytes k (n / 256) ++ [UInt8.ofNat n]

/-- `uN::from_be_bytes`. Used in engine/src/command/request/context.rs 174 and
engine/src/command/response/context.rs 134-459. -/
def beNat (bs : Bytes) : Nat := bs.foldl (fun acc b => acc * 256 + b.toNat) 0

/-- `a + b` on an unsigned type with `bits` bits, for in-range operands: panics in a debug build on overflow
(`none`), wraps in a release build. Used for engine/src/command/request/builder.rs 258 and the lengths in
engine/src/command/response/mod.rs 142, 204, 210, 231, 262 and 285. -/
def addU (m : Mode) (bits a b : Nat) : Option Nat :=
  if a + b < 2 ^ bits then some (a + b)
  else match m with
    | .debug => none
    | .release => some ((a + b) % 2 ^ bits)

/-- `i64::to_be_bytes`. Used in engine/src/command/request/builder.rs 172 and engine/src/command/response/mod.rs
174. -/
def i64Bytes (i : Int64) : Bytes := beBytes 8 i.toUInt64.toNat

/-- `i64::from_be_bytes` (of exactly eight bytes). Used in engine/src/command/request/mod.rs 61 and
engine/src/command/response/context.rs 244. -/
def i64OfBytes (b : Bytes) : Int64 := (UInt64.ofNat (beNat b)).toInt64

/-- An `f64`, represented by its bit pattern. `f64::to_be_bytes`/`from_be_bytes` are the identity on the pattern. As
in engine/src/state/value.rs 9. -/
structure F64 where
  bits : UInt64
deriving DecidableEq, Repr

/-- `f64::to_be_bytes`. Used in engine/src/command/request/builder.rs 170 and engine/src/command/response/mod.rs
167. -/
def F64.toBytes (f : F64) : Bytes := beBytes 8 f.bits.toNat

/-- `f64::from_be_bytes` (of exactly eight bytes). Used in engine/src/command/request/mod.rs 53 and
engine/src/command/response/context.rs 231. -/
def F64.ofBytes (b : Bytes) : F64 := ⟨UInt64.ofNat (beNat b)⟩

/-- `String::as_bytes` for a string given by its characters (Unicode scalar values). Used in
engine/src/command/request/builder.rs 218 and cli/lib/src/parse.rs 109. -/
def strBytes (s : List Char) : Bytes := s.flatMap String.utf8EncodeChar

/-- `str::from_utf8(..).ok()` / `String::from_utf8(..).ok()`. Uses Lean core's UTF-8 decoder. Used in
engine/src/command/request/mod.rs 91 and engine/src/command/response/context.rs 518. -/
def fromUtf8 (b : Bytes) : Option (List Char) := (b.toByteArray.utf8Decode?).map Array.toList

/-- Overwrite `bs` into `buf` at index `i`: `buf[i..i + bs.len()].clone_from_slice(bs)`. Used in
engine/src/command/response/mod.rs 218-219. -/
def patch (buf : Bytes) (i : Nat) (bs : Bytes) : Bytes :=
  buf.take i ++ bs ++ buf.drop (i + bs.length)

/-- ASCII text as bytes (`b"..."`). Used in engine/src/state/mod.rs 129. -/
def ascii (s : String) : Bytes := strBytes s.toList

end Hop
