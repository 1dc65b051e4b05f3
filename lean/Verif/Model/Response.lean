import Verif.Model.Types

/-!
# Responses: writers

engine/src/command/response/mod.rs. A writer appends to an output buffer `to` and returns the new
buffer; `none` is a panic (arithmetic overflow in a debug build).
-/

namespace Hop

/-- engine/src/command/response/mod.rs 47-52 (`Response`). -/
inductive Response where
  | dispatchError (e : DispatchError)
  | parseError (e : ReqParseError)
  | value (v : Value)
deriving DecidableEq, Repr

namespace Response

/-- engine/src/command/response/mod.rs 131-136. -/
def writeBool (to : Bytes) (v : Bool) : Bytes :=
  to ++ beBytes 4 2 ++ [ResponseType.boolean.toByte] ++ [if v then 1 else 0]

/-- engine/src/command/response/mod.rs 138-147. -/
def writeBytes (m : Mode) (to : Bytes) (v : Bytes) : Option Bytes := do
  let len := v.length % 2 ^ 32
  let responseLen ← addU m 32 (1 + 4) len
  return to ++ beBytes 4 responseLen ++ [ResponseType.bytes.toByte] ++ beBytes 4 len ++ v

/-- engine/src/command/response/mod.rs 149-154. -/
def writeDispatchError (to : Bytes) (e : DispatchError) : Bytes :=
  to ++ beBytes 4 2 ++ [ResponseType.dispatchError.toByte] ++ [e.toByte]

/-- engine/src/command/response/mod.rs 156-161. -/
def writeParseError (to : Bytes) (e : ReqParseError) : Bytes :=
  to ++ beBytes 4 2 ++ [ResponseType.parseError.toByte] ++ [e.toByte]

/-- engine/src/command/response/mod.rs 163-168. -/
def writeFloat (to : Bytes) (f : F64) : Bytes :=
  to ++ beBytes 4 9 ++ [ResponseType.float.toByte] ++ f.toBytes

/-- engine/src/command/response/mod.rs 170-175. -/
def writeInt (to : Bytes) (i : Int64) : Bytes :=
  to ++ beBytes 4 9 ++ [ResponseType.integer.toByte] ++ i64Bytes i

/-- engine/src/command/response/mod.rs 203-214: the loop of `write_list` over buffer, `msg_len` and `item_count`. -/
def writeListLoop (m : Mode) : Bytes → Nat → Nat → List Bytes → Option (Bytes × Nat × Nat)
  | to, msgLen, itemCount, [] => some (to, msgLen, itemCount)
  | to, msgLen, itemCount, item :: items => do
    let itemCount ← addU m 16 itemCount 1
    let itemLen := item.length % 2 ^ 32
    let inc ← addU m 32 4 itemLen
    let msgLen ← addU m 32 msgLen inc
    writeListLoop m (to ++ beBytes 4 itemLen ++ item) msgLen itemCount items

/-- engine/src/command/response/mod.rs 177-220: placeholders are written first and patched at the end. -/
def writeList (m : Mode) (to : Bytes) (items : List Bytes) : Option Bytes := do
  let start := to.length
  let to := to ++ [0, 0, 0, 0] ++ [ResponseType.list.toByte] ++ [0] ++ [0]
  let (to, msgLen, itemCount) ← writeListLoop m to (1 + 2) 0 items
  let to := patch to start (beBytes 4 msgLen)
  return patch to (start + 5) (beBytes 2 itemCount)

/-- engine/src/command/response/mod.rs 225-232: the length accumulation of `write_map`
(`response_len += 1 + key.len() as u32 + 4 + value.len() as u32`). -/
def mapLen (m : Mode) : Nat → BMap → Option Nat
  | acc, [] => some acc
  | acc, (k, v) :: rest => do
    let a ← addU m 32 1 (k.length % 2 ^ 32)
    let a ← addU m 32 a 4
    let a ← addU m 32 a (v.length % 2 ^ 32)
    let acc ← addU m 32 acc a
    mapLen m acc rest

/-- engine/src/command/response/mod.rs 245-251: one entry; the key length is truncated to one byte. -/
def mapEntry (e : Bytes × Bytes) : Bytes :=
  [UInt8.ofNat (e.1.length % 2 ^ 8)] ++ e.1 ++ beBytes 4 (e.2.length % 2 ^ 32) ++ e.2

/-- engine/src/command/response/mod.rs 222-253; the map is given in iteration order. -/
def writeMapIter (m : Mode) (to : Bytes) (mp : BMap) : Option Bytes := do
  let responseLen ← mapLen m (1 + 2) mp
  return to ++ beBytes 4 responseLen ++ [ResponseType.map.toByte]
    ++ beBytes 2 (mp.length % 2 ^ 16) ++ mp.flatMap mapEntry

/-- engine/src/command/response/mod.rs 258-263: the length accumulation of `write_set`. -/
def setLen (m : Mode) : Nat → BSet → Option Nat
  | acc, [] => some acc
  | acc, item :: rest => do
    let a ← addU m 32 2 (item.length % 2 ^ 32)
    let acc ← addU m 32 acc a
    setLen m acc rest

/-- engine/src/command/response/mod.rs 274-277: one item; the length is truncated to two bytes. -/
def setEntry (item : Bytes) : Bytes := beBytes 2 (item.length % 2 ^ 16) ++ item

/-- engine/src/command/response/mod.rs 255-279; the set is given in iteration order. -/
def writeSetIter (m : Mode) (to : Bytes) (s : BSet) : Option Bytes := do
  let responseLen ← setLen m (1 + 2) s
  return to ++ beBytes 4 responseLen ++ [ResponseType.set.toByte]
    ++ beBytes 2 (s.length % 2 ^ 16) ++ s.flatMap setEntry

/-- engine/src/command/response/mod.rs 281-291. -/
def writeStr (m : Mode) (to : Bytes) (s : List Char) : Option Bytes := do
  let len := (strBytes s).length % 2 ^ 32
  let responseLen ← addU m 32 (1 + 4) len
  return to ++ beBytes 4 responseLen ++ [ResponseType.string.toByte] ++ beBytes 4 len ++ strBytes s

/-- engine/src/command/response/mod.rs 222-253 with the environment's iteration order. -/
def writeMap (env : Env) (to : Bytes) (mp : BMap) : Option Bytes :=
  writeMapIter env.mode to (env.mapOrd mp)

/-- engine/src/command/response/mod.rs 255-279 with the environment's iteration order. -/
def writeSet (env : Env) (to : Bytes) (s : BSet) : Option Bytes :=
  writeSetIter env.mode to (env.setOrd s)

/-- engine/src/command/response/mod.rs 293-304 (`write_value`). -/
def writeValue (env : Env) (to : Bytes) : Value → Option Bytes
  | .boolean b => some (writeBool to b)
  | .bytes b => writeBytes env.mode to b
  | .float f => some (writeFloat to f)
  | .integer i => some (writeInt to i)
  | .list l => writeList env.mode to l
  | .map m => writeMap env to m
  | .set s => writeSet env to s
  | .string s => writeStr env.mode to s

/-- engine/src/command/response/mod.rs 62-68 (`copy_to`). -/
def copyTo (env : Env) (to : Bytes) : Response → Option Bytes
  | .dispatchError e => some (writeDispatchError to e)
  | .parseError e => some (writeParseError to e)
  | .value v => writeValue env to v

/-- engine/src/command/response/mod.rs 55-60 (`as_bytes`). -/
def asBytes (env : Env) (r : Response) : Option Bytes := copyTo env [] r

end Response
end Hop
