import Verif.Model.Response

/-!
# The response decoder

engine/src/command/response/context.rs.
-/

namespace Hop.RespParser

/-- engine/src/command/response/context.rs 16-31 (`ParseError` of the response decoder). -/
inductive Error where
  | dispatchErrorInvalid | parseErrorInvalid | payloadTooLarge | responseTypeInvalid | stringInvalid
deriving DecidableEq, Repr

/-- context.rs 39-78 (`Stage`). -/
inductive Stage where
  | init
  | determineType
  | typeInit (kind : ResponseType) (readLen : Nat)
  | boolean
  | bytes (len : Nat)
  | float
  | integer
  | list (args : List Bytes) (len : Nat)
  | map (map : BMap) (len : Nat)
  | dispatchError
  | parseError
  | set (args : BSet) (len : Nat)
  | string (len : Nat)
deriving DecidableEq, Repr

/-- context.rs 86-90 (`Context`). -/
structure Ctx where
  idx : Nat
  stage : Stage
deriving DecidableEq, Repr

/-- context.rs 93-95 (`new`), also `reset` (523-526). -/
def Ctx.new : Ctx := { idx := 0, stage := .init }

/-- One round of the loop in `feed`. engine/src/command/response/context.rs 98-124. -/
inductive Step where
  | next (c : Ctx)
  | concluded (r : Response)
  | readBytes (n : Nat)
  | error (e : Error)
  | panic
deriving DecidableEq, Repr

/-- `debug_assert!(p)`: panics in a debug build when `p` is false. engine/src/command/response/context.rs 128-251.
-/
def debugAssert (m : Mode) (p : Bool) (k : Step) : Step :=
  if m = .debug ∧ p = false then .panic else k

/-- `a - b` on `usize` (64 bit): underflow panics in a debug build and wraps in a release build.
engine/src/command/response/context.rs 269, 384 and 513. -/
def subThen (m : Mode) (a b : Nat) (k : Nat → Step) : Step :=
  if b ≤ a then k (a - b)
  else match m with
    | .debug => .panic
    | .release => k ((a + 2 ^ 64 - b) % 2 ^ 64)

/-- context.rs 529-534 (`remaining_bytes`), continuing with `ReadBytes`. -/
def remainingBytes (m : Mode) (start read toRead : Nat) : Step :=
  debugAssert m (decide (start > 0)) <|
  debugAssert m (decide (read ≤ start + toRead)) <|
  .readBytes (start + toRead - read)

/-- context.rs 127-153 (`stage_init`). -/
def stageInit (m : Mode) (c : Ctx) (buf : Bytes) : Step :=
  debugAssert m (decide (c.idx = 0)) <|
  match slice buf 0 4 with
  | some bytes =>
    let msgLen := beNat bytes
    if buf.length < msgLen + 4 then .readBytes (4 + msgLen - buf.length)
    else .next { idx := c.idx + 4, stage := .determineType }
  | none => .readBytes (4 - buf.length)

/-- context.rs 165-175: the stage after the type byte. -/
def stageOfKind : ResponseType → Stage
  | .boolean => .boolean
  | .float => .float
  | .integer => .integer
  | .list => .typeInit .list 2
  | .map => .typeInit .map 2
  | .set => .typeInit .set 2
  | .bytes => .typeInit .bytes 4
  | .string => .typeInit .string 4
  | .dispatchError => .dispatchError
  | .parseError => .parseError

/-- context.rs 155-180 (`stage_determine_type`). -/
def stageDetermineType (m : Mode) (c : Ctx) (buf : Bytes) : Step :=
  debugAssert m (decide (c.idx = 4)) <|
  match buf[c.idx]? with
  | none => .readBytes 1
  | some byte =>
    match ResponseType.ofByte byte with
    | none => .error .responseTypeInvalid
    | some kind => .next { idx := c.idx + 1, stage := stageOfKind kind }

/-- context.rs 182-191 (`stage_boolean`). -/
def stageBoolean (m : Mode) (c : Ctx) (buf : Bytes) : Step :=
  debugAssert m (decide (c.idx = 5)) <|
  match buf[c.idx]? with
  | none => .readBytes 1
  | some byte => .concluded (.value (.boolean (byte != 0)))

/-- context.rs 193-208 (`stage_bytes`). -/
def stageBytes (m : Mode) (c : Ctx) (buf : Bytes) (len : Nat) : Step :=
  debugAssert m (decide (c.idx = 9)) <|
  debugAssert m (decide (len ≠ 0)) <|
  match slice buf c.idx (c.idx + len) with
  | some bytes => .concluded (.value (.bytes bytes))
  | none => remainingBytes m c.idx buf.length len

/-- context.rs 210-221 (`stage_dispatch_error`): an unknown code is an `unwrap` panic. -/
def stageDispatchError (m : Mode) (c : Ctx) (buf : Bytes) : Step :=
  debugAssert m (decide (c.idx = 5)) <|
  match buf[c.idx]? with
  | none => .readBytes 1
  | some byte =>
    match DispatchError.ofByte byte with
    | some e => .concluded (.dispatchError e)
    | none => .panic

/-- context.rs 223-234 (`stage_float`). -/
def stageFloat (m : Mode) (c : Ctx) (buf : Bytes) : Step :=
  debugAssert m (decide (c.idx = 5)) <|
  match slice buf c.idx (c.idx + 8) with
  | some bytes => .concluded (.value (.float (F64.ofBytes bytes)))
  | none => .readBytes 1

/-- context.rs 236-247 (`stage_integer`). -/
def stageInteger (m : Mode) (c : Ctx) (buf : Bytes) : Step :=
  debugAssert m (decide (c.idx = 5)) <|
  match slice buf c.idx (c.idx + 8) with
  | some bytes => .concluded (.value (.integer (i64OfBytes bytes)))
  | none => .readBytes 1

/-- context.rs 249-292 (`stage_list`). -/
def stageList (m : Mode) (c : Ctx) (buf : Bytes) (args : List Bytes) (len : Nat) : Step :=
  debugAssert m (decide (c.idx > 6)) <|
  debugAssert m (decide (buf.length > 6)) <|
  let argSizeEnd := c.idx + 4
  match slice buf c.idx argSizeEnd with
  | none => remainingBytes m c.idx buf.length 4
  | some argLenBytes =>
    let argValueEnd := argSizeEnd + beNat argLenBytes
    match slice buf argSizeEnd argValueEnd with
    | none => subThen m argValueEnd buf.length .readBytes
    | some arg =>
      let args := args ++ [arg]
      if args.length < len then .next { idx := argValueEnd, stage := .list args len }
      else .concluded (.value (.list args))

/-- context.rs 294-359 (`stage_map`). -/
def stageMap (m : Mode) (c : Ctx) (buf : Bytes) (map : BMap) (len : Nat) : Step :=
  debugAssert m (decide (c.idx > 6)) <|
  debugAssert m (decide (buf.length > 6)) <|
  let keySizeEnd := c.idx + 1
  match slice buf c.idx keySizeEnd with
  | none => remainingBytes m c.idx buf.length 1
  | some keyLenBytes =>
    let keyValueEnd := keySizeEnd + beNat keyLenBytes
    match slice buf keySizeEnd keyValueEnd with
    | none => remainingBytes m keySizeEnd buf.length keyValueEnd
    | some key =>
      let valueSizeEnd := keyValueEnd + 4
      match slice buf keyValueEnd valueSizeEnd with
      | none => remainingBytes m c.idx buf.length valueSizeEnd
      | some valueLenBytes =>
        let valueEnd := valueSizeEnd + beNat valueLenBytes
        match slice buf valueSizeEnd valueEnd with
        | none => remainingBytes m valueSizeEnd buf.length valueEnd
        | some value =>
          let map := map.insert key value
          if map.length < len then .next { idx := valueEnd, stage := .map map len }
          else .concluded (.value (.map map))

/-- context.rs 361-372 (`stage_parse_error`): an unknown code is an `unwrap` panic. -/
def stageParseError (m : Mode) (c : Ctx) (buf : Bytes) : Step :=
  debugAssert m (decide (c.idx = 5)) <|
  match buf[c.idx]? with
  | none => .readBytes 1
  | some byte =>
    match ReqParseError.ofByte byte with
    | some e => .concluded (.parseError e)
    | none => .panic

/-- context.rs 374-450 (`stage_type_init`). The `unreachable!` arm is a panic. `checked_add` of 5 and
`read_len` cannot fail. -/
def stageTypeInit (m : Mode) (c : Ctx) (buf : Bytes) (kind : ResponseType) (readLen : Nat) : Step :=
  debugAssert m (decide (c.idx = 5)) <|
  match slice buf c.idx (c.idx + readLen) with
  | none => subThen m (readLen + 1) buf.length .readBytes
  | some bytes =>
    let len := beNat bytes
    match kind with
    | .bytes => .next { idx := c.idx + readLen, stage := .bytes len }
    | .list => .next { idx := c.idx + readLen, stage := .list [] len }
    | .map =>
      if len = 0 then .concluded (.value (.map []))
      else .next { idx := c.idx + readLen, stage := .map [] len }
    | .set => .next { idx := c.idx + readLen, stage := .set [] len }
    | .string =>
      if len = 0 then .concluded (.value (.string []))
      else .next { idx := c.idx + readLen, stage := .string len }
    | _ => .panic

/-- context.rs 452-497 (`stage_set`). -/
def stageSet (m : Mode) (c : Ctx) (buf : Bytes) (args : BSet) (len : Nat) : Step :=
  debugAssert m (decide (c.idx > 6)) <|
  debugAssert m (decide (buf.length > 6)) <|
  let argSizeEnd := c.idx + 2
  match slice buf c.idx argSizeEnd with
  | none => remainingBytes m c.idx buf.length 2
  | some argLenBytes =>
    let argValueEnd := argSizeEnd + beNat argLenBytes
    match slice buf argSizeEnd argValueEnd with
    | none => remainingBytes m argSizeEnd buf.length argValueEnd
    | some arg =>
      let args := args.insert arg
      if args.length < len then .next { idx := argValueEnd, stage := .set args len }
      else .concluded (.value (.set args))

/-- context.rs 499-521 (`stage_string`). -/
def stageString (m : Mode) (c : Ctx) (buf : Bytes) (readLen : Nat) : Step :=
  debugAssert m (decide (c.idx > 0)) <|
  debugAssert m (decide (readLen > 0)) <|
  match slice buf c.idx (c.idx + readLen) with
  | none => subThen m (c.idx + readLen) buf.length .readBytes
  | some bytes =>
    match fromUtf8 bytes with
    | none => .error .stringInvalid
    | some s => .concluded (.value (.string s))

/-- context.rs 99-113: one round of the loop in `feed`. -/
def step (m : Mode) (c : Ctx) (buf : Bytes) : Step :=
  match c.stage with
  | .init => stageInit m c buf
  | .determineType => stageDetermineType m c buf
  | .boolean => stageBoolean m c buf
  | .bytes len => stageBytes m c buf len
  | .float => stageFloat m c buf
  | .integer => stageInteger m c buf
  | .list args len => stageList m c buf args len
  | .map map len => stageMap m c buf map len
  | .set args len => stageSet m c buf args len
  | .string len => stageString m c buf len
  | .typeInit kind readLen => stageTypeInit m c buf kind readLen
  | .dispatchError => stageDispatchError m c buf
  | .parseError => stageParseError m c buf

/-- The result of `feed`. `stuck` never occurs (theorem `C13_terminates`). engine/src/command/response/context.rs
97. -/
inductive Fed where
  | concluded (r : Response)
  | readBytes (n : Nat)
  | error (e : Error)
  | panic
  | stuck
deriving DecidableEq, Repr

/-- context.rs 97-125 (`feed`), with an iteration budget. Only a conclusion resets the context. -/
def loop (m : Mode) : Nat → Ctx → Bytes → Fed × Ctx
  | 0, c, _ => (.stuck, c)
  | n + 1, c, buf =>
    match step m c buf with
    | .next c' => loop m n c' buf
    | .concluded r => (.concluded r, Ctx.new)
    | .readBytes k => (.readBytes k, c)
    | .error e => (.error e, c)
    | .panic => (.panic, c)

/-- context.rs 97-125 (`feed`). -/
def feed (m : Mode) (c : Ctx) (buf : Bytes) : Fed × Ctx := loop m (buf.length + 4) c buf

end Hop.RespParser
