import Verif.Model.Request

/-!
# The request parser

engine/src/command/request/context.rs.
-/

namespace Hop.ReqParser

/-- context.rs 28-40 (`Stage`). -/
inductive Stage where
  | init
  | kind (commandId : CommandId) (keyType : Option KeyType)
  | arguments (argumentCount : UInt8) (commandId : CommandId) (keyType : Option KeyType)
deriving DecidableEq, Repr

/-- context.rs 48-53 (`Context`). -/
structure Ctx where
  idx : Nat
  positions : List Nat
  stage : Stage
deriving DecidableEq, Repr

/-- context.rs 198-206 (`Default`). -/
def Ctx.new : Ctx := { idx := 0, positions := [], stage := .init }

/-- context.rs 191-195 (`reset`). -/
def Ctx.reset (_ : Ctx) : Ctx := Ctx.new

/-- What one round of the loop in `feed` does. `halt` leaves the loop. engine/src/command/request/context.rs 63-102.
-/
inductive Step where
  | next (c : Ctx)
  | finished (commandId : CommandId) (keyType : Option KeyType)
  | incomplete
  | error (e : ReqParseError)
  | panic
deriving DecidableEq, Repr

/-- context.rs 105-139 (`stage_init`). `byte >> 7 == 1` is "the high bit is set". -/
def stageInit (c : Ctx) (buf : Bytes) : Step :=
  match buf.head? with
  | none => .incomplete
  | some byte =>
    let keyType : Option (Option KeyType) :=
      if byte >>> 7 = 1 then
        match KeyType.ofByte (byte >>> 1) with
        | none => none
        | some t => some (some t)
      else some none
    match keyType with
    | none => .error .keyTypeInvalid
    | some keyType =>
      match CommandId.ofByte byte with
      | none => .error .commandIdInvalid
      | some commandId =>
        if commandId.isSimple then .finished commandId none
        else .next { c with stage := .kind commandId keyType, idx := c.idx + 1 }

/-- context.rs 141-160 (`stage_kind`). -/
def stageKind (c : Ctx) (buf : Bytes) (keyType : Option KeyType) (commandId : CommandId) : Step :=
  match buf[c.idx]? with
  | none => .incomplete
  | some argumentCount =>
    .next { c with stage := .arguments argumentCount commandId keyType, idx := c.idx + 1 }

/-- context.rs 162-189 (`stage_argument_parsing`). The push onto the 256-entry `ArrayVec` panics when
full. -/
def stageArguments (c : Ctx) (buf : Bytes) (commandId : CommandId) (keyType : Option KeyType)
    (argumentCount : UInt8) : Step :=
  match slice buf c.idx (c.idx + 4) with
  | none => .incomplete
  | some lenBytes =>
    let argLen := beNat lenBytes
    match slice buf c.idx (c.idx + argLen) with
    | none => .incomplete
    | some _ =>
      if c.positions.length < 256 then
        let positions := c.positions ++ [c.idx + argLen]
        if positions.length = argumentCount.toNat then .finished commandId keyType
        else .next { c with positions := positions, idx := c.idx + (4 + argLen) }
      else .panic

/-- context.rs 64-86: one round of the loop in `feed`. -/
def step (c : Ctx) (buf : Bytes) : Step :=
  if buf.length < c.idx then .incomplete
  else match c.stage with
    | .init => stageInit c buf
    | .kind commandId keyType => stageKind c buf keyType commandId
    | .arguments argumentCount commandId keyType =>
      stageArguments c buf commandId keyType argumentCount

/-- The result of `feed`. `stuck` never occurs (theorem `C09_terminates`). engine/src/command/request/context.rs 62.
-/
inductive Fed where
  | request (r : Request)
  | more
  | error (e : ReqParseError)
  | panic
  | stuck
deriving DecidableEq, Repr

/-- context.rs 62-103 (`feed`), with an iteration budget. On `Finished` the context is reset *before*
the request is built from its positions (lines 90-97). A panic leaves no usable context. -/
def loop : Nat → Ctx → Bytes → Fed × Ctx
  | 0, c, _ => (.stuck, c)
  | n + 1, c, buf =>
    match step c buf with
    | .next c' => loop n c' buf
    | .finished commandId keyType =>
      let c' := c.reset
      (.request { buf := buf, commandId := commandId, keyType := keyType,
                  positions := c'.positions }, c')
    | .incomplete => (.more, c)
    | .error e => (.error e, c)
    | .panic => (.panic, c)

/-- context.rs 62-103 (`feed`): each round either leaves the loop or advances `idx`, so this budget is
enough (theorem `C09_terminates`). -/
def feed (c : Ctx) (buf : Bytes) : Fed × Ctx := loop (buf.length + 4) c buf

end Hop.ReqParser
