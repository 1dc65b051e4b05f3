import Verif.Model.Types

/-!
# Accessors of stored values (engine/src/state/value.rs)

`kind` and the default values are in `Verif.Model.Types`. The `as_*_mut` accessors have the same cases as
the `as_*_ref` ones (with `&mut`), and are modelled by the same functions.
-/

namespace Hop.Value

/-- value.rs 35-47. -/
def asBoolean : Value → Option Bool
  | .boolean b => some b
  | _ => none

/-- value.rs 49-51. -/
def isBoolean : Value → Bool
  | .boolean _ => true
  | _ => false

/-- value.rs 57-69. -/
def asBytes : Value → Option Bytes
  | .bytes b => some b
  | _ => none

/-- value.rs 71-73. -/
def isBytes : Value → Bool
  | .bytes _ => true
  | _ => false

/-- value.rs 79-91. -/
def asFloat : Value → Option F64
  | .float f => some f
  | _ => none

/-- value.rs 93-95. -/
def isFloat : Value → Bool
  | .float _ => true
  | _ => false

/-- value.rs 101-113. -/
def asInteger : Value → Option Int64
  | .integer i => some i
  | _ => none

/-- value.rs 115-117. -/
def isInteger : Value → Bool
  | .integer _ => true
  | _ => false

/-- value.rs 123-135. -/
def asList : Value → Option (List Bytes)
  | .list l => some l
  | _ => none

/-- value.rs 137-139. -/
def isList : Value → Bool
  | .list _ => true
  | _ => false

/-- value.rs 145-157. -/
def asMap : Value → Option BMap
  | .map m => some m
  | _ => none

/-- value.rs 159-161. -/
def isMap : Value → Bool
  | .map _ => true
  | _ => false

/-- value.rs 167-179. -/
def asSet : Value → Option BSet
  | .set s => some s
  | _ => none

/-- value.rs 181-183. -/
def isSet : Value → Bool
  | .set _ => true
  | _ => false

/-- value.rs 189-201. -/
def asString : Value → Option (List Char)
  | .string s => some s
  | _ => none

/-- value.rs 203-205: tests for a boolean. -/
def isString : Value → Bool
  | .boolean _ => true
  | _ => false

end Hop.Value
