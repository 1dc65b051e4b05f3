import Verif.Model.Response
import Verif.Spec.Value

/-! # Specification of response frames: layout and limits, without reference to the writers -/

namespace Hop.Spec

/-- One list item on the wire. -/
def listItem (i : Bytes) : Bytes := beBytes 4 i.length ++ i
/-- One map entry on the wire. -/
def mapItem (e : Bytes × Bytes) : Bytes := beBytes 1 e.1.length ++ e.1 ++ (beBytes 4 e.2.length ++ e.2)
/-- One set item on the wire. -/
def setItem (i : Bytes) : Bytes := beBytes 2 i.length ++ i

/-- The type code of a value. -/
def valueCode : Value → UInt8
  | .boolean _ => 0
  | .bytes _ => 1
  | .float _ => 2
  | .integer _ => 3
  | .list _ => 4
  | .map _ => 5
  | .set _ => 6
  | .string _ => 7

/-- The payload of a value. -/
def payload : Value → Bytes
  | .boolean b => [if b then 1 else 0]
  | .bytes b => beBytes 4 b.length ++ b
  | .float f => beBytes 8 f.bits.toNat
  | .integer i => beBytes 8 i.toUInt64.toNat
  | .list l => beBytes 2 l.length ++ l.flatMap listItem
  | .map m => beBytes 2 m.length ++ m.flatMap mapItem
  | .set s => beBytes 2 s.length ++ s.flatMap setItem
  | .string s => beBytes 4 (strBytes s).length ++ strBytes s

/-- Everything after the length header. -/
def body : Response → Bytes
  | .value v => valueCode v :: payload v
  | .parseError e => [8, e.toByte]
  | .dispatchError e => [9, e.toByte]

/-- A whole response frame. -/
def frame (r : Response) : Bytes := beBytes 4 (body r).length ++ body r

/-- The value with the contents of maps and sets listed in the order in which they are iterated. -/
def orderedValue (env : Env) : Value → Value
  | .map m => .map (env.mapOrd m)
  | .set s => .set (env.setOrd s)
  | v => v

/-- Likewise for responses. -/
def ordered (env : Env) : Response → Response
  | .value v => .value (orderedValue env v)
  | r => r

/-- The same response as far as a user can tell. -/
def SameResponse : Response → Response → Prop
  | .value v, .value w => Same v w
  | r, s => r = s

/-- Values the response format can carry in the given build profile. -/
def FitsValue (m : Mode) : Value → Prop
  | .bytes b => b.length + 5 < 2 ^ 32 ∧ (m = .debug → b ≠ [])
  | .list l => l ≠ [] ∧ l.length < 2 ^ 16 ∧ 3 + (l.flatMap listItem).length < 2 ^ 32
  | .map mp => (mp.map Prod.fst).Nodup ∧ mp.length < 2 ^ 16 ∧ (∀ e ∈ mp, e.1.length < 2 ^ 8) ∧
      3 + (mp.flatMap mapItem).length < 2 ^ 32
  | .set s => s.Nodup ∧ s ≠ [] ∧ s.length < 2 ^ 16 ∧ (∀ i ∈ s, i.length < 2 ^ 16) ∧
      3 + (s.flatMap setItem).length < 2 ^ 32
  | .string s => (strBytes s).length + 5 < 2 ^ 32
  | _ => True

/-- Responses the format can carry. -/
def Fits (m : Mode) : Response → Prop
  | .value v => FitsValue m v
  | _ => True

end Hop.Spec
