import Verif.Model.Request

/-! # Specification vocabulary for values -/

namespace Hop.Spec

/-- A value a Rust program can hold: map keys and set items do not repeat. -/
def WF : Value → Prop
  | .map m => (m.map Prod.fst).Nodup
  | .set s => s.Nodup
  | _ => True

/-- The same value as far as a user can tell: maps with the same entries and sets with the same items
are the same whatever their internal order. -/
def Same : Value → Value → Prop
  | .map m, .map m' => m.Perm m'
  | .set s, .set s' => s.Perm s'
  | v, w => v = w

/-- How many request arguments a value takes. -/
def argsOf : Value → Nat
  | .list l => l.length
  | .map m => 2 * m.length
  | .set s => s.length
  | _ => 1

/-- Reading a value of a given type from a request whose first argument is the key, with the public
accessors `typed_arg`, `args(1..)` and `typed_args`. -/
def readValue (r : Request) : KeyType → Option Value
  | .boolean => ((r.arg 1).bind convBool).map .boolean
  | .bytes => (r.arg 1).map .bytes
  | .float => ((r.arg 1).bind convFloat).map .float
  | .integer => ((r.arg 1).bind convInt).map .integer
  | .list => (r.argsFrom 1).map .list
  | .map => (r.argsFrom 1).map (fun a => .map (convMap a))
  | .set => (r.argsFrom 1).map (fun a => .set (convSet a))
  | .string => ((r.arg 1).bind convStr).map .string

/-- Commands that address keys (command_id.rs documents Echo and Stats as the ones that do not). -/
def takesKey (c : CommandId) : Prop := c ≠ .echo ∧ c ≠ .stats

end Hop.Spec
