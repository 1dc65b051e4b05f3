import Verif.Model.Value

/-! # C80 The accessors of values -/

namespace Hop

/-- The predicate that is named after a type. -/
def isNamed : KeyType → Value → Bool
  | .boolean => Value.isBoolean
  | .bytes => Value.isBytes
  | .float => Value.isFloat
  | .integer => Value.isInteger
  | .list => Value.isList
  | .map => Value.isMap
  | .set => Value.isSet
  | .string => Value.isString

/-- What the accessor named after a type gives, as a value again. -/
def asNamed : KeyType → Value → Option Value
  | .boolean => fun v => v.asBoolean.map .boolean
  | .bytes => fun v => v.asBytes.map .bytes
  | .float => fun v => v.asFloat.map .float
  | .integer => fun v => v.asInteger.map .integer
  | .list => fun v => v.asList.map .list
  | .map => fun v => v.asMap.map .map
  | .set => fun v => v.asSet.map .set
  | .string => fun v => v.asString.map .string

/-- **C80 as one would want it:** of the eight predicates exactly that of the value's own type holds, and
exactly the accessor of its own type gives its contents. -/
def C80_Statement : Prop :=
  ∀ (t : KeyType) (v : Value), (isNamed t v = true ↔ v.kind = t) ∧ asNamed t v = if v.kind = t then some v else none

/-- **C80, what holds:** the accessors do; the predicates do, except that for strings. Missing: the
predicate for strings, which holds of booleans and not of strings (false, see `C80_string`). -/
theorem C80_accessors_partial (t : KeyType) (v : Value) :
    asNamed t v = (if v.kind = t then some v else none) ∧ (t ≠ .string → (isNamed t v = true ↔ v.kind = t)) := by
  cases t <;> cases v <;> exact ⟨by first | rfl | simp [asNamed, Value.kind, Value.asBoolean, Value.asBytes, Value.asFloat,
    Value.asInteger, Value.asList, Value.asMap, Value.asSet, Value.asString], by
    simp [isNamed, Value.kind, Value.isBoolean, Value.isBytes, Value.isFloat, Value.isInteger, Value.isList,
      Value.isMap, Value.isSet]⟩

/-- The predicate for strings holds exactly of booleans. -/
theorem C80_string (v : Value) : isNamed .string v = true ↔ v.kind = .boolean := by
  cases v <;> simp [isNamed, Value.isString, Value.kind]

theorem C80_false : ¬ C80_Statement := by
  intro h
  have := (h .string (.string ['a'])).1.mpr rfl
  exact absurd this (by decide)

example : asNamed .list (.list [[1]]) = some (.list [[1]]) ∧ isNamed .list (.list [[1]]) = true := ⟨rfl, rfl⟩

end Hop
