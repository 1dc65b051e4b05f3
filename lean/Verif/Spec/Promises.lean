import Verif.Spec.History
import Verif.Model.Response

/-! # Specification of what a command may answer while others are at work -/

namespace Hop.Spec

/-- The error, if the condition holds. -/
def wrong (p : Prop) [Decidable p] (e : DispatchError) : Option DispatchError := if p then some e else none

/-- The 8 bytes of a number are missing or incomplete. -/
def noNumber (args : List Bytes) : Prop := ∀ a, args[1]? = some a → a.length < 8

instance (args : List Bytes) : Decidable (noNumber args) :=
  decidable_of_iff ((args[1]?.map fun a => decide (a.length < 8)).getD true = true) (by
    unfold noNumber
    cases args[1]? <;> simp)

/-- The error of a request that is wrong in itself, whatever is stored: the first that applies. -/
def malformed (c : Call) : Option DispatchError :=
  match c.cmd with
  | .append => (wrong (c.args = []) .keyUnspecified).or
      (wrong (c.kt ∈ [some .boolean, some .float, some .integer, some .map, some .set]) .keyTypeDifferent)
  | .increment | .decrement | .get => wrong (c.args = []) .keyUnspecified
  | .incrementBy | .decrementBy => (wrong (c.args = []) .keyUnspecified).or (wrong (noNumber c.args) .argumentRetrieval)
  | .delete => (wrong (c.kt ≠ none) .keyTypeUnexpected).or (wrong (c.args = []) .keyUnspecified)
  | .rename => ((wrong (c.kt ≠ none) .keyTypeUnexpected).or (wrong (c.args = []) .keyUnspecified)).or
      (wrong (c.args.length = 1) .argumentRetrieval)
  | .echo => none
  | .stats => wrong (c.kt ≠ none) .keyTypeUnexpected
  | .exists => (wrong (c.kt ≠ none) .keyTypeUnexpected).or (wrong (c.args = []) .argumentRetrieval)
  | .is => (wrong (c.kt = none) .keyTypeRequired).or (wrong (c.args = []) .argumentRetrieval)
  | .keys => (wrong (c.args = []) .keyUnspecified).or (wrong (c.kt ≠ none ∧ c.kt ≠ some .map) .keyTypeInvalid)
  | .length => (wrong (c.args = []) .keyUnspecified).or
      (wrong (c.kt ∈ [some .boolean, some .float, some .integer]) .keyTypeInvalid)
  | .set => ((wrong (c.args = []) .keyUnspecified).or (wrong (c.args.length = 1) .argumentRetrieval)).or
      (wrong (c.kt ≠ none ∧ ∀ t ∈ c.kt, parseValue t (c.args.drop 1) = none) .argumentRetrieval)
  | .type => (wrong (c.args = []) .keyUnspecified).or (wrong (c.kt ≠ none) .keyTypeUnexpected)

/-- The errors a request that is not wrong in itself can meet. -/
def mayFail (c : Call) : List DispatchError :=
  match c.cmd with
  | .append | .increment | .decrement | .incrementBy | .decrementBy => [.keyTypeDifferent]
  | .delete => [.preconditionFailed]
  | .rename => [.keyNonexistent, .preconditionFailed]
  | .echo | .exists | .is | .stats => []
  | .get => if c.kt = none then [.keyNonexistent] else [.keyNonexistent, .keyTypeDifferent]
  | .keys | .length =>
    if c.kt = none then [.keyNonexistent, .keyTypeDifferent, .keyTypeInvalid] else [.keyNonexistent, .keyTypeDifferent]
  | .set => if c.kt = none then [.keyTypeDifferent, .argumentRetrieval] else [.keyTypeDifferent]
  | .type => [.keyNonexistent]

/-- The errors a request can be answered. -/
def failures (c : Call) : List DispatchError :=
  match malformed c with
  | some e => [e]
  | none => mayFail c

/-- The values a request that is not wrong in itself can be answered. Append: something ending in what was
appended, of the requested type. Counters: an integer, or if asked for a float, a float to which one was added
or from which one was subtracted. Delete and Rename: the name of the key that is gone or now there. Echo: its
arguments. Set: the value given, of the requested type. Length: a size. Type: a type number. Stats: some
statistics. Get: a value of the requested type. Keys: the keys of some map. Exists and Is: a boolean. -/
def Promised (env : Env) (c : Call) (v : Value) : Prop :=
  match c.cmd with
  | .append => ∃ old, appended old (c.args.drop 1) = some v ∧ ∀ t, c.kt = some t → v.kind = t
  | .increment => if c.kt = some .float then ∃ f, v = .float (env.fadd f ⟨0x3ff0000000000000⟩) else v.kind = .integer
  | .decrement => if c.kt = some .float then ∃ f, v = .float (env.fadd f ⟨0xbff0000000000000⟩) else v.kind = .integer
  | .incrementBy | .decrementBy => v.kind = .integer
  | .delete => ∃ k, c.args[0]? = some k ∧ v = .bytes k
  | .rename => ∃ k, c.args[1]? = some k ∧ v = .bytes k
  | .echo => v = .list c.args
  | .exists | .is => v.kind = .boolean
  | .get => ∀ t, c.kt = some t → v.kind = t
  | .keys => ∃ m, v = .list ((env.mapOrd m).map Prod.fst)
  | .length => ∃ (w : Value) (n : Nat), size w = some n ∧ (∀ t, c.kt = some t → w.kind = t) ∧ v = .integer (Int64.ofNat n)
  | .set => ∃ t, parseValue t (c.args.drop 1) = some v ∧ (c.kt = some t ∨ c.kt = none)
  | .stats => ∃ ctrs, v = .map (statistics ctrs)
  | .type => ∃ t : KeyType, v = .integer (Int64.ofNat t.toByte.toNat)

/-- An outcome a request can come to when given a response buffer: the encoding, after the bytes already in
the buffer, of a value it promises; one of its errors; a panic; or (`stuck`) never ending. -/
def Foreseen (env : Env) (c : Call) (resp : Bytes) : Outcome DispatchError Bytes → Prop
  | .ok out => malformed c = none ∧ ∃ v, Promised env c v ∧ Response.writeValue env resp v = some out
  | .err e => e ∈ failures c
  | .panic => True
  | .stuck => malformed c = none ∧ c.cmd ∈ [.append, .increment, .decrement, .incrementBy, .decrementBy, .set]

end Hop.Spec
