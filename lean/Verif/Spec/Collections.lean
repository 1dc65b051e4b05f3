import Verif.Model.Basic

/-! # Specification: collections that can be given to `set` -/

namespace Hop.Spec

/-- The condition under which a collection of entries can be given to `set(key).map(..)`: at least one, of at most 127
different keys of less than 256 bytes. -/
def MapGiven (entries : List (Bytes × Bytes)) : Prop :=
  entries ≠ [] ∧ (∃ ks : List Bytes, ks.length ≤ 127 ∧ ∀ e ∈ entries, e.1 ∈ ks) ∧ ∀ e ∈ entries, e.1.length < 256

/-- The condition for `set(key).set(items)`: at least one item, at most 254 different ones, of less than 65536 bytes. -/
def SetGiven (items : List Bytes) : Prop :=
  items ≠ [] ∧ (∃ ks : List Bytes, ks.length ≤ 254 ∧ ∀ i ∈ items, i ∈ ks) ∧ ∀ i ∈ items, i.length < 65536

end Hop.Spec
