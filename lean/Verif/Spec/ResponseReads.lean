import Verif.Spec.Response
import Verif.Spec.ResponseAsks

/-!
# Specification of what the response decoder reads

Layouts of the bytes after the header, whatever the header announces and whoever wrote them.
-/

namespace Hop.Spec

/-- How many different items there are. -/
def distinct (items : List Bytes) : Nat := (items.foldl oneMore []).length

/-- At least one item, and no more than it takes to get `n` different ones. -/
def UpTo (n : Nat) (items : List Bytes) : Prop :=
  items ≠ [] ∧ n ≤ distinct items ∧ ∀ p q, items = p ++ q → p ≠ [] → q ≠ [] → distinct p < n

/-- What the bytes after the header (a type, what belongs to it, and anything) say. -/
inductive Carries (m : Mode) : Bytes → Response → Prop
  | boolean (x : UInt8) (tail : Bytes) : Carries m (0 :: x :: tail) (.value (.boolean (decide (x ≠ 0))))
  | bytes (b tail : Bytes) : b.length < 2 ^ 32 → (m = .debug → b ≠ []) →
      Carries m (1 :: (beBytes 4 b.length ++ (b ++ tail))) (.value (.bytes b))
  | float (f : F64) (tail : Bytes) : Carries m (2 :: (beBytes 8 f.bits.toNat ++ tail)) (.value (.float f))
  | integer (i : Int64) (tail : Bytes) : Carries m (3 :: (beBytes 8 i.toUInt64.toNat ++ tail)) (.value (.integer i))
  /-- A list that is announced to be empty has one item. -/
  | list (n : Nat) (l : List Bytes) (tail : Bytes) : n < 2 ^ 16 → l.length = max 1 n → (∀ i ∈ l, i.length < 2 ^ 32) →
      Carries m (4 :: (beBytes 2 n ++ (l.flatMap listItem ++ tail))) (.value (.list l))
  | emptyMap (tail : Bytes) : Carries m (5 :: (beBytes 2 0 ++ tail)) (.value (.map []))
  /-- Of entries with the same key the last one counts. -/
  | map (n : Nat) (entries : List (Bytes × Bytes)) (mp : BMap) (tail : Bytes) : 0 < n → n < 2 ^ 16 →
      UpTo n (entries.map Prod.fst) → (∀ e ∈ entries, e.1.length < 2 ^ 8 ∧ e.2.length < 2 ^ 32) →
      (mp.map Prod.fst).Nodup → (∀ k, List.lookup k mp = List.lookup k entries.reverse) →
      Carries m (5 :: (beBytes 2 n ++ (entries.flatMap mapItem ++ tail))) (.value (.map mp))
  /-- A set that is announced to be empty has one item. -/
  | set (n : Nat) (items : List Bytes) (s : BSet) (tail : Bytes) : n < 2 ^ 16 → UpTo n items →
      (∀ i ∈ items, i.length < 2 ^ 16) → s.Nodup → (∀ x, x ∈ s ↔ x ∈ items) →
      Carries m (6 :: (beBytes 2 n ++ (items.flatMap setItem ++ tail))) (.value (.set s))
  | string (s : List Char) (tail : Bytes) : (strBytes s).length < 2 ^ 32 →
      Carries m (7 :: (beBytes 4 (strBytes s).length ++ (strBytes s ++ tail))) (.value (.string s))
  | parseError (e : ReqParseError) (tail : Bytes) : Carries m (8 :: e.toByte :: tail) (.parseError e)
  | dispatchError (e : DispatchError) (tail : Bytes) : Carries m (9 :: e.toByte :: tail) (.dispatchError e)

end Hop.Spec
