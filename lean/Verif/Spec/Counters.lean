import Verif.Spec.History

/-! # Specification of counter operations and appends -/

namespace Hop.Spec

/-- An operation on an integer counter. -/
inductive CounterOp where
  | inc
  | dec
  | incBy (n : Int64)
  | decBy (n : Int64)
deriving DecidableEq

/-- What the operation adds, as a mathematical integer. -/
def CounterOp.amount : CounterOp → Int
  | .inc => 1
  | .dec => -1
  | .incBy n => n.toInt
  | .decBy n => -n.toInt

/-- The calls that spell the operation on key `k`. Amounts are 8 big-endian bytes; further bytes and further
arguments are ignored. Increment and Decrement must not ask for a float. -/
def CounterOp.Spells (k : Bytes) : CounterOp → Call → Prop
  | .inc, c => c.cmd = .increment ∧ c.kt ≠ some .float ∧ ∃ more, c.args = k :: more
  | .dec, c => c.cmd = .decrement ∧ c.kt ≠ some .float ∧ ∃ more, c.args = k :: more
  | .incBy n, c => c.cmd = .incrementBy ∧ ∃ junk more, c.args = k :: (beBytes 8 n.toUInt64.toNat ++ junk) :: more
  | .decBy n, c => c.cmd = .decrementBy ∧ ∃ junk more, c.args = k :: (beBytes 8 n.toUInt64.toNat ++ junk) :: more

/-- A list of calls spells a list of operations. -/
inductive SpellAll (k : Bytes) : List CounterOp → List Call → Prop
  | nil : SpellAll k [] []
  | cons {o : CounterOp} {c : Call} {os : List CounterOp} {cs : List Call} :
    o.Spells k c → SpellAll k os cs → SpellAll k (o :: os) (c :: cs)

/-- The running totals. -/
def totals (start : Int) : List CounterOp → List Int
  | [] => []
  | o :: os => (start + o.amount) :: totals (start + o.amount) os

/-- The sum of the amounts. -/
def total (os : List CounterOp) : Int := (os.map CounterOp.amount).sum

/-- No overflow in a debug build: totals stay in the 64-bit range and no amount to subtract is the smallest
64-bit number (which cannot be negated). -/
def NoOverflow (start : Int) (os : List CounterOp) : Prop :=
  (∀ t ∈ totals start os, inRange t) ∧ ∀ n, .decBy n ∈ os → n.toInt ≠ -2 ^ 63

end Hop.Spec

namespace Hop.Spec

/-- Content followed by appended arguments; pieces of text that are not UTF-8 are skipped. -/
def plus : Value → List Bytes → Value
  | .bytes b, items => .bytes (b ++ items.flatten)
  | .list l, items => .list (l ++ items)
  | .string t, items => .string (t ++ (items.filterMap fromUtf8).flatten)
  | v, _ => v

/-- The empty content of an appendable type. -/
def emptyOf : KeyType → Option Value
  | .bytes => some (.bytes [])
  | .list => some (.list [])
  | .string => some (.string [])
  | _ => none

/-- The contents after each block. -/
def contents (v : Value) : List (List Bytes) → List Value
  | [] => []
  | b :: bs => plus v b :: contents (plus v b) bs

/-- Calls that append these blocks to key `k` of type `t`: each names the type, or leaves it out (allowed if
`untyped`). -/
inductive AppendAll (k : Bytes) (t : KeyType) (untyped : Prop) : List (List Bytes) → List Call → Prop
  | nil : AppendAll k t untyped [] []
  | cons {b : List Bytes} {kt : Option KeyType} {bs : List (List Bytes)} {cs : List Call} :
    kt = some t ∨ (kt = none ∧ untyped) → AppendAll k t untyped bs cs →
    AppendAll k t untyped (b :: bs) (⟨.append, kt, k :: b⟩ :: cs)

end Hop.Spec
