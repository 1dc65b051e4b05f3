import Verif.Spec.Local
import Verif.Spec.Counters

/-! # Specification: what commands on one key show of it -/

namespace Hop.Spec

/-- The client had received `j` answers when it issued the request, and `o` is what it received for it. -/
def AnsweredAt (c : Client) (got : List (Outcome DispatchError Bytes)) (j : Nat) (x : Request × Bytes)
    (o : Outcome DispatchError Bytes) : Prop := c (got.take j) = some x ∧ got[j]? = some o

/-- The call reads the key with Get. -/
def Reads (k : Bytes) (t : KeyType) (c : Call) : Prop :=
  c.cmd = .get ∧ c.args[0]? = some k ∧ (c.kt = none ∨ c.kt = some t)

/-- The call adds an amount to the integer at the key, or just reads it. -/
def AddsTo (k : Bytes) (c : Call) (a : Int) : Prop :=
  (Reads k .integer c ∧ a = 0) ∨ ∃ o : CounterOp, o.Spells k c ∧ o.amount = a

/-- The call appends the items to the content of type `t` at the key, or just reads it. -/
def Adjoins (k : Bytes) (t : KeyType) (c : Call) (items : List Bytes) : Prop :=
  (Reads k t c ∧ items = []) ∨ (c.cmd = .append ∧ c.args = k :: items ∧ (c.kt = none ∨ c.kt = some t))

end Hop.Spec
