import Verif.Spec.Counters

/-! # Specification of concurrent calls -/

namespace Hop.Spec

/-- A call that needs at most one look at the store as long as the keys in `K` exist and keep their type:
read commands on one key, Delete outside `K`, counters and appends within `K`. -/
def Steady (K : Bytes → Prop) (c : Call) : Prop :=
  match c.cmd with
  | .echo | .get | .type => True
  | .exists | .is => c.args.length ≤ 1
  | .keys | .length => c.kt ≠ none ∨ ∀ k, c.args[0]? = some k → K k
  | .append | .increment | .decrement | .incrementBy | .decrementBy => ∀ k, c.args[0]? = some k → K k
  | .delete => ∀ k, c.args[0]? = some k → ¬ K k
  | .rename | .set | .stats => False

/-- `a` comes before `b` in the list. -/
def Before (a b : Nat) (l : List Nat) : Prop := ∃ l1 l2, l = l1 ++ l2 ∧ a ∈ l1 ∧ b ∈ l2

/-- The program of a thread that has nothing left to do. -/
def Ended {α} : Prog α → Prop
  | .done _ => True
  | _ => False

/-- A call that cannot change key `k`: a read command, or a command that does not name it. -/
def Bystander (k : Bytes) (c : Call) : Prop :=
  c.cmd ∈ [.echo, .exists, .get, .is, .keys, .length, .stats, .type] ∨
  (c.args[0]? ≠ some k ∧ (c.cmd = .rename → c.args[1]? ≠ some k))

/-- Two lists agree position by position. -/
inductive All2 {α β} (R : α → β → Prop) : List α → List β → Prop
  | nil : All2 R [] []
  | cons {a : α} {b : β} {as : List α} {bs : List β} : R a b → All2 R as bs → All2 R (a :: as) (b :: bs)

/-- What a client does to the counter `k`: an operation, or nothing (`none`) while working steadily on other
keys or reading `k`. -/
def CounterRole (K : Bytes → Prop) (k : Bytes) : Option CounterOp → Call → Prop
  | some o, c => o.Spells k c
  | none, c => Steady K c ∧ Bystander k c

/-- What a client does to the key `k` of type `t`: append a block, or nothing. -/
def AppendRole (K : Bytes → Prop) (k : Bytes) (t : KeyType) : Option (List Bytes) → Call → Prop
  | some b, c => c.cmd = .append ∧ (c.kt = some t ∨ c.kt = none) ∧ c.args = k :: b
  | none, c => Steady K c ∧ Bystander k c

/-- The elements that are there. -/
def present {α} (l : List (Option α)) : List α := l.filterMap id

/-- The elements with the given indices, in that order. -/
def pick {α} (l : List α) (order : List Nat) : List α := order.filterMap (l[·]?)

/-- The keys a call names. -/
def named (c : Call) : List Bytes :=
  match c.cmd with
  | .echo | .stats => []
  | .exists | .is => c.args
  | .rename => c.args.take 2
  | _ => c.args.take 1

end Hop.Spec
