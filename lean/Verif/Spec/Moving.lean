import Verif.Spec.Concurrent

/-! # Specification of values moved about by several clients -/

namespace Hop.Spec

/-- A call that stores nothing of its own: a read command, Delete or Rename. -/
def Mover (c : Call) : Prop :=
  c.cmd ∈ [.echo, .exists, .get, .is, .keys, .length, .stats, .type, .delete, .rename]

/-- The key a Rename moves a value to. -/
def target (c : Call) : Option Bytes := if c.cmd = .rename then c.args[1]? else none

/-- Call `i` is a Rename, and another call is a Rename to the same key. -/
def Rivalled (cs : List Call) (i : Nat) : Prop :=
  ∃ (b : Bytes) (j : Nat) (c d : Call), cs[i]? = some c ∧ target c = some b ∧ j ≠ i ∧ cs[j]? = some d ∧ target d = some b

/-- What became of a value: it is stored at a key, a client is moving it, or a client dropped it. -/
inductive Place where
  | stored (k : Bytes)
  | moving (i : Nat)
  | dropped (i : Nat)

/-- `place` says for each key that existed at first what became of its value. No two values are in the same
place, everything stored now is one of these values, only an unfinished Rename is moving one, and only a Delete
or a Rename to the same key as another Rename, neither of which reports an error, drops one. -/
structure Accounts (cs : List Call) (before : Store) (place : Bytes → Place) (threads : List (Prog Bytes)) (now : Store) :
    Prop where
  apart : ∀ k k', before k ≠ none → before k' ≠ none → place k = place k' → k = k'
  stored : ∀ k v k', before k = some v → place k = .stored k' → now k' = some v
  covers : ∀ k', now k' ≠ none → ∃ k, before k ≠ none ∧ place k = .stored k'
  moving : ∀ k i, before k ≠ none → place k = .moving i →
    (∃ c, cs[i]? = some c ∧ c.cmd = .rename) ∧ ∃ t, threads[i]? = some t ∧ ¬ Ended t
  dropped : ∀ k i, before k ≠ none → place k = .dropped i →
    ((∃ c, cs[i]? = some c ∧ c.cmd = .delete) ∨ Rivalled cs i) ∧ ∀ e, threads[i]? ≠ some (.done (.err e))

end Hop.Spec
