import Verif.Spec.Callers
import Verif.Spec.Shown

/-! # Specification: the calls on some keys, while anything happens to the others -/

namespace Hop.Spec

/-- Calls in an order in which they are made, each with the task that made it and the number of its calls that had come to
something by then. -/
abbrev Diary := List (Nat × Nat × Api)

/-- The calls of a diary as they are made. -/
def Diary.calls (b : Diary) : List Api := b.map fun e => e.2.2

/-- The entries of a diary, each with what the call came to. -/
def Diary.with (b : Diary) (outs : List Resolved) : List (Nat × (Nat × Api) × Resolved) :=
  List.zipWith (fun e o => (e.1, e.2, o)) b outs

/-- The calls in question among those of a task that have come to something: each with the number of earlier calls, and
with what it came to. -/
def Caller.accounts (mine : Api → Bool) (c : Caller) (got : List Resolved) : List ((Nat × Api) × Resolved) :=
  (List.range got.length).filterMap fun j =>
    match c (got.take j), got[j]? with
    | some a, some o => if mine a then some ((j, a), o) else none
    | _, _ => none

/-- The task made the call after `j` others, and `o` is what it came to. -/
def Caller.MadeAt (c : Caller) (got : List Resolved) (j : Nat) (a : Api) (o : Resolved) : Prop :=
  c (got.take j) = some a ∧ got[j]? = some o

end Hop.Spec
