import Verif.Spec.Linear
import Verif.Spec.Concurrent

/-! # Specification: the commands on some keys, while anything happens to the others -/

namespace Hop.Spec

/-- A command on a key of `K` that needs a single look as long as these keys exist and keep their type: a read command, a
counter command or an Append. -/
def Confined (K : Bytes → Prop) (c : Call) : Prop := Steady K c ∧ ∀ k, c.args[0]? = some k → K k

/-- Requests in an order in which they are served, each with the client that issued it, the number of answers the client
had received by then, and its response buffer. -/
abbrev Book := List (Nat × Nat × Request × Bytes)

/-- The requests of a book as they are served. -/
def Book.requests (b : Book) : List (Request × Bytes) := b.map fun e => e.2.2

/-- The entries of a book, each with an answer. -/
def Book.with (b : Book) (answers : List (Outcome DispatchError Bytes)) :
    List (Nat × (Nat × Request × Bytes) × Outcome DispatchError Bytes) :=
  List.zipWith (fun e o => (e.1, e.2, o)) b answers

/-- The requests in question among those a client has had answered: each with the number of earlier answers, and with its
answer. -/
def accounts (mine : Request → Bool) (c : Client) (got : List (Outcome DispatchError Bytes)) :
    List ((Nat × Request × Bytes) × Outcome DispatchError Bytes) :=
  (List.range got.length).filterMap fun j =>
    match c (got.take j), got[j]? with
    | some x, some o => if mine x.1 then some ((j, x), o) else none
    | _, _ => none

end Hop.Spec
