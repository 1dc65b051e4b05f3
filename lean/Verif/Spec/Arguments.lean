import Verif.Model.Arguments

/-! # Ranges of arguments, as a caller understands them -/

namespace Hop.Spec

open Hop

/-- The index lies within the range. -/
def within (lo hi : Bound) (i : Nat) : Bool :=
  (match lo with
    | .included n => decide (n ≤ i)
    | .excluded n => decide (n < i)
    | .unbounded => true) &&
  (match hi with
    | .included n => decide (i ≤ n)
    | .excluded n => decide (i < n)
    | .unbounded => true)

/-- The items whose indices lie within the range, in order. -/
def itemsIn (lo hi : Bound) (args : List Bytes) : List Bytes :=
  (args.zipIdx.filter fun p => within lo hi p.2).map Prod.fst

/-- The first index of a range. -/
def Starts : Bound → Nat → Prop
  | .included n, s => s = n
  | .excluded n, s => s = n + 1
  | .unbounded, s => s = 0

/-- The first index after a range, among `count` indices. -/
def Stops (count : Nat) : Bound → Nat → Prop
  | .included n, e => e = n + 1
  | .excluded n, e => e = n
  | .unbounded, e => e = count

/-- The bounds are numbers of type `usize` (64 bits). -/
def Bound.fits : Bound → Prop
  | .included n => n < 2 ^ 64
  | .excluded n => n < 2 ^ 64
  | .unbounded => True

/-- What a loop over the iterator sees, up to the end (`ok`) or a panic. -/
inductive Collected (m : Mode) : ArgIter → List Bytes → Bool → Prop
  | done {it it' : ArgIter} : it.next m = some (none, it') → Collected m it [] true
  | item {it it' : ArgIter} {a : Bytes} {as : List Bytes} {ok : Bool} :
    it.next m = some (some a, it') → Collected m it' as ok → Collected m it (a :: as) ok
  | panic {it : ArgIter} : it.next m = none → Collected m it [] false

end Hop.Spec
