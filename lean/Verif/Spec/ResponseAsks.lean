import Verif.Model.Types

/-!
# Specification of how many bytes the response decoder asks for

The bytes that have arrived, read from the left: the length header, the type, the count, the items. `none`
is for bytes with which the decoder asks for nothing.
-/

namespace Hop.Spec

/-- `n` items of a list are to come. A list asks for what the size or the item lacks. -/
def listWants : Nat → Bytes → Option Nat
  | 0, _ => none
  | n + 1, rest =>
    if rest.length < 4 then some (4 - rest.length)
    else if rest.length < 4 + beNat (rest.take 4) then some (4 + beNat (rest.take 4) - rest.length)
    else listWants n (rest.drop (4 + beNat (rest.take 4)))

/-- One more, unless it was there already. -/
def oneMore (seen : List Bytes) (x : Bytes) : List Bytes := if x ∈ seen then seen else x :: seen

/-- `pos` bytes have been taken, and `seen` are the items so far of a set announced to have `len`. A set asks
for what the size of an item lacks. For an item that lacks bytes it asks for what is lacking, and for as many
bytes again as there were up to the item. -/
def setWants (len : Nat) (seen : List Bytes) (pos : Nat) (rest : Bytes) : Option Nat :=
  if rest.length < 2 then some (2 - rest.length)
  else
    let n := beNat (rest.take 2)
    if rest.length < 2 + n then some ((2 + n - rest.length) + (pos + 2))
    else
      let seen' := oneMore seen ((rest.drop 2).take n)
      if seen'.length < len then setWants len seen' (pos + 2 + n) (rest.drop (2 + n)) else none
termination_by rest.length
decreasing_by simp only [List.length_drop]; omega

/-- The same of a map, with its keys. A map asks for what the size of a key lacks. For whatever else lacks
bytes it asks for more than that: as many bytes more as there were up to the key or the value, or up to the
entry if the size of its value is lacking. -/
def mapWants (len : Nat) (seen : List Bytes) (pos : Nat) (rest : Bytes) : Option Nat :=
  if rest.length < 1 then some 1
  else
    let k := beNat (rest.take 1)
    if rest.length < 1 + k then some ((1 + k - rest.length) + (pos + 1))
    else if rest.length < 1 + k + 4 then some ((1 + k + 4 - rest.length) + pos)
    else
      let v := beNat ((rest.drop (1 + k)).take 4)
      if rest.length < 1 + k + 4 + v then some ((1 + k + 4 + v - rest.length) + (pos + 1 + k + 4))
      else
        let seen' := oneMore seen ((rest.drop 1).take k)
        if seen'.length < len then mapWants len seen' (pos + 1 + k + 4 + v) (rest.drop (1 + k + 4 + v))
        else none
termination_by rest.length
decreasing_by simp only [List.length_drop]; omega

/-- A count field of `size` bytes that has not arrived, when `have_` bytes have altogether: one more than the
size of the field, less the bytes that are there, on a machine that counts modulo 2^64. -/
def countWants (size have_ : Nat) : Nat := (2 ^ 64 + (size + 1) - have_) % 2 ^ 64

/-- After the type byte. -/
def bodyWants (type : UInt8) (rest : Bytes) : Option Nat :=
  if type = 0 ∨ type = 8 ∨ type = 9 then (if rest.length < 1 then some 1 else none)
  else if type = 2 ∨ type = 3 then (if rest.length < 8 then some 1 else none)
  else if type = 1 ∨ type = 7 then
    if rest.length < 4 then some (countWants 4 (5 + rest.length))
    else if rest.length < 4 + beNat (rest.take 4) then some (4 + beNat (rest.take 4) - rest.length)
    else none
  else if type = 4 ∨ type = 5 ∨ type = 6 then
    if rest.length < 2 then some (countWants 2 (5 + rest.length))
    else
      let len := beNat (rest.take 2)
      if type = 4 then listWants (max 1 len) (rest.drop 2)
      else if type = 5 then (if len = 0 then none else mapWants len [] 7 (rest.drop 2))
      else setWants len [] 7 (rest.drop 2)
  else none

/-- From the beginning. -/
def wants (buf : Bytes) : Option Nat :=
  if buf.length < 4 then some (4 - buf.length)
  else if buf.length < 4 + beNat (buf.take 4) then some (4 + beNat (buf.take 4) - buf.length)
  else match buf.drop 4 with
    | [] => some 1
    | type :: rest => bodyWants type rest

end Hop.Spec
