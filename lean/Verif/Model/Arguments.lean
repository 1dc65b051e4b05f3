import Verif.Model.Request

/-!
# The iterator over the arguments of a request (engine/src/command/request/mod.rs 95-157)

`Request.argsFrom` covers the two ranges the commands use. Here are `args` for every range and the iterator it
returns.
-/

namespace Hop

/-- `core::ops::Bound<usize>`. Every range of Rust (`a..b`, `a..=b`, `a..`, `..b`, `..`, pairs of bounds) is a pair
of bounds. Used in engine/src/command/request/mod.rs 136-149. -/
inductive Bound where
  | included (n : Nat)
  | excluded (n : Nat)
  | unbounded
deriving DecidableEq, Repr

/-- engine/src/command/request/mod.rs 95-100 (`Arguments`). -/
structure ArgIter where
  idx : Nat
  to : Nat
  request : Request

namespace ArgIter

/-- engine/src/command/request/mod.rs 102-106 (`ExactSizeIterator::len`). -/
def len (it : ArgIter) : Nat := it.to

/-- engine/src/command/request/mod.rs 108-121 (`Iterator::next`): the item and the iterator afterwards; `none` is a
panic (`self.idx += 1` on `usize`, 64 bits wide, in a debug build). -/
def next (m : Mode) (it : ArgIter) : Option (Option Bytes × ArgIter) :=
  if it.idx = it.to then some (none, it)
  else match addU m 64 it.idx 1 with
    | none => none
    | some i => some (it.request.arg it.idx, { it with idx := i })

end ArgIter

namespace Bound

/-- engine/src/command/request/mod.rs 141-145; `none` is a panic (`*amt + 1` on `usize`, 64 bits wide, in a debug
build). -/
def start (m : Mode) : Bound → Option Nat
  | .excluded n => addU m 64 n 1
  | .included n => some n
  | .unbounded => some 0

/-- engine/src/command/request/mod.rs 146-150. -/
def stop (m : Mode) (count : Nat) : Bound → Option Nat
  | .excluded n => some n
  | .included n => addU m 64 n 1
  | .unbounded => some count

end Bound

namespace Request

/-- engine/src/command/request/mod.rs 136-157 (`args`). The outer `none` is a panic. -/
def args (m : Mode) (r : Request) (lo hi : Bound) : Option (Option ArgIter) :=
  if r.argCount = 0 then some none
  else match lo.start m with
    | none => none
    | some start =>
      match hi.stop m r.argCount with
      | none => none
      | some stop => some (some { idx := start, to := stop, request := r })

end Request

end Hop
