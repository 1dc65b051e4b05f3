import Verif.Model.Basic

/-!
# The timer library (lib/timer/src/lib.rs)

`core::time::Duration` is represented by its number of nanoseconds (it holds at most `2^64 - 1` seconds
and `999_999_999` nanoseconds). The clock is an input: every operation that calls `now()` is given the
`timespec` that `clock_gettime` fills in (lib/timer/src/lib.rs 255-266).
-/

namespace Hop

/-- Nanoseconds per second. lib/timer/src/lib.rs 240-252. -/
def nsPerSec : Nat := 1000000000

/-- `libc::timespec` (64-bit target): seconds and nanoseconds. lib/timer/src/lib.rs 255-265. -/
structure Timespec where
  sec : Int64
  nsec : Int64
deriving DecidableEq

/-- `Duration::new`: nanoseconds of a second or more are carried over; panics (`none`) if the seconds overflow. Used
in lib/timer/src/lib.rs 252. -/
def durationNew (s ns : Nat) : Option Nat :=
  if s + ns / nsPerSec < 2 ^ 64 then some (s * nsPerSec + ns) else none

/-- `parse_timespec`, lib/timer/src/lib.rs 240-253. -/
def parseTimespec (ts : Timespec) : Option Nat :=
  let s := if 0 ≤ ts.sec.toInt then ts.sec.toInt.toNat else 0
  if 0 ≤ ts.nsec.toInt ∧ ts.nsec.toInt < 2 ^ 32 then durationNew s ts.nsec.toInt.toNat
  else if ts.nsec.toInt < 0 then durationNew s 0
  else durationNew (s - 1) 999999999

/-- `Timer`, lib/timer/src/lib.rs 63-66. -/
structure Timer where
  start : Option Nat
  stop : Option Nat
deriving DecidableEq

namespace Timer

/-- `Timer::new`, lib/timer/src/lib.rs 91-93. -/
def new : Timer := { start := none, stop := none }

/-- `Timer::start`, lib/timer/src/lib.rs 113-121. The answer `none` is a panic. -/
def doStart (t : Timer) (clock : Timespec) : Option Bool × Timer :=
  if t.start.isSome then (some false, t)
  else match parseTimespec clock with
    | none => (none, t)
    | some now => (some true, { t with start := some now })

/-- `Timer::duration`, lib/timer/src/lib.rs 176-178. The outer `none` is the panic of subtracting a
longer `Duration` from a shorter one. -/
def duration (t : Timer) : Option (Option Nat) :=
  match t.stop with
  | none => some none
  | some b =>
    match t.start with
    | none => some none
    | some a => if a ≤ b then some (some (b - a)) else none

/-- `Timer::stop`, lib/timer/src/lib.rs 145-153. The outer `none` is a panic. -/
def doStop (t : Timer) (clock : Timespec) : Option (Option Nat) × Timer :=
  if t.start.isNone || t.stop.isSome then (some none, t)
  else match parseTimespec clock with
    | none => (none, t)
    | some now =>
      let t' := { t with stop := some now }
      (t'.duration, t')

/-- `Timer::is_running`, lib/timer/src/lib.rs 199-201. -/
def isRunning (t : Timer) : Bool := t.start.isSome && t.stop.isNone

/-- `Timer::reset`, lib/timer/src/lib.rs 220-223. -/
def reset (_ : Timer) : Timer := { start := none, stop := none }

end Timer

end Hop
