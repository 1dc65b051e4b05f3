import Verif.Model.Timer

/-! # Specification of the timer: what a history of presses means -/

namespace Hop.Spec

/-- What users do to a timer, with the clock reading at that moment. -/
inductive TimerOp where
  | start (clock : Timespec)
  | stop (clock : Timespec)
  | reset

/-- Do one operation, using the library's functions. -/
def pressed (t : Timer) : TimerOp → Timer
  | .start c => (t.doStart c).2
  | .stop c => (t.doStop c).2
  | .reset => t.reset

/-- The timer after a history. -/
def timerAfter (h : List TimerOp) : Timer := h.foldl pressed .new

/-- Nanoseconds since boot that a clock reading stands for. -/
def Timespec.ns (ts : Timespec) : Nat := ts.sec.toInt.toNat * 1000000000 + ts.nsec.toInt.toNat

/-- A reading the kernel gives: not negative, fewer than 10^9 nanoseconds. -/
def Timespec.Sane (ts : Timespec) : Prop := 0 ≤ ts.sec.toInt ∧ 0 ≤ ts.nsec.toInt ∧ ts.nsec.toInt < 1000000000

/-- The clock readings of a history. -/
def readings (h : List TimerOp) : List Timespec :=
  h.filterMap fun o => match o with | .start c => some c | .stop c => some c | .reset => none

/-- The clock never runs backwards and all its readings are sane. -/
def Clocked (h : List TimerOp) : Prop :=
  (∀ c ∈ readings h, Timespec.Sane c) ∧ (readings h).Pairwise (fun a b => Timespec.ns a ≤ Timespec.ns b)

/-- The operation is a reset. -/
def isReset : TimerOp → Bool
  | .reset => true
  | _ => false

/-- The operations since the last reset. -/
def sinceReset : List TimerOp → List TimerOp
  | [] => []
  | o :: h => if h.any isReset then sinceReset h else if isReset o then h else o :: h

/-- The first start in a list of operations and the operations after it. -/
def firstStart : List TimerOp → Option (Timespec × List TimerOp)
  | [] => none
  | .start c :: h => some (c, h)
  | _ :: h => firstStart h

/-- The first stop in a list of operations. -/
def firstStop : List TimerOp → Option Timespec
  | [] => none
  | .stop c :: _ => some c
  | _ :: h => firstStop h

/-- When the timer was started, if it has been since the last reset. -/
def startedAt (h : List TimerOp) : Option Timespec := (firstStart (sinceReset h)).map Prod.fst

/-- When it was stopped, if it has been since that start. -/
def stoppedAt (h : List TimerOp) : Option Timespec := (firstStart (sinceReset h)).bind fun x => firstStop x.2

end Hop.Spec
