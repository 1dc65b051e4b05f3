import Verif.Model.MetricsThreads
import Verif.Spec.Metrics

/-! # Specification of metrics used by several threads -/

namespace Hop.Spec

variable {T : Type}

/-- The thread is inside a call of a reader or writer: the call has begun and has not returned. -/
def Underway : MetricThread T → Prop
  | .holding _ | .leaving _ _ => True
  | _ => False

/-- The increments of a counter that have returned `true`. -/
def incrementsDone [DecidableEq T] (t : T) (p : MetricPool T) : Nat :=
  p.threads.countP fun th => match th with | .returned (.increment t') (.bool true) => t' = t | _ => false

/-- The increments of a counter that have begun and not returned. -/
def incrementsOpen [DecidableEq T] (t : T) (p : MetricPool T) : Nat :=
  p.threads.countP fun th =>
    match th with | .holding (.increment t') => t' = t | .leaving (.increment t') _ => t' = t | _ => false

/-- The thread's call. -/
def callOf : MetricThread T → MetricCall T
  | .calling c | .holding c | .leaving c _ | .returned c _ => c
  | .copying _ _ => .snapshot

/-- The call says that there is no instance any more. -/
def Refused : MetricCall T → MetricAnswer T → Prop
  | .increment _, r | .gauge _ _, r | .valid, r => r = .bool false
  | .readCounter _, r => r = .count none
  | .readGauge _, r => r = .level none
  | .snapshot, _ | .drop, _ => True

/-- The maps can still be reached: the instance exists, or a call is under way that has them. -/
def Reachable (p : MetricPool T) : Prop := p.owned = true ∨ ∃ th ∈ p.threads, Underway th

/-- What a call may answer if it takes effect at the moment `q`. -/
inductive Explained (mode : Mode) (q : MetricPool T) : MetricCall T → MetricAnswer T → Prop where
  | valid (b : Bool) : (b = true ↔ Reachable q) → Explained mode q .valid (.bool b)
  | refused (c : MetricCall T) (r : MetricAnswer T) : ¬ Reachable q → Refused c r → Explained mode q c r
  | increment (t : T) : Explained mode q (.increment t) (.bool true)
  | overflow (t : T) : mode = .debug → q.maps.counters t = some (2 ^ 64 - 1) → Explained mode q (.increment t) .panic
  | gauge (t : T) (v : UInt64) : Explained mode q (.gauge t v) (.bool true)
  | readCounter (t : T) : Explained mode q (.readCounter t) (.count (q.maps.counters t))
  | readGauge (t : T) : Explained mode q (.readGauge t) (.level (q.maps.gauges t))

end Hop.Spec
