import Verif.Model.Basic

/-!
# The metrics library (lib/metrics/src/lib.rs)

`Metrics<T>` owns an `Arc<Snapshot<T>>`; readers and writers hold a `Weak` to it. The cell `Metrics` below
is what the weak pointer leads to: `some` while the instance exists, `none` once it has been dropped.
Simplification: no thread holds an upgraded pointer across another call, so dropping the instance takes
effect at once.
-/

namespace Hop

/-- `Snapshot`, lib/metrics/src/lib.rs 52-55. The `u64` values are natural numbers below 2^64. -/
structure MetricMap (T : Type) where
  counters : T → Option Nat
  gauges : T → Option UInt64

/-- `Metrics` as its readers and writers reach it, lib/metrics/src/lib.rs 92, 169-171, 214-216. -/
structure MetricCell (T : Type) where
  live : Option (MetricMap T)

namespace MetricMap

variable {T : Type} [DecidableEq T]

/-- `Snapshot::counter`, lib/metrics/src/lib.rs 68-70. -/
def counter (s : MetricMap T) (t : T) : Option Nat := s.counters t

/-- `Snapshot::gauge`, lib/metrics/src/lib.rs 85-87. -/
def gauge (s : MetricMap T) (t : T) : Option UInt64 := s.gauges t

/-- `snapshot.counters().insert(t, v)`: the maps handed out by lib/metrics/src/lib.rs 62-64 can be
written through (as the documentation there says). -/
def insertCounter (s : MetricMap T) (t : T) (v : UInt64) : MetricMap T :=
  { s with counters := fun t' => if t' = t then some v.toNat else s.counters t' }

/-- `snapshot.gauges().insert(t, v)`: likewise for lib/metrics/src/lib.rs 76-78. -/
def insertGauge (s : MetricMap T) (t : T) (v : UInt64) : MetricMap T :=
  { s with gauges := fun t' => if t' = t then some v else s.gauges t' }

end MetricMap

namespace MetricCell

variable {T : Type} [DecidableEq T]

/-- `Metrics::new` / `default`, lib/metrics/src/lib.rs 99-101, 156-163. -/
def new : MetricCell T := { live := some { counters := fun _ => none, gauges := fun _ => none } }

/-- `Metrics::snapshot`, lib/metrics/src/lib.rs 148-153: a deep copy of both maps. Needs the instance
itself, so it cannot be called once that is gone (`none`). -/
def snapshot (c : MetricCell T) : Option (MetricMap T) :=
  c.live.map fun m => { counters := m.counters, gauges := m.gauges }

/-- Dropping the `Metrics` instance, the only strong reference (lib/metrics/src/lib.rs 92). -/
def drop (_ : MetricCell T) : MetricCell T := { live := none }

/-- `Reader::counter`, lib/metrics/src/lib.rs 181-185. -/
def readCounter (c : MetricCell T) (t : T) : Option Nat := c.live.bind fun m => m.counters t

/-- `Reader::gauge`, lib/metrics/src/lib.rs 197-201. -/
def readGauge (c : MetricCell T) (t : T) : Option UInt64 := c.live.bind fun m => m.gauges t

/-- `Reader::valid` and `Writer::valid`, lib/metrics/src/lib.rs 205-207, 254-256. -/
def valid (c : MetricCell T) : Bool := c.live.isSome

/-- `Writer::gauge`, lib/metrics/src/lib.rs 227-234. -/
def writeGauge (c : MetricCell T) (t : T) (v : UInt64) : Bool × MetricCell T :=
  match c.live with
  | none => (false, c)
  | some m => (true, { live := some { m with gauges := fun t' => if t' = t then some v else m.gauges t' } })

/-- `Writer::increment`, lib/metrics/src/lib.rs 243-250: `entry().or_default()` creates the counter with
0, then `+= 1` on a `u64`; the answer `none` is the overflow panic of a debug build. -/
def increment (mode : Mode) (c : MetricCell T) (t : T) : Option Bool × MetricCell T :=
  match c.live with
  | none => (some false, c)
  | some m =>
    let old := (m.counters t).getD 0
    match addU mode 64 old 1 with
    | none => (none, { live := some { m with counters := fun t' => if t' = t then some old else m.counters t' } })
    | some n =>
      (some true, { live := some { m with counters := fun t' => if t' = t then some n else m.counters t' } })

end MetricCell

end Hop
