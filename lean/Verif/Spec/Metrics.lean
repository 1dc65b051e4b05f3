import Verif.Model.Metrics

/-! # Specification of metrics: what a history of writes adds up to -/

namespace Hop.Spec

/-- What users can do to a metrics instance and to the snapshots taken from it. `scribble` and `scrawl` write into
the counters and the gauges of the `i`-th snapshot, which the library permits. -/
inductive MetricOp (T : Type) where
  | increment (t : T)
  | gauge (t : T) (v : UInt64)
  | snapshot
  | drop
  | scribble (i : Nat) (t : T) (v : UInt64)
  | scrawl (i : Nat) (t : T) (v : UInt64)

/-- A metrics instance together with the snapshots taken so far. -/
structure MetricWorld (T : Type) where
  cell : MetricCell T
  snaps : List (MetricMap T)

variable {T : Type} [DecidableEq T]

/-- Do one operation, using the library's functions. -/
def MetricWorld.apply (mode : Mode) (w : MetricWorld T) : MetricOp T → MetricWorld T
  | .increment t => { w with cell := (w.cell.increment mode t).2 }
  | .gauge t v => { w with cell := (w.cell.writeGauge t v).2 }
  | .snapshot =>
    match w.cell.snapshot with
    | none => w
    | some s => { w with snaps := w.snaps ++ [s] }
  | .drop => { w with cell := w.cell.drop }
  | .scribble i t v => { w with snaps := w.snaps.modify i (fun s => s.insertCounter t v) }
  | .scrawl i t v => { w with snaps := w.snaps.modify i (fun s => s.insertGauge t v) }

/-- A whole history, starting with a new instance. -/
def MetricWorld.after (mode : Mode) (h : List (MetricOp T)) : MetricWorld T :=
  h.foldl (MetricWorld.apply mode) { cell := .new, snaps := [] }

/-- How often a counter was incremented. -/
def increments (t : T) (h : List (MetricOp T)) : Nat :=
  h.countP fun o => match o with | .increment t' => t' = t | _ => false

/-- The values written to a gauge, in order. -/
def gaugeWrites (t : T) (h : List (MetricOp T)) : List UInt64 :=
  h.filterMap fun o => match o with | .gauge t' v => if t' = t then some v else none | _ => none

/-- The values written into a counter of the `i`-th snapshot, in order. -/
def scribbles (i : Nat) (t : T) (h : List (MetricOp T)) : List UInt64 :=
  h.filterMap fun o => match o with | .scribble i' t' v => if i' = i ∧ t' = t then some v else none | _ => none

/-- The values written into a gauge of the `i`-th snapshot, in order. -/
def scrawls (i : Nat) (t : T) (h : List (MetricOp T)) : List UInt64 :=
  h.filterMap fun o => match o with | .scrawl i' t' v => if i' = i ∧ t' = t then some v else none | _ => none

/-- The instance has been dropped. -/
def dropped (h : List (MetricOp T)) : Bool := h.any fun o => match o with | .drop => true | _ => false

/-- What a counter shows after `n` increments: nothing if there were none; the number while it fits into
64 bits; beyond that it stays at the largest number in debug builds and starts over in release builds. -/
def counterShows (mode : Mode) (n : Nat) : Option Nat :=
  if n = 0 then none
  else match mode with
    | .debug => some (min n (2 ^ 64 - 1))
    | .release => some (n % 2 ^ 64)

/-- How many snapshots were taken (none can be taken after the drop). -/
def snapshots : List (MetricOp T) → Nat
  | [] => 0
  | .drop :: _ => 0
  | .snapshot :: h => snapshots h + 1
  | _ :: h => snapshots h

end Hop.Spec
