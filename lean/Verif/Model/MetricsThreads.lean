import Verif.Model.Metrics

/-!
# The metrics library used by several threads (lib/metrics/src/lib.rs)

Readers and writers hold a `Weak` to the maps. Each of their calls turns it into an `Arc` (`upgrade`), goes to one
entry of one map (which `DashMap` does under a lock), and drops the `Arc` when it returns. Each thread makes one call;
a thread making several calls is several of these, of which one begins when the other has returned.

Simplification: the reference count does not overflow.
-/

namespace Hop

/-- The calls. lib/metrics/src/lib.rs 148-256. -/
inductive MetricCall (T : Type) where
  /-- `Writer::increment`, lib/metrics/src/lib.rs 243-250. -/
  | increment (t : T)
  /-- `Writer::gauge`, lib/metrics/src/lib.rs 227-234. -/
  | gauge (t : T) (v : UInt64)
  /-- `Reader::counter`, lib/metrics/src/lib.rs 181-185. -/
  | readCounter (t : T)
  /-- `Reader::gauge`, lib/metrics/src/lib.rs 197-201. -/
  | readGauge (t : T)
  /-- `Reader::valid` and `Writer::valid`, lib/metrics/src/lib.rs 205-207, 254-256. -/
  | valid
  /-- `Metrics::snapshot`, lib/metrics/src/lib.rs 148-153. -/
  | snapshot
  /-- Dropping the `Metrics` instance. -/
  | drop
deriving DecidableEq

/-- What they return. lib/metrics/src/lib.rs 148-256. -/
inductive MetricAnswer (T : Type) where
  | bool (b : Bool)
  | count (o : Option Nat)
  | level (o : Option UInt64)
  | snap (s : MetricMap T)
  | unit
  /-- The overflow of `+= 1` in a debug build. -/
  | panic

/-- Where a thread is in its call. lib/metrics/src/lib.rs 148-256. -/
inductive MetricThread (T : Type) where
  /-- The call has not begun. -/
  | calling (c : MetricCall T)
  /-- `upgrade` succeeded. -/
  | holding (c : MetricCall T)
  /-- The work is done; the `Arc` is still held. -/
  | leaving (c : MetricCall T) (r : MetricAnswer T)
  /-- `snapshot` has copied the first `n` shards, of the counters first, then of the gauges. -/
  | copying (n : Nat) (s : MetricMap T)
  /-- The call has returned. -/
  | returned (c : MetricCall T) (r : MetricAnswer T)

/-- The threads, whether the instance still exists, the number of `Arc`s, and the maps they lead to.
lib/metrics/src/lib.rs 90-92, 169-171 and 214-216. -/
structure MetricPool (T : Type) where
  threads : List (MetricThread T)
  owned : Bool
  strong : Nat
  maps : MetricMap T

/-- The thread is taking a snapshot (it borrows the instance). lib/metrics/src/lib.rs 148. -/
def MetricThread.borrows {T : Type} : MetricThread T → Bool
  | .copying _ _ => true
  | _ => false

variable {T : Type} [DecidableEq T]

/-- `map.entry(t).or_default() = v` and the like: one entry changes. lib/metrics/src/lib.rs 247. -/
def MetricMap.setCounter (m : MetricMap T) (t : T) (v : Nat) : MetricMap T :=
  { m with counters := fun t' => if t' = t then some v else m.counters t' }

/-- See `setCounter`. lib/metrics/src/lib.rs 231. -/
def MetricMap.setGauge (m : MetricMap T) (t : T) (v : UInt64) : MetricMap T :=
  { m with gauges := fun t' => if t' = t then some v else m.gauges t' }

/-- The closures given to `map` and `and_then`, lib/metrics/src/lib.rs 184, 200, 230-232, 246-248: what is returned, and
the maps. -/
def MetricCall.work (mode : Mode) (m : MetricMap T) : MetricCall T → MetricAnswer T × MetricMap T
  | .increment t =>
    match addU mode 64 ((m.counters t).getD 0) 1 with
    | none => (.panic, m.setCounter t ((m.counters t).getD 0))
    | some n => (.bool true, m.setCounter t n)
  | .gauge t v => (.bool true, m.setGauge t v)
  | .readCounter t => (.count (m.counters t), m)
  | .readGauge t => (.level (m.gauges t), m)
  | .valid | .snapshot | .drop => (.unit, m)

/-- What is returned when `upgrade` fails. lib/metrics/src/lib.rs 181-185, 197-201, 233 and 249. -/
def MetricCall.lost : MetricCall T → MetricAnswer T
  | .increment _ | .gauge _ _ => .bool false
  | .readCounter _ => .count none
  | .readGauge _ => .level none
  | .valid | .snapshot | .drop => .unit

/-- `DashMap::clone` copies one shard after the other: shard `n` of the counters for `n < shards`, then those of the
gauges. lib/metrics/src/lib.rs 150-151. -/
def copyShard (shards : Nat) (shard : T → Nat) (n : Nat) (m s : MetricMap T) : MetricMap T :=
  { counters := fun t => if shard t = n then m.counters t else s.counters t
    gauges := fun t => if shards + shard t = n then m.gauges t else s.gauges t }

/-- The next step of thread `i`. The instance cannot be dropped while a snapshot is taken, nor a snapshot be taken
afterwards (Rust's borrow rules): such threads stay where they are. lib/metrics/src/lib.rs 148-256. -/
def MetricPool.stepAt (mode : Mode) (shards : Nat) (shard : T → Nat) (p : MetricPool T) (i : Nat) : MetricPool T :=
  match p.threads[i]? with
  | some (.calling .valid) =>
    { p with threads := p.threads.set i (.returned .valid (.bool (decide (0 < p.strong)))) }
  | some (.calling .snapshot) =>
    if p.owned then { p with threads := p.threads.set i (.copying 0 ⟨fun _ => none, fun _ => none⟩) } else p
  | some (.calling .drop) =>
    if p.owned && !p.threads.any (·.borrows) then
      { p with threads := p.threads.set i (.returned .drop .unit), owned := false, strong := p.strong - 1 }
    else p
  | some (.calling c) =>
    if p.strong = 0 then { p with threads := p.threads.set i (.returned c c.lost) }
    else { p with threads := p.threads.set i (.holding c), strong := p.strong + 1 }
  | some (.holding c) =>
    { p with threads := p.threads.set i (.leaving c (c.work mode p.maps).1), maps := (c.work mode p.maps).2 }
  | some (.leaving c r) => { p with threads := p.threads.set i (.returned c r), strong := p.strong - 1 }
  | some (.copying n s) =>
    if n < 2 * shards then { p with threads := p.threads.set i (.copying (n + 1) (copyShard shards shard n p.maps s)) }
    else { p with threads := p.threads.set i (.returned .snapshot (.snap s)) }
  | _ => p

/-- A schedule. lib/metrics/src/lib.rs 148-256. -/
def MetricPool.exec (mode : Mode) (shards : Nat) (shard : T → Nat) (p : MetricPool T) (sched : List Nat) : MetricPool T :=
  sched.foldl (MetricPool.stepAt mode shards shard) p

/-- A new instance (lib/metrics/src/lib.rs 156-163) and threads about to make calls. -/
def MetricPool.start (calls : List (MetricCall T)) : MetricPool T :=
  { threads := calls.map .calling, owned := true, strong := 1, maps := ⟨fun _ => none, fun _ => none⟩ }

end Hop
