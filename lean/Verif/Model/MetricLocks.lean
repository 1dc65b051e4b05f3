import Verif.Model.MetricsThreads

/-!
# The metrics library with the locks of its maps (lib/metrics/src/lib.rs)

`MetricPool.stepAt` goes to an entry at one moment. Here, as in the code, a thread acquires the lock of the entry's shard
first: writers exclusively, whereupon the entry goes through any intermediate states (`or_default` inserts 0 first), readers
and the snapshot shared. The lock is dropped when the access is done.

Simplification: what is read under a shared lock is read at the moment the lock is dropped.
-/

namespace Hop

/-- An entry of one of the maps. lib/metrics/src/lib.rs 52-55. -/
inductive MCell (T : Type) where
  | counter (t : T)
  | gauge (t : T)

/-- What can be there. lib/metrics/src/lib.rs 52-55. -/
abbrev MCell.Val {T : Type} : MCell T → Type
  | .counter _ => Option Nat
  | .gauge _ => Option UInt64

/-- The number of the lock that guards an entry: the shards of the counters come first, then those of the gauges.
lib/metrics/src/lib.rs 52-55. -/
def MCell.lock {T : Type} (shards : Nat) (shard : T → Nat) : MCell T → Nat
  | .counter t => shard t
  | .gauge t => shards + shard t

/-- What is there. lib/metrics/src/lib.rs 52-55. -/
def MetricMap.get {T : Type} (m : MetricMap T) : (c : MCell T) → c.Val
  | .counter t => m.counters t
  | .gauge t => m.gauges t

/-- The maps with something else there. lib/metrics/src/lib.rs 52-55. -/
def MetricMap.put {T : Type} [DecidableEq T] (m : MetricMap T) : (c : MCell T) → c.Val → MetricMap T
  | .counter t, v => { m with counters := fun t' => if t' = t then v else m.counters t' }
  | .gauge t, v => { m with gauges := fun t' => if t' = t then v else m.gauges t' }

/-- The entry the next step of the thread is to change: `entry` in lib/metrics/src/lib.rs 231 and 247. -/
def MetricThread.changes {T : Type} : MetricThread T → Option (MCell T)
  | .holding (.increment t) => some (.counter t)
  | .holding (.gauge t _) => some (.gauge t)
  | _ => none

/-- The lock under which the next step of the thread is to read: `get` in lib/metrics/src/lib.rs 184 and 200, the next shard
in `clone`, lines 150-151. -/
def MetricThread.reads {T : Type} (shards : Nat) (shard : T → Nat) : MetricThread T → Option Nat
  | .holding (.readCounter t) => some (shard t)
  | .holding (.readGauge t) => some (shards + shard t)
  | .copying n _ => if n < 2 * shards then some n else none
  | _ => none

/-- A thread: between two accesses, changing an entry in which it found something, or reading under a shared lock.
lib/metrics/src/lib.rs 148-256. -/
inductive MLThread (T : Type) where
  | free (t : MetricThread T)
  | owning (t : MetricThread T) (c : MCell T) (found : c.Val)
  | sharing (t : MetricThread T) (n : Nat)

/-- Where it is in its call. lib/metrics/src/lib.rs 148-256. -/
def MLThread.base {T : Type} : MLThread T → MetricThread T
  | .free t | .owning t _ _ | .sharing t _ => t

/-- The lock it holds exclusively. lib/metrics/src/lib.rs 231, 247. -/
def MLThread.owns {T : Type} (shards : Nat) (shard : T → Nat) : MLThread T → Option Nat
  | .owning _ c _ => some (c.lock shards shard)
  | _ => none

/-- The lock it holds, shared or exclusively. lib/metrics/src/lib.rs 150-151, 184, 200, 231, 247. -/
def MLThread.holds {T : Type} (shards : Nat) (shard : T → Nat) : MLThread T → Option Nat
  | .owning _ c _ => some (c.lock shards shard)
  | .sharing _ n => some n
  | .free _ => none

/-- See `MetricPool`. lib/metrics/src/lib.rs 90-92, 169-171 and 214-216. -/
structure MLPool (T : Type) where
  threads : List (MLThread T)
  owned : Bool
  strong : Nat
  maps : MetricMap T

/-- The same without the locks, with these maps. lib/metrics/src/lib.rs 90-92. -/
def MLPool.base {T : Type} (p : MLPool T) (maps : MetricMap T) : MetricPool T :=
  { threads := p.threads.map MLThread.base, owned := p.owned, strong := p.strong, maps }

/-- Thread `i` is done with an access and is now as in `q`, which has this effect. lib/metrics/src/lib.rs 148-256. -/
def MLPool.after {T : Type} (p : MLPool T) (i : Nat) (t : MetricThread T) (q : MetricPool T) : MLPool T :=
  { threads := p.threads.set i (.free t), owned := q.owned, strong := q.strong, maps := q.maps }

variable {T : Type} [DecidableEq T]

/-- A step of thread `i`. lib/metrics/src/lib.rs 148-256. -/
inductive MLStep (mode : Mode) (shards : Nat) (shard : T → Nat) (p : MLPool T) (i : Nat) : MLPool T → Prop
  /-- It acquires a lock exclusively, which nobody holds (lines 231, 247). -/
  | lock {t c} : p.threads[i]? = some (.free t) → t.changes = some c →
      (∀ (j : Nat) u, p.threads[j]? = some u → u.holds shards shard ≠ some (c.lock shards shard)) →
      MLStep mode shards shard p i { p with threads := p.threads.set i (.owning t c (p.maps.get c)) }
  /-- The entry looks like anything. -/
  | draft {t c o} (v : c.Val) : p.threads[i]? = some (.owning t c o) →
      MLStep mode shards shard p i { p with maps := p.maps.put c v }
  /-- The change is made, and the lock dropped (lines 231, 247). -/
  | commit {t c o t'} : p.threads[i]? = some (.owning t c o) →
      ((p.base (p.maps.put c o)).stepAt mode shards shard i).threads[i]? = some t' →
      MLStep mode shards shard p i (p.after i t' ((p.base (p.maps.put c o)).stepAt mode shards shard i))
  /-- It acquires a lock shared, which nobody holds exclusively (lines 150-151, 184, 200). -/
  | share {t n} : p.threads[i]? = some (.free t) → t.reads shards shard = some n →
      (∀ (j : Nat) u, p.threads[j]? = some u → u.owns shards shard ≠ some n) →
      MLStep mode shards shard p i { p with threads := p.threads.set i (.sharing t n) }
  /-- It has read, and drops the lock (lines 150-151, 184, 200). -/
  | release {t n t'} : p.threads[i]? = some (.sharing t n) →
      ((p.base p.maps).stepAt mode shards shard i).threads[i]? = some t' →
      MLStep mode shards shard p i (p.after i t' ((p.base p.maps).stepAt mode shards shard i))
  /-- It does something else: `upgrade`, `strong_count`, dropping an `Arc`, beginning or ending a snapshot. -/
  | plain {t t'} : p.threads[i]? = some (.free t) → t.changes = none → t.reads shards shard = none →
      ((p.base p.maps).stepAt mode shards shard i).threads[i]? = some t' →
      MLStep mode shards shard p i (p.after i t' ((p.base p.maps).stepAt mode shards shard i))

/-- Any number of steps. lib/metrics/src/lib.rs 148-256. -/
inductive MLSteps (mode : Mode) (shards : Nat) (shard : T → Nat) (p : MLPool T) : MLPool T → Prop
  | refl : MLSteps mode shards shard p p
  | tail {q r i} : MLSteps mode shards shard p q → MLStep mode shards shard q i r → MLSteps mode shards shard p r

/-- A new instance and threads about to make calls. lib/metrics/src/lib.rs 156-163. -/
def MLPool.start (calls : List (MetricCall T)) : MLPool T :=
  { threads := calls.map fun c => .free (.calling c), owned := true, strong := 1, maps := ⟨fun _ => none, fun _ => none⟩ }

end Hop
