import Verif.Model.Hop
import Verif.Model.PubSubThreads

/-!
# One engine used from several threads at once (engine/src/hop.rs)

`Hop` is an `Arc` (engine/src/hop.rs 147-149) and all of its functions take `&self`, so threads can execute
commands, add and remove sessions, subscribe and read metrics at the same time. The only memory these have in
common is the metrics: `dispatch` counts outcomes (lines 190-196) and Stats reads counters
(engine/src/command/impl/stats.rs 27-36), the session manager counts sessions
(engine/src/session/manager.rs 39), and readers look at all of it (engine/src/hop.rs 205-207).
-/

namespace Hop

/-- What a thread that uses the engine is doing: `dispatch` (engine/src/hop.rs 170-197), a call of the session
manager (lines 215-217), a call of the publish/subscribe manager (lines 210-212), or reading a counter through
`metrics()` (lines 205-207; lib/metrics/src/lib.rs 181-185). -/
inductive HopThread where
  | command (p : Prog Bytes)
  | session (t : SessionThread)
  | pubsub (t : SubThread)
  | measure (m : Metric)
  | measured (m : Metric) (answer : Option Nat)

/-- The engine and the threads using it. An engine is shared, engine/src/hop.rs 148-149. -/
structure HopPool where
  threads : List HopThread
  engine : HopEngine

/-- No thread holds the lock of this entry of the session manager (see `SessionPool.free`). The entries of
engine/src/session/manager.rs 14. -/
def HopPool.sessionFree (p : HopPool) (id : UInt32) : Bool :=
  p.threads.all fun
    | .session t => t.holds != some id
    | _ => true

/-- No thread holds the lock that the entry of this session needs in the publish/subscribe manager (see
`SubPool.free`). The entries of engine/src/pubsub/manager.rs 9. -/
def HopPool.pubsubFree (shard : UInt32 → Nat) (p : HopPool) (sid : UInt32) : Bool :=
  p.threads.all fun
    | .pubsub t => match t.holds with
      | some s => shard s != shard sid
      | none => true
    | _ => true

/-- One access to shared memory by one thread. Reading a counter is one lookup
(lib/metrics/src/lib.rs 181-185). -/
def HopThread.step (mode : Mode) (sessionFree pubsubFree : UInt32 → Bool) (h : HopEngine) :
    HopThread → HopThread × HopEngine
  | .command p =>
    let (p', db) := p.step h.db
    (.command p', { h with db })
  | .session t =>
    let (t', m) := t.step mode sessionFree h.mgr
    (.session t', h.setMgr m)
  | .pubsub t =>
    let (t', m) := t.step pubsubFree h.pubsub
    (.pubsub t', { h with pubsub := m })
  | .measure m => (.measured m (h.readMetric m), h)
  | .measured m a => (.measured m a, h)

/-- Thread `i` makes its next access. An engine is shared, engine/src/hop.rs 148-149. -/
def HopPool.stepAt (mode : Mode) (shard : UInt32 → Nat) (p : HopPool) (i : Nat) : HopPool :=
  match p.threads[i]? with
  | none => p
  | some t =>
    let (t', h') := t.step mode p.sessionFree (p.pubsubFree shard) p.engine
    { threads := p.threads.set i t', engine := h' }

/-- Execute a schedule. An engine is shared, engine/src/hop.rs 148-149. -/
def HopPool.exec (mode : Mode) (shard : UInt32 → Nat) (p : HopPool) (sched : List Nat) : HopPool :=
  sched.foldl (HopPool.stepAt mode shard) p

end Hop
