import Verif.Model.Types
import Verif.Model.Metrics

/-! # The session manager (engine/src/session) -/

namespace Hop

/-- `Session`, engine/src/session/mod.rs 8-12. The token is 32 bytes; nothing depends on that. -/
structure Session where
  token : Bytes
  id : UInt32
deriving DecidableEq

/-- `SessionManagerRef`, engine/src/session/manager.rs 10-15. -/
structure SessionMgr where
  metrics : MetricCell Metric
  nextId : UInt32
  sessions : UInt32 → Option Session

namespace SessionMgr

/-- `SessionManager::new`, engine/src/session/manager.rs 21-27. -/
def new (metrics : MetricCell Metric) : SessionMgr := { metrics, nextId := 0, sessions := fun _ => none }

/-- `SessionManager::add`, engine/src/session/manager.rs 29-46, run alone: the three loads of `next_id`
give the same number. The answer is the map key and the session the returned guard leads to; `none` is a
panic, either of `unreachable!()` (line 34) or of the overflowing counter in a debug build (line 39), in
which case the session has been inserted already. -/
def add (mode : Mode) (s : SessionMgr) (token : Bytes) : Option (UInt32 × Session) × SessionMgr :=
  let session : Session := { token, id := s.nextId }
  match s.sessions s.nextId with
  | some _ => (none, s)
  | none =>
    let s' := { s with sessions := fun i => if i = s.nextId then some session else s.sessions i }
    let (r, c) := s'.metrics.increment mode .sessionsStarted
    match r with
    | none => (none, { s' with metrics := c })
    | some _ => (some (s.nextId, session), { s' with metrics := c, nextId := s.nextId + 1 })

/-- `SessionManager::remove`, engine/src/session/manager.rs 48-50. -/
def remove (s : SessionMgr) (id : UInt32) : Bool × SessionMgr :=
  ((s.sessions id).isSome, { s with sessions := fun i => if i = id then none else s.sessions i })

end SessionMgr

/-! ## Adding from several threads

`SessionManager` is a cloneable handle (engine/src/session/manager.rs 17-18), so `add` can run in several
threads at once. Its accesses to shared memory are, in order: load `next_id` (line 30), load it again and
lock the map entry (line 32), increment the metric (line 39), load `next_id` a third time and store the
successor (lines 41-43). -/

/-- Where a thread is within `add` (or `remove`). engine/src/session/manager.rs 29-50. -/
inductive SessionThread where
  /-- Has not read anything. -/
  | add (token : Bytes)
  /-- Has made the session (line 30). -/
  | made (s : Session)
  /-- Has read the key to insert at (line 32). -/
  | keyed (s : Session) (key : UInt32)
  /-- Has inserted and still holds the entry's lock (lines 32-37). -/
  | inserted (s : Session) (key : UInt32)
  /-- Has counted (line 39). -/
  | counted (s : Session) (key : UInt32)
  /-- Has read the identifier to advance (line 43). -/
  | advancing (s : Session) (key : UInt32) (old : UInt32)
  /-- `add` returned the guard of this entry, and the caller has dropped it. Simplification: the caller
  drops it at once. -/
  | added (key : UInt32) (s : Session)
  /-- `add` panicked (line 34, or line 39 in a debug build). -/
  | panicked
  /-- About to `remove` (line 48-50). -/
  | remove (id : UInt32)
  /-- `remove` answered. -/
  | removed (answer : Bool)

/-- The entry a thread holds the lock of. engine/src/session/manager.rs 32. -/
def SessionThread.holds : SessionThread → Option UInt32
  | .inserted _ k | .counted _ k | .advancing _ k _ => some k
  | _ => none

/-- The manager and the threads using it. A manager is shared, engine/src/session/manager.rs 17-18. -/
structure SessionPool where
  threads : List SessionThread
  mgr : SessionMgr

/-- No thread holds the lock of this entry. The entries of engine/src/session/manager.rs 14. -/
def SessionPool.free (p : SessionPool) (id : UInt32) : Bool := p.threads.all fun t => t.holds != some id

/-- One access to shared memory by one thread. A thread that needs the lock of an entry held by another thread stays
where it is. Simplification: DashMap locks a whole shard, so in reality threads wait in some more situations; every
schedule of the real program is one of this model. engine/src/session/manager.rs 29-54. -/
def SessionThread.step (mode : Mode) (free : UInt32 → Bool) (m : SessionMgr) :
    SessionThread → SessionThread × SessionMgr
  | .add token => (.made { token, id := m.nextId }, m)
  | .made s => (.keyed s m.nextId, m)
  | .keyed s k =>
    if free k then
      match m.sessions k with
      | some _ => (.panicked, m)
      | none => (.inserted s k, { m with sessions := fun i => if i = k then some s else m.sessions i })
    else (.keyed s k, m)
  | .inserted s k =>
    let (r, c) := m.metrics.increment mode .sessionsStarted
    match r with
    | none => (.panicked, { m with metrics := c })
    | some _ => (.counted s k, { m with metrics := c })
  | .counted s k => (.advancing s k m.nextId, m)
  | .advancing s k old => (.added k s, { m with nextId := old + 1 })
  | .remove id =>
    if free id then (.removed (m.remove id).1, (m.remove id).2) else (.remove id, m)
  | t => (t, m)

/-- Thread `i` makes its next access. engine/src/session/manager.rs 29-54. -/
def SessionPool.stepAt (mode : Mode) (p : SessionPool) (i : Nat) : SessionPool :=
  match p.threads[i]? with
  | none => p
  | some t =>
    let (t', m') := t.step mode p.free p.mgr
    { threads := p.threads.set i t', mgr := m' }

/-- Execute a schedule. engine/src/session/manager.rs 29-54. -/
def SessionPool.exec (mode : Mode) (p : SessionPool) (sched : List Nat) : SessionPool :=
  sched.foldl (SessionPool.stepAt mode) p

end Hop
