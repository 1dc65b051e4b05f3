import Verif.Model.PubSub

/-!
# The publish/subscribe manager used from several threads (engine/src/pubsub/manager.rs)

`PubSubManager` is a cloneable handle (engine/src/pubsub/manager.rs 12-13). `subscribe` keeps the guard of the
session's entry (line 29) until it returns, so it holds the lock of that entry's shard while it accesses `keys`
(line 43). Everything else holds one lock at a time: the guards of lines 59-64 and 65-70 are dropped before the
next line. No lock of `keys` is held while a lock of `sessions` is waited for, so accesses to `keys` never
wait for long and are single steps here. Which entries share a lock depends on the hash function; this is the
parameter `shard`.
-/

namespace Hop

namespace PubSub

/-- `PubSubManager::subscribe`, engine/src/pubsub/manager.rs 29-41: what happens to the session's map. The
answer is the new subscription, if there was none. -/
def subscribeSession (p : PubSub) (key : Bytes) (sid : UInt32) : Option Nat × PubSub :=
  let session := (p.sessions sid).getD []
  match session.lookup key with
  | some _ => (none, { p with sessions := fun s => if s = sid then some session else p.sessions s })
  | none =>
    (some p.made, { p with
      sessions := fun s => if s = sid then some (session ++ [(key, p.made)]) else p.sessions s,
      made := p.made + 1 })

/-- `PubSubManager::subscribe`, engine/src/pubsub/manager.rs 43-51: what happens to the key. -/
def subscribeKey (p : PubSub) (key : Bytes) (sid : UInt32) (x : Nat) : Option Nat × PubSub :=
  match p.keys key with
  | some _ => (none, p)
  | none => (some x, { p with keys := fun k => if k = key then some [sid] else p.keys k })

/-- `PubSubManager::unsubscribe`, engine/src/pubsub/manager.rs 59-64. -/
def unsubscribeKey (p : PubSub) (key : Bytes) (sid : UInt32) : Bool × PubSub :=
  match p.keys key with
  | none => (false, p)
  | some l => (l.contains sid, { p with keys := fun k => if k = key then some (l.filter (· != sid)) else p.keys k })

/-- `PubSubManager::unsubscribe`, engine/src/pubsub/manager.rs 65-70. -/
def unsubscribeSession (p : PubSub) (key : Bytes) (sid : UInt32) : Bool × PubSub :=
  match p.sessions sid with
  | none => (false, p)
  | some session =>
    ((session.lookup key).isSome,
      { p with sessions := fun s => if s = sid then some (session.filter (fun e => e.1 != key)) else p.sessions s })

end PubSub

/-- Where a thread is within a call. engine/src/pubsub/manager.rs 17-90. -/
inductive SubThread where
  /-- About to call `subscribe`. -/
  | subscribe (key : Bytes) (sid : UInt32)
  /-- Has put subscription `x` into the session's map and holds the lock (lines 29-41). -/
  | subscribing (key : Bytes) (sid : UInt32) (x : Nat)
  | subscribed (answer : Option Nat)
  /-- About to call `unsubscribe`. -/
  | unsubscribe (key : Bytes) (sid : UInt32)
  /-- Has removed the session from the key's set, if it was there (lines 59-64). -/
  | unsubscribing (key : Bytes) (sid : UInt32) (keyUnsubbed : Bool)
  | unsubscribed (answer : Bool)
  /-- About to call `get`. -/
  | get (key : Bytes) (sid : UInt32)
  | got (answer : Option Nat)
  /-- About to call `remove_session`. -/
  | removeSession (sid : UInt32)
  /-- Has removed the session's map and is going to close these subscriptions (lines 85-87). -/
  | closing (subscriptions : List Nat)
  | sessionRemoved (answer : Bool)
deriving DecidableEq

/-- The session whose entry a thread holds. engine/src/pubsub/manager.rs 29, 67 and 83. -/
def SubThread.holds : SubThread → Option UInt32
  | .subscribing _ s _ => some s
  | _ => none

/-- The manager and the threads using it. A manager is shared, engine/src/pubsub/manager.rs 12-13. -/
structure SubPool where
  threads : List SubThread
  mgr : PubSub

/-- No thread holds the lock that the entry of this session needs. The entries of engine/src/pubsub/manager.rs 9. -/
def SubPool.free (shard : UInt32 → Nat) (p : SubPool) (sid : UInt32) : Bool :=
  p.threads.all fun t => match t.holds with
    | some s => shard s != shard sid
    | none => true

/-- One step of one thread, from one lock operation to the next. A thread that needs a lock which is taken stays
where it is. `get`: engine/src/pubsub/manager.rs 17-22; `remove_session`: lines 80-90. -/
def SubThread.step (free : UInt32 → Bool) (m : PubSub) : SubThread → SubThread × PubSub
  | .subscribe k s =>
    if free s then
      match m.subscribeSession k s with
      | (none, m') => (.subscribed none, m')
      | (some x, m') => (.subscribing k s x, m')
    else (.subscribe k s, m)
  | .subscribing k s x => (.subscribed (m.subscribeKey k s x).1, (m.subscribeKey k s x).2)
  | .unsubscribe k s => (.unsubscribing k s (m.unsubscribeKey k s).1, (m.unsubscribeKey k s).2)
  | .unsubscribing k s b =>
    if free s then (.unsubscribed (b || (m.unsubscribeSession k s).1), (m.unsubscribeSession k s).2)
    else (.unsubscribing k s b, m)
  | .get k s => if free s then (.got (m.get k s), m) else (.get k s, m)
  | .removeSession s =>
    if free s then
      match m.sessions s with
      | none => (.sessionRemoved false, m)
      | some session =>
        (.closing (session.map (·.2)), { m with sessions := fun i => if i = s then none else m.sessions i })
    else (.removeSession s, m)
  | .closing [] => (.sessionRemoved true, m)
  | .closing (x :: xs) => (.closing xs, { m with closed := x :: m.closed })
  | t => (t, m)

/-- Thread `i` makes its next step. engine/src/pubsub/manager.rs 17-90. -/
def SubPool.stepAt (shard : UInt32 → Nat) (p : SubPool) (i : Nat) : SubPool :=
  match p.threads[i]? with
  | none => p
  | some t =>
    let (t', m') := t.step (p.free shard) p.mgr
    { threads := p.threads.set i t', mgr := m' }

/-- Execute a schedule. engine/src/pubsub/manager.rs 17-90. -/
def SubPool.exec (shard : UInt32 → Nat) (p : SubPool) (sched : List Nat) : SubPool :=
  sched.foldl (SubPool.stepAt shard) p

end Hop
