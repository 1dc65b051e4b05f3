import Verif.Model.Sessions

/-!
# Session guards held by users of the library

`SessionManager::add` (engine/src/session/manager.rs 29-46) returns a guard of the new entry, which its caller may keep.
The guard borrows the handle `add` was called on; handles are cloneable (line 17), so the caller can go on using the
manager through another one. Here threads hold any number of guards and make further calls meanwhile.

Simplifications: a panic ends the thread; a thread that ends or panics drops its guards.
-/

namespace Hop

/-- What a thread still has to do. The guard is the `RefMut` that engine/src/session/manager.rs 29 returns. -/
inductive SProg where
  | done
  /-- `SessionManager::add`, engine/src/session/manager.rs 29-46: the caller goes on with the key and the session of the
  guard it is given. -/
  | add (token : Bytes) (next : UInt32 → Session → SProg)
  /-- `SessionManager::remove`, engine/src/session/manager.rs 48-50. -/
  | remove (id : UInt32) (next : Bool → SProg)
  /-- Read the session through the guard of this entry (its fields are public, engine/src/session/mod.rs 8-12). -/
  | look (id : UInt32) (next : Option Session → SProg)
  /-- Write the session through the guard of this entry. -/
  | write (id : UInt32) (s : Session) (next : SProg)
  /-- Drop the guard of this entry. -/
  | drop (id : UInt32) (next : SProg)

/-- A thread: the guards it keeps, where it is within the addition it is making (engine/src/session/manager.rs 29-46),
if it has begun one, and what it still has to do. -/
structure SThread where
  held : List UInt32
  call : Option SessionThread
  prog : SProg

/-- The entries whose locks the thread holds: those of its guards, and that of the guard an unfinished addition
(engine/src/session/manager.rs 32-45) has acquired. -/
def SThread.locks (t : SThread) : List UInt32 := (t.call.bind SessionThread.holds).toList ++ t.held

/-- The threads and the manager they share. A manager is shared, engine/src/session/manager.rs 17-18. -/
structure SPool where
  threads : List SThread
  mgr : SessionMgr

/-- No thread, the one that asks included, holds the lock of the shard the entry is in. `DashMap` has a lock for each of
its shards and puts a key into a shard by its hash; both `entry` and `remove` take it exclusively
(engine/src/session/manager.rs 32, 49). -/
def SPool.free (shard : UInt32 → Nat) (p : SPool) (id : UInt32) : Bool :=
  p.threads.all fun t => t.locks.all fun k => shard k != shard id

/-- The next step of a thread. One that waits for a lock stays as it is. The steps of `add` and `remove` are those of
`SessionThread.step` (engine/src/session/manager.rs 29-50). -/
def SThread.step (mode : Mode) (free : UInt32 → Bool) (m : SessionMgr) (t : SThread) : SThread × SessionMgr :=
  match t.prog with
  | .done => ({ held := [], call := none, prog := .done }, m)
  | .add token next =>
    match (t.call.getD (.add token)).step mode free m with
    | (.added k s, m') => ({ held := k :: t.held, call := none, prog := next k s }, m')
    | (.panicked, m') => ({ held := [], call := none, prog := .done }, m')
    | (c, m') => ({ t with call := some c }, m')
  | .remove id next =>
    match (SessionThread.remove id).step mode free m with
    | (.removed b, m') => ({ t with prog := next b }, m')
    | (_, m') => (t, m')
  | .look id next => ({ t with prog := next (if t.held.contains id then m.sessions id else none) }, m)
  | .write id s next =>
    ({ t with prog := next },
      if t.held.contains id then { m with sessions := fun i => if i = id then some s else m.sessions i } else m)
  | .drop id next => ({ t with held := t.held.erase id, prog := next }, m)

/-- Thread `i` takes its next step. engine/src/session/manager.rs 29-54. -/
def SPool.stepAt (mode : Mode) (shard : UInt32 → Nat) (p : SPool) (i : Nat) : SPool :=
  match p.threads[i]? with
  | none => p
  | some t =>
    { threads := p.threads.set i (t.step mode (p.free shard) p.mgr).1, mgr := (t.step mode (p.free shard) p.mgr).2 }

/-- A schedule. engine/src/session/manager.rs 29-54. -/
def SPool.exec (mode : Mode) (shard : UInt32 → Nat) (p : SPool) : List Nat → SPool
  | [] => p
  | i :: is => (p.stepAt mode shard i).exec mode shard is

end Hop
