import Verif.Model.SessionGuards

/-!
# The session manager with its locks

`SThread.step` inserts or removes an entry at one moment. Here, as in the code, a thread acquires the lock of the shard
first, then the entry goes through any intermediate states (those of the hash table included), and then the thread goes on:
`remove` drops the lock (engine/src/session/manager.rs 49), `add` keeps it in the guard (lines 32-37). Likewise a write
through a guard the thread keeps takes a while.

Simplification: the metrics are incremented at one moment; lib/metrics has a map with locks of its own, which no thread
keeps beyond one access (lib/metrics/src/lib.rs 243-250).
-/

namespace Hop

/-- A thread, and the entry it is in the middle of changing, if it is, with what it found there.
engine/src/session/manager.rs 29-50. -/
structure SLThread where
  base : SThread
  busy : Option (UInt32 × Option Session)

/-- The threads and the manager they share. engine/src/session/manager.rs 17-18. -/
structure SLPool where
  threads : List SLThread
  mgr : SessionMgr

/-- The entry whose lock the next access of the thread is to acquire: `entry` in `add`, `remove`.
engine/src/session/manager.rs 32, 49. -/
def SThread.wants (t : SThread) : Option UInt32 :=
  match t.prog with
  | .add _ _ =>
    match t.call with
    | some (.keyed _ k) => some k
    | _ => none
  | .remove id _ => some id
  | _ => none

/-- The entry the next access of the thread is to write through a guard it keeps, the `RefMut` of
engine/src/session/manager.rs 29. -/
def SThread.writes (t : SThread) : Option UInt32 :=
  match t.prog with
  | .write id _ _ => if t.held.contains id then some id else none
  | _ => none

/-- The entries whose locks the thread holds: those of its guards (engine/src/session/manager.rs 32-45) and the one it is
in the middle of changing (lines 32, 49). -/
def SLThread.locks (t : SLThread) : List UInt32 := (t.busy.map Prod.fst).toList ++ t.base.locks

/-- The manager with another entry at `k`, engine/src/session/manager.rs 14. -/
def SessionMgr.put (m : SessionMgr) (k : UInt32) (o : Option Session) : SessionMgr :=
  { m with sessions := fun i => if i = k then o else m.sessions i }

/-- A step of thread `n`. engine/src/session/manager.rs 29-50. -/
inductive SLStep (mode : Mode) (shard : UInt32 → Nat) (p : SLPool) (n : Nat) : SLPool → Prop
  /-- It acquires the lock of the shard, which nobody holds (lines 32, 49). -/
  | lock {t k} : p.threads[n]? = some ⟨t, none⟩ → t.wants = some k →
      (∀ (j : Nat) u, p.threads[j]? = some u → ∀ g ∈ u.locks, shard g ≠ shard k) →
      SLStep mode shard p n { p with threads := p.threads.set n ⟨t, some (k, p.mgr.sessions k)⟩ }
  /-- It begins to write through a guard (line 29). -/
  | edit {t k} : p.threads[n]? = some ⟨t, none⟩ → t.writes = some k →
      SLStep mode shard p n { p with threads := p.threads.set n ⟨t, some (k, p.mgr.sessions k)⟩ }
  /-- What it is changing looks like anything. -/
  | draft {t k o} (v : Option Session) : p.threads[n]? = some ⟨t, some (k, o)⟩ →
      SLStep mode shard p n { p with mgr := p.mgr.put k v }
  /-- It has made the change, or has found that there is none to make (lines 32-37, 49). -/
  | commit {t k o} : p.threads[n]? = some ⟨t, some (k, o)⟩ →
      SLStep mode shard p n
        { threads := p.threads.set n ⟨(t.step mode (fun _ => true) (p.mgr.put k o)).1, none⟩
          mgr := (t.step mode (fun _ => true) (p.mgr.put k o)).2 }
  /-- It makes an access that takes no lock of the sessions and changes none of them: to the next number, to the metrics,
  a look through a guard it keeps, dropping a guard (lines 30, 32, 39-45). -/
  | plain {t} : p.threads[n]? = some ⟨t, none⟩ → t.wants = none → t.writes = none →
      SLStep mode shard p n
        { threads := p.threads.set n ⟨(t.step mode (fun _ => true) p.mgr).1, none⟩
          mgr := (t.step mode (fun _ => true) p.mgr).2 }

/-- Any number of steps. engine/src/session/manager.rs 29-50. -/
inductive SLSteps (mode : Mode) (shard : UInt32 → Nat) (p : SLPool) : SLPool → Prop
  | refl : SLSteps mode shard p p
  | tail {q r n} : SLSteps mode shard p q → SLStep mode shard q n r → SLSteps mode shard p r

end Hop
