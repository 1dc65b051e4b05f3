import Verif.Model.Guards

/-!
# Guards held by users of the library, with accesses that take time

`GThread.step` makes an access at one moment. Here, as in the code, a thread acquires the lock of the shard first, shared or
exclusive; under an exclusive one the entry then goes through any intermediate states; then the thread goes on, and either
drops the lock (`contains_key`, `insert`, `remove`, `key_type`, and `get` of a missing key) or keeps it in its guard. Likewise
a write through an exclusive guard takes a while.

Simplifications: counters are accessed at one moment (for their locks see `Locks`); what is read under a shared lock is read
when the access ends.
-/

namespace Hop

/-- A thread, and the access it is in the middle of, if it is: the key, whether the lock is exclusive, and what was there when
it began. engine/src/state/mod.rs 70-209. -/
structure GLThread where
  base : GThread
  busy : Option (Bytes × Bool × Option Value)

/-- The threads and the shared database. `State` is shared, engine/src/state/mod.rs 48-49. -/
structure GLPool where
  threads : List GLThread
  db : Db

/-- The key whose entry the thread is to write next through an exclusive guard it keeps, the `RefMut` of
engine/src/state/mod.rs 142 and 173. -/
def GThread.writes (t : GThread) : Option Bytes :=
  match t.prog with
  | .write k _ _ => if t.held.contains (k, true) then some k else none
  | _ => none

/-- The locks a thread holds: that of the access it is making and those of its guards (`Ref` and `RefMut` of
engine/src/state/mod.rs 128, 142 and 173). -/
def GLThread.locks (t : GLThread) : List (Bytes × Bool) := (t.busy.map fun b => (b.1, b.2.1)).toList ++ t.base.held

/-- A step of thread `n`. engine/src/state/mod.rs 70-209 and what callers do with the guards. -/
inductive GLStep (shard : Bytes → Nat) (p : GLPool) (n : Nat) : GLPool → Prop
  /-- It acquires a lock, with which no guard and no access interferes (lines 71, 87, 107, 135, 149, 181, 186, 208). -/
  | lock {t k e} : p.threads[n]? = some ⟨t, none⟩ → t.prog.wants = some (k, e) →
      (∀ (j : Nat) u, p.threads[j]? = some u → ∀ g ∈ u.locks, conflicts shard g (k, e) = false) →
      GLStep shard p n { p with threads := p.threads.set n ⟨t, some (k, e, p.db.keys k)⟩ }
  /-- It begins to write through an exclusive guard. -/
  | edit {t k} : p.threads[n]? = some ⟨t, none⟩ → t.writes = some k →
      GLStep shard p n { p with threads := p.threads.set n ⟨t, some (k, true, p.db.keys k)⟩ }
  /-- The entry it has exclusively looks like anything. -/
  | draft {t k o} (v : Option Value) : p.threads[n]? = some ⟨t, some (k, true, o)⟩ →
      GLStep shard p n { p with db := p.db.setKey k v }
  /-- An exclusive access ends. -/
  | commit {t k o} : p.threads[n]? = some ⟨t, some (k, true, o)⟩ →
      GLStep shard p n
        { threads := p.threads.set n ⟨(t.step (p.db.setKey k o)).1, none⟩, db := (t.step (p.db.setKey k o)).2 }
  /-- A shared access ends. -/
  | release {t k o} : p.threads[n]? = some ⟨t, some (k, false, o)⟩ →
      GLStep shard p n { threads := p.threads.set n ⟨(t.step p.db).1, none⟩, db := (t.step p.db).2 }
  /-- It does something that needs no further lock of the key space: looks through a guard, drops one, counts, ends. -/
  | plain {t} : p.threads[n]? = some ⟨t, none⟩ → t.prog.wants = none → t.writes = none →
      GLStep shard p n { threads := p.threads.set n ⟨(t.step p.db).1, none⟩, db := (t.step p.db).2 }

/-- Any number of steps. engine/src/state/mod.rs 70-209. -/
inductive GLSteps (shard : Bytes → Nat) (p : GLPool) : GLPool → Prop
  | refl : GLSteps shard p p
  | tail {q r n} : GLSteps shard p q → GLStep shard q n r → GLSteps shard p r

end Hop
