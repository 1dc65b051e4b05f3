import Verif.Model.Locks
import Verif.Model.State

/-!
# Guards held by users of the library

`Hop::state()` (engine/src/hop.rs 219-223) hands out the key space, whose functions `key_ref`, `key_mut` and
`key_or_insert_with` return guards that their caller may keep while it goes on. Here threads hold any number of
guards and call further functions meanwhile.

Simplifications: a thread that waits for a lock takes no step; one that waits for exclusive access does not keep others
from acquiring shared guards (`dashmap` 3.11 spins); a thread that ends or panics drops its guards.
-/

namespace Hop

/-- What a thread still has to do. engine/src/state/mod.rs 70-209 and what callers do with the guards. -/
inductive GProg where
  | done
  /-- A function that drops its guard before it returns: `contains_key`, `key_type` (shared), `insert`, `remove`
  (exclusive), engine/src/state/mod.rs 70-72, 207-209, 86-88, 106-108. -/
  | access (k : Bytes) (excl : Bool) (upd : Option Value → Option Value) (next : Option Value → GProg)
  /-- `DashMap::get` and `get_mut` in `key_ref` and `key_mut`, engine/src/state/mod.rs 128-150: there is a guard to keep
  only if the key exists. -/
  | acquire (k : Bytes) (excl : Bool) (next : Option Value → GProg)
  /-- Read through a guard. -/
  | look (k : Bytes) (next : Option Value → GProg)
  /-- Write through an exclusive guard. -/
  | write (k : Bytes) (v : Value) (next : GProg)
  /-- Drop a guard. -/
  | drop (k : Bytes) (next : GProg)
  /-- An operation on a counter. -/
  | count (m : Metric) (upd : Option Nat → Option Nat) (next : Option Nat → GProg)

/-- A thread with the guards it holds: their keys, and whether they are exclusive. The guards are the `Ref` and
`RefMut` of engine/src/state/mod.rs 128, 142 and 173. -/
structure GThread where
  held : List (Bytes × Bool)
  prog : GProg

/-- The threads and the shared database. `State` is shared, engine/src/state/mod.rs 48-49. -/
structure GPool where
  threads : List GThread
  db : Db

/-- The lock a thread needs for its next step, and whether exclusively. engine/src/state/mod.rs 70-209. -/
def GProg.wants : GProg → Option (Bytes × Bool)
  | .access k e _ _ => some (k, e)
  | .acquire k e _ => some (k, e)
  | _ => none

/-- A guard keeps a lock from being taken: they are for the same shard, and one of them is exclusive. `DashMap` has
a lock for each of its shards and puts a key into a shard by its hash. See engine/src/state/mod.rs 49. -/
def conflicts (shard : Bytes → Nat) (g w : Bytes × Bool) : Bool := shard g.1 == shard w.1 && (g.2 || w.2)

/-- No thread, the one that asks included, holds a guard in the way. See engine/src/state/mod.rs 49. -/
def GPool.free (shard : Bytes → Nat) (p : GPool) (w : Bytes × Bool) : Bool :=
  p.threads.all fun t => t.held.all fun g => !conflicts shard g w

/-- The next step of a thread that need not wait. engine/src/state/mod.rs 70-209 and what callers do with the
guards. -/
def GThread.step (t : GThread) (db : Db) : GThread × Db :=
  match t.prog with
  | .done => ({ held := [], prog := .done }, db)
  | .access k e upd next =>
    ({ t with prog := next (db.keys k) }, if e then db.setKey k (upd (db.keys k)) else db)
  | .acquire k e next =>
    match db.keys k with
    | none => ({ t with prog := next none }, db)
    | some v => ({ held := (k, e) :: t.held, prog := next (some v) }, db)
  | .look k next => ({ t with prog := next (if t.held.any (·.1 == k) then db.keys k else none) }, db)
  | .write k v next => ({ t with prog := next }, if t.held.contains (k, true) then db.setKey k (some v) else db)
  | .drop k next => ({ held := t.held.eraseP (·.1 == k), prog := next }, db)
  | .count m upd next => ({ t with prog := next (db.ctrs m) }, db.setCtr m (upd (db.ctrs m)))

/-- Thread `i` takes its next step, if it need not wait. `State` is shared, engine/src/state/mod.rs 48-49. -/
def GPool.stepAt (shard : Bytes → Nat) (p : GPool) (i : Nat) : GPool :=
  match p.threads[i]? with
  | none => p
  | some t =>
    if (t.prog.wants.map (p.free shard)).getD true then
      { threads := p.threads.set i (t.step p.db).1, db := (t.step p.db).2 }
    else p

/-- A schedule. `State` is shared, engine/src/state/mod.rs 48-49. -/
def GPool.exec (shard : Bytes → Nat) (p : GPool) : List Nat → GPool
  | [] => p
  | i :: is => (p.stepAt shard i).exec shard is

namespace GProg

/-- `State::contains_key`, engine/src/state/mod.rs 70-72. -/
def containsKey (k : Bytes) (next : Bool → GProg) : GProg := access k false id fun o => next o.isSome

/-- `State::key_type`, engine/src/state/mod.rs 207-209. -/
def keyType (k : Bytes) (next : Option KeyType → GProg) : GProg := access k false id fun o => next (o.map Value.kind)

/-- `State::insert`, engine/src/state/mod.rs 86-88. -/
def insert (k : Bytes) (v : Value) (next : Option Value → GProg) : GProg := access k true (fun _ => some v) next

/-- `State::remove`, engine/src/state/mod.rs 106-108. -/
def remove (k : Bytes) (next : Option Value → GProg) : GProg := access k true (fun _ => none) next

/-- `State::key_ref`, engine/src/state/mod.rs 128-136. -/
def keyRef (env : Env) (k : Bytes) (next : Option Value → GProg) : GProg :=
  if isInternal k then done else if env.mode = .debug ∧ k = [] then done else acquire k false next

/-- `State::key_mut`, engine/src/state/mod.rs 142-150. -/
def keyMut (env : Env) (k : Bytes) (next : Option Value → GProg) : GProg :=
  if isInternal k then done else if env.mode = .debug ∧ k = [] then done else acquire k true next

/-- The loop of `State::key_or_insert_with`, engine/src/state/mod.rs 180-191, with an iteration budget (a thread that
exhausts it counts as ended). -/
def orInsert (k : Bytes) (mk : Value) (next : Value → GProg) : Nat → GProg
  | 0 => done
  | n + 1 => acquire k true fun
    | some v => next v
    | none => access k true (fun _ => some mk) fun _ => orInsert k mk next n

/-- `State::key_or_insert_with`, engine/src/state/mod.rs 169-192. -/
def keyOrInsertWith (env : Env) (k : Bytes) (mk : Value) (next : Value → GProg) : GProg :=
  if isInternal k then done else if env.mode = .debug ∧ k = [] then done else orInsert k mk next (env.spins + 2)

open Classical in
/-- A command dispatched while the guards are held (`Hop::dispatch`, engine/src/hop.rs 170-197, called by the holder).
Whether an access is exclusive is up to `ex`, given what was found so far; one that may change the entry is. -/
noncomputable def ofProg {α : Type} (ex : List (Option Value) → Bool) :
    List (Option Value) → Prog α → (Outcome DispatchError α → GProg) → GProg
  | _, .done r, next => next r
  | seen, .onKey k upd rest, next =>
    access k (ex seen || decide (∃ o, upd o ≠ o)) upd fun o => ofProg ex (o :: seen) (rest o) next
  | seen, .onCtr m upd rest, next => count m upd fun o => ofProg ex seen (rest o) next

end GProg
end Hop
