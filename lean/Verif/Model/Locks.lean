import Verif.Model.Prog

/-!
# Accesses to keys and counters, with the locks they take

`Prog` treats the lifetime of a guard as one step. Here it is spread out: a guard is acquired, the entry is read
or modified bit by bit, the guard is dropped, and other threads run in between.
-/

namespace Hop

/-- A place in the database that is accessed under a lock: the entry of a key in the `DashMap` of `State`
(engine/src/state/mod.rs 48-49), or the entry of a counter in the `DashMap` of `Metrics` (lib/metrics/src/lib.rs 53). -/
inductive Cell where
  | key (k : Bytes)
  | ctr (m : Metric)
deriving DecidableEq

/-- What a place may hold. engine/src/state/mod.rs 49, lib/metrics/src/lib.rs 53. -/
abbrev Cell.Val : Cell → Type
  | .key _ => Option Value
  | .ctr _ => Option Nat

/-- The content of a place. engine/src/state/mod.rs 49, lib/metrics/src/lib.rs 53. -/
def Db.get (db : Db) : (c : Cell) → c.Val
  | .key k => db.keys k
  | .ctr m => db.ctrs m

/-- Writing to a place. engine/src/state/mod.rs 49, lib/metrics/src/lib.rs 53. -/
def Db.put (db : Db) : (c : Cell) → c.Val → Db
  | .key k, v => db.setKey k v
  | .ctr m, v => db.setCtr m v

/-- A program that begins with an access to a place: to a key (engine/src/state/mod.rs 70-209), or to a counter
(`Writer::increment`, lib/metrics/src/lib.rs 243-250, and `Reader::counter`, 181-185). -/
def Prog.on {α : Type} : (c : Cell) → (c.Val → c.Val) → (c.Val → Prog α) → Prog α
  | .key k, upd, next => .onKey k upd next
  | .ctr m, upd, next => .onCtr m upd next

/-- A thread: between two accesses, or within one. An access as in engine/src/state/mod.rs 70-209 and
lib/metrics/src/lib.rs 181-185 and 243-250. -/
inductive LThread (α : Type) where
  /-- Holds no guard. -/
  | ready (p : Prog α)
  /-- Holds a shared guard (`Ref`, engine/src/state/mod.rs 110-127: `DashMap::get`, and within `contains_key`, line 71;
  lib/metrics/src/lib.rs 184) of the entry at `c`, which was `o` when the guard was acquired. -/
  | reading (c : Cell) (o : c.Val) (next : c.Val → Prog α)
  /-- Holds an exclusive guard (`RefMut`, engine/src/state/mod.rs 142-192: `DashMap::get_mut`, and within `insert` and
  `remove`, lines 87 and 107; the `entry` of lib/metrics/src/lib.rs 247). -/
  | writing (c : Cell) (o : c.Val) (upd : c.Val → c.Val) (next : c.Val → Prog α)

/-- The place whose entry the thread holds a guard of. As in engine/src/state/mod.rs 128, 142 and 173. -/
def LThread.holds {α : Type} : LThread α → Option Cell
  | .ready _ => none
  | .reading c _ _ => some c
  | .writing c _ _ _ => some c

/-- The place whose entry the thread holds an exclusive guard of. As in engine/src/state/mod.rs 142 and 173. -/
def LThread.owns {α : Type} : LThread α → Option Cell
  | .writing c _ _ _ => some c
  | _ => none

/-- The threads and the shared database. `State` and `Metrics` are shared, engine/src/state/mod.rs 48-49 and
lib/metrics/src/lib.rs 92. -/
structure LPool (α : Type) where
  threads : List (LThread α)
  db : Db

/-- One step of one thread. `shard` says which lock guards a place (`DashMap` has a lock for each of its shards and
puts a key into a shard by its hash; the two maps have different locks, but here they may share some). Acquiring waits
until no other thread holds the lock, or, for a shared guard, until no other thread holds it exclusively.
Simplifications: a thread that only reads may also acquire an exclusive guard; a waiting thread takes no steps. An access
as in engine/src/state/mod.rs 70-209 and lib/metrics/src/lib.rs 181-185 and 243-250. -/
inductive LStep {α : Type} (shard : Cell → Nat) : LPool α → LPool α → Prop
  | share {p : LPool α} {i : Nat} {c : Cell} {upd : c.Val → c.Val} {next : c.Val → Prog α} :
    p.threads[i]? = some (.ready (.on c upd next)) → (∀ o, upd o = o) →
    (∀ (j : Nat) t c', p.threads[j]? = some t → t.owns = some c' → shard c' ≠ shard c) →
    LStep shard p { p with threads := p.threads.set i (.reading c (p.db.get c) next) }
  | lock {p : LPool α} {i : Nat} {c : Cell} {upd : c.Val → c.Val} {next : c.Val → Prog α} :
    p.threads[i]? = some (.ready (.on c upd next)) →
    (∀ (j : Nat) t c', p.threads[j]? = some t → t.holds = some c' → shard c' ≠ shard c) →
    LStep shard p { p with threads := p.threads.set i (.writing c (p.db.get c) upd next) }
  /-- Part of a modification: the entry is left in any state whatever. -/
  | draft {p : LPool α} {i : Nat} {c : Cell} {o : c.Val} {upd : c.Val → c.Val} {next : c.Val → Prog α} (v : c.Val) :
    p.threads[i]? = some (.writing c o upd next) →
    LStep shard p { p with db := p.db.put c v }
  /-- The end of a modification, with which the guard is dropped. -/
  | commit {p : LPool α} {i : Nat} {c : Cell} {o : c.Val} {upd : c.Val → c.Val} {next : c.Val → Prog α} :
    p.threads[i]? = some (.writing c o upd next) →
    LStep shard p { threads := p.threads.set i (.ready (next o)), db := p.db.put c (upd o) }
  /-- A shared guard is dropped. The rest of the program gets what the entry holds now. -/
  | release {p : LPool α} {i : Nat} {c : Cell} {o : c.Val} {next : c.Val → Prog α} :
    p.threads[i]? = some (.reading c o next) →
    LStep shard p { p with threads := p.threads.set i (.ready (next (p.db.get c))) }

/-- Any number of steps. An access as in engine/src/state/mod.rs 70-209. -/
inductive LSteps {α : Type} (shard : Cell → Nat) : LPool α → LPool α → Prop
  | refl {p : LPool α} : LSteps shard p p
  | tail {p p' p'' : LPool α} : LSteps shard p p' → LStep shard p' p'' → LSteps shard p p''

end Hop
