import Verif.Model.Types

/-!
# Programs over the shared database

A command touches the shared state through individual `DashMap` operations, each of which holds the
lock of its shard for its whole duration (including the lifetime of the returned guard). `Prog` is the
sequence of those atomic operations; what happens between them may be interleaved with other threads.
-/

namespace Hop

/-- The shared state of an engine as far as `dispatch` can see it: the key space
(`State`, engine/src/state/mod.rs 49: an `Arc<DashMap<Key, Value>>`) and the metric counters
(`Snapshot::counters`, lib/metrics/src/lib.rs 52-55). Simplification: gauges are never used by the
engine and are modelled separately in `Verif.Model.Metrics`. -/
structure Db where
  keys : Bytes → Option Value
  ctrs : Metric → Option Nat

/-- An engine with no keys and no counters (`Hop::new`, engine/src/hop.rs 131-145, 157-159). -/
def Db.empty : Db := { keys := fun _ => none, ctrs := fun _ => none }

/-- Replace the entry of one key. `DashMap::insert` and `remove`, engine/src/state/mod.rs 86-108. -/
def Db.setKey (db : Db) (k : Bytes) (v : Option Value) : Db :=
  { db with keys := fun k' => if k' = k then v else db.keys k' }

/-- Replace the entry of one counter. lib/metrics/src/lib.rs 247. -/
def Db.setCtr (db : Db) (m : Metric) (v : Option Nat) : Db :=
  { db with ctrs := fun m' => if m' = m then v else db.ctrs m' }

/-- A thread's remaining work: finished with an outcome, or one atomic operation on a key's entry (`onKey`) or on a
counter's entry (`onCtr`). The operation replaces the entry `o` by `upd o`; the rest of the program receives the old
entry `o`. No command calls the key space or the metrics while it holds a guard, so a guard's lifetime is one
operation. Of `dispatch`, engine/src/hop.rs 170-197. -/
inductive Prog (α : Type) where
  | done (r : Outcome DispatchError α)
  | onKey (k : Bytes) (upd : Option Value → Option Value) (next : Option Value → Prog α)
  | onCtr (m : Metric) (upd : Option Nat → Option Nat) (next : Option Nat → Prog α)

namespace Prog

/-- Execute one atomic operation. A finished program does nothing. As in engine/src/state/mod.rs 70-209 and
lib/metrics/src/lib.rs 247. -/
def step {α} : Prog α → Db → Prog α × Db
  | done r, db => (done r, db)
  | onKey k upd next, db => (next (db.keys k), db.setKey k (upd (db.keys k)))
  | onCtr m upd next, db => (next (db.ctrs m), db.setCtr m (upd (db.ctrs m)))

/-- Execute a program alone, to its end. `dispatch`, engine/src/hop.rs 170-197, undisturbed. -/
def run {α} : Prog α → Db → Outcome DispatchError α × Db
  | done r, db => (r, db)
  | onKey k upd next, db => run (next (db.keys k)) (db.setKey k (upd (db.keys k)))
  | onCtr m upd next, db => run (next (db.ctrs m)) (db.setCtr m (upd (db.ctrs m)))

/-- Continue with `f` when the program ends. As in engine/src/hop.rs 170-197. -/
def andThen {α β} : Prog α → (Outcome DispatchError α → Prog β) → Prog β
  | done r, f => f r
  | onKey k upd next, f => onKey k upd (fun o => andThen (next o) f)
  | onCtr m upd next, f => onCtr m upd (fun o => andThen (next o) f)

/-- Read a key's entry (`DashMap::get`, `contains_key`). engine/src/state/mod.rs 70-72 and 207-209. -/
def readKey {α} (k : Bytes) (next : Option Value → Prog α) : Prog α := onKey k (fun o => o) next

/-- Read a counter's entry. lib/metrics/src/lib.rs 184. -/
def readCtr {α} (m : Metric) (next : Option Nat → Prog α) : Prog α := onCtr m (fun o => o) next

/-- End with an error. As in engine/src/command/impl/delete.rs 10. -/
def fail {α} (e : DispatchError) : Prog α := done (.err e)

/-- `opt.ok_or(e)?`. As in engine/src/command/impl/delete.rs 13-17. -/
def orErr {α β} (o : Option α) (e : DispatchError) (f : α → Prog β) : Prog β :=
  match o with
  | none => fail e
  | some a => f a

end Prog

/-! ## The concurrent machine -/

/-- A pool of threads, each executing a program, sharing a database. An engine is shared, engine/src/hop.rs 148-149.
-/
structure Pool (α : Type) where
  threads : List (Prog α)
  db : Db

/-- Thread `i` executes its next atomic operation. Scheduling a finished or non-existent thread does nothing. An
engine is shared, engine/src/hop.rs 148-149. -/
def Pool.stepAt {α} (p : Pool α) (i : Nat) : Pool α :=
  match p.threads[i]? with
  | none => p
  | some t =>
    let (t', db') := t.step p.db
    { threads := p.threads.set i t', db := db' }

/-- Execute a schedule: the list of thread indices in the order they take steps. An engine is shared,
engine/src/hop.rs 148-149. -/
def Pool.exec {α} (p : Pool α) (sched : List Nat) : Pool α := sched.foldl Pool.stepAt p

/-- All threads have finished. An engine is shared, engine/src/hop.rs 148-149. -/
def Pool.finished {α} (p : Pool α) : Prop := ∀ t ∈ p.threads, ∃ r, t = .done r

end Hop
