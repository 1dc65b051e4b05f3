import Verif.Model.Guards
import Verif.Model.SessionGuards
import Verif.Model.Hop

/-!
# Guards of keys and of sessions together

An engine gives access to its keys (`Hop::state`, engine/src/hop.rs 220-223) and to its sessions (`Hop::sessions`, lines
215-217). Both hand out guards: `State::key_ref`, `key_mut` and `key_or_insert_with` (engine/src/state/mod.rs 128-192)
and `SessionManager::add` (engine/src/session/manager.rs 29-46). Here threads keep guards of both kinds while they use
both parts of one engine.

Simplifications: those of Model/Guards.lean and Model/SessionGuards.lean.
-/

namespace Hop

/-- What a thread still has to do with an engine (engine/src/hop.rs 121-129). -/
inductive EProg where
  | done
  /-- An operation on one entry of the keys that keeps no guard, engine/src/state/mod.rs 70-108. -/
  | access (k : Bytes) (excl : Bool) (upd : Option Value → Option Value) (next : Option Value → EProg)
  /-- Take the guard of a key if there is one, engine/src/state/mod.rs 128-150. -/
  | acquire (k : Bytes) (excl : Bool) (next : Option Value → EProg)
  /-- Read through the guard of a key. -/
  | look (k : Bytes) (next : Option Value → EProg)
  /-- Write through the guard of a key. -/
  | write (k : Bytes) (v : Value) (next : EProg)
  /-- Drop the guard of a key. -/
  | drop (k : Bytes) (next : EProg)
  /-- An operation on a counter, engine/src/metrics.rs. -/
  | count (m : Metric) (upd : Option Nat → Option Nat) (next : Option Nat → EProg)
  /-- `SessionManager::add`, engine/src/session/manager.rs 29-46. -/
  | add (token : Bytes) (next : UInt32 → Session → EProg)
  /-- `SessionManager::remove`, engine/src/session/manager.rs 48-50. -/
  | remove (id : UInt32) (next : Bool → EProg)
  /-- Read through the guard of a session. -/
  | lookSession (id : UInt32) (next : Option Session → EProg)
  /-- Write through the guard of a session. -/
  | writeSession (id : UInt32) (s : Session) (next : EProg)
  /-- Drop the guard of a session. -/
  | dropSession (id : UInt32) (next : EProg)

/-- A thread: the guards of keys it keeps and whether they are exclusive (engine/src/state/mod.rs 128, 142, 173), the
guards of sessions it keeps (engine/src/session/manager.rs 29), where it is within the addition it is making, if it has
begun one, and what it still has to do. -/
structure EThread where
  keys : List (Bytes × Bool)
  held : List UInt32
  call : Option SessionThread
  prog : EProg

/-- The sessions whose locks the thread holds, as `SThread.locks`. engine/src/session/manager.rs 32-45. -/
def EThread.locks (t : EThread) : List UInt32 := (t.call.bind SessionThread.holds).toList ++ t.held

/-- The threads and the engine they share. `Hop` is a cloneable handle, engine/src/hop.rs 148-149. -/
structure EPool where
  threads : List EThread
  engine : HopEngine

/-- No thread, the one that asks included, holds a guard of a key in the way, as `GPool.free`. engine/src/state/mod.rs
49. -/
def EPool.freeKey (shard : Bytes → Nat) (p : EPool) (w : Bytes × Bool) : Bool :=
  p.threads.all fun t => t.keys.all fun g => !conflicts shard g w

/-- No thread, the one that asks included, holds the lock of a session in the way, as `SPool.free`.
engine/src/session/manager.rs 32, 49. -/
def EPool.freeSession (shard : UInt32 → Nat) (p : EPool) (id : UInt32) : Bool :=
  p.threads.all fun t => t.locks.all fun k => shard k != shard id

/-- The next step of a thread: one of `GThread.step` (engine/src/state/mod.rs 70-209) or one of `SThread.step`
(engine/src/session/manager.rs 29-50). One that waits for a lock stays as it is. -/
def EThread.step (mode : Mode) (fk : Bytes × Bool → Bool) (fs : UInt32 → Bool) (h : HopEngine) (t : EThread) : EThread × HopEngine :=
  match t.prog with
  | .done => ({ keys := [], held := [], call := none, prog := .done }, h)
  | .access k e upd next =>
    if fk (k, e) then
      ({ t with prog := next (h.db.keys k) }, if e then { h with db := h.db.setKey k (upd (h.db.keys k)) } else h)
    else (t, h)
  | .acquire k e next =>
    if fk (k, e) then
      match h.db.keys k with
      | none => ({ t with prog := next none }, h)
      | some v => ({ t with keys := (k, e) :: t.keys, prog := next (some v) }, h)
    else (t, h)
  | .look k next => ({ t with prog := next (if t.keys.any (·.1 == k) then h.db.keys k else none) }, h)
  | .write k v next =>
    ({ t with prog := next }, if t.keys.contains (k, true) then { h with db := h.db.setKey k (some v) } else h)
  | .drop k next => ({ t with keys := t.keys.eraseP (·.1 == k), prog := next }, h)
  | .count m upd next => ({ t with prog := next (h.db.ctrs m) }, { h with db := h.db.setCtr m (upd (h.db.ctrs m)) })
  | .add token next =>
    match (t.call.getD (.add token)).step mode fs h.mgr with
    | (.added k s, m') => ({ t with held := k :: t.held, call := none, prog := next k s }, h.setMgr m')
    | (.panicked, m') => ({ keys := [], held := [], call := none, prog := .done }, h.setMgr m')
    | (c, m') => ({ t with call := some c }, h.setMgr m')
  | .remove id next =>
    match (SessionThread.remove id).step mode fs h.mgr with
    | (.removed b, m') => ({ t with prog := next b }, h.setMgr m')
    | (_, m') => (t, h.setMgr m')
  | .lookSession id next => ({ t with prog := next (if t.held.contains id then h.sessions id else none) }, h)
  | .writeSession id s next =>
    ({ t with prog := next },
      if t.held.contains id then { h with sessions := fun i => if i = id then some s else h.sessions i } else h)
  | .dropSession id next => ({ t with held := t.held.erase id, prog := next }, h)

/-- Thread `i` takes its next step. `Hop` is a cloneable handle, engine/src/hop.rs 148-149. -/
def EPool.stepAt (mode : Mode) (sk : Bytes → Nat) (ss : UInt32 → Nat) (p : EPool) (i : Nat) : EPool :=
  match p.threads[i]? with
  | none => p
  | some t =>
    { threads := p.threads.set i (t.step mode (p.freeKey sk) (p.freeSession ss) p.engine).1,
      engine := (t.step mode (p.freeKey sk) (p.freeSession ss) p.engine).2 }

/-- A schedule. engine/src/hop.rs 148-149. -/
def EPool.exec (mode : Mode) (sk : Bytes → Nat) (ss : UInt32 → Nat) (p : EPool) : List Nat → EPool
  | [] => p
  | i :: is => (p.stepAt mode sk ss i).exec mode sk ss is

open Classical in
/-- A command dispatched meanwhile (`Hop::dispatch`, engine/src/hop.rs 170-197), as `GProg.ofProg`. -/
noncomputable def EProg.ofProg {α : Type} (ex : List (Option Value) → Bool) :
    List (Option Value) → Prog α → (Outcome DispatchError α → EProg) → EProg
  | _, .done r, next => next r
  | seen, .onKey k upd rest, next =>
    access k (ex seen || decide (∃ o, upd o ≠ o)) upd fun o => ofProg ex (o :: seen) (rest o) next
  | seen, .onCtr m upd rest, next => count m upd fun o => ofProg ex seen (rest o) next

end Hop
