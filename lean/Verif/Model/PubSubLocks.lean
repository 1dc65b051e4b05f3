import Verif.Model.PubSubThreads

/-!
# Publish/subscribe, with the locks its functions take (engine/src/pubsub/manager.rs)

`PubSubThreads` treats each access to one of the two maps as one step. Here it is spread out. Both maps are maps of
maps: a thread acquires the lock of an entry of the outer map, shared (`DashMap::get`) or exclusive (`entry`,
`remove`), and through a shared guard it uses the inner map, which has locks of its own. Other threads run in between.
-/

namespace Hop

/-- An entry of one of the outer maps. engine/src/pubsub/manager.rs 8-9. -/
inductive Slot where
  | session (s : UInt32)
  | key (k : Bytes)
deriving DecidableEq

/-- What the inner map of an entry consists of: a session's subscriptions with their keys, or the sessions of a key.
engine/src/pubsub/manager.rs 8-9. -/
abbrev Slot.Item : Slot → Type
  | .session _ => Bytes × Nat
  | .key _ => UInt32

/-- The keys of the inner map. engine/src/pubsub/manager.rs 8-9. -/
abbrev Slot.Idx : Slot → Type
  | .session _ => Bytes
  | .key _ => UInt32

/-- Keys of inner maps can be compared. engine/src/pubsub/manager.rs 8-9. -/
instance (c : Slot) : DecidableEq c.Idx := match c with
  | .session _ => inferInstanceAs (DecidableEq Bytes)
  | .key _ => inferInstanceAs (DecidableEq UInt32)

/-- The key of an item of the inner map. engine/src/pubsub/manager.rs 8-9. -/
def Slot.idx : (c : Slot) → c.Item → c.Idx
  | .session _, e => e.1
  | .key _, e => e

/-- `get` of the inner map. engine/src/pubsub/manager.rs 19, and the answer of `remove` in 63 and 69. -/
def Slot.find (c : Slot) (i : c.Idx) (l : List c.Item) : Option c.Item := l.find? fun e => decide (c.idx e = i)

/-- `remove` of the inner map. engine/src/pubsub/manager.rs 63 and 69. -/
def Slot.without (c : Slot) (i : c.Idx) (l : List c.Item) : List c.Item := l.filter fun e => decide (c.idx e ≠ i)

/-- An entry of one of the outer maps. engine/src/pubsub/manager.rs 8-9. -/
def PubSub.slot (m : PubSub) : (c : Slot) → Option (List c.Item)
  | .session s => m.sessions s
  | .key k => m.keys k

/-- Writing to an entry of one of the outer maps. engine/src/pubsub/manager.rs 8-9. -/
def PubSub.setSlot (m : PubSub) : (c : Slot) → Option (List c.Item) → PubSub
  | .session s, v => { m with sessions := fun i => if i = s then v else m.sessions i }
  | .key k, v => { m with keys := fun i => if i = k then v else m.keys i }

/-- How a thread accesses the maps next. engine/src/pubsub/manager.rs 17-94. -/
inductive SubNeed where
  /-- Under the exclusive lock of the entry: `entry`, engine/src/pubsub/manager.rs 29 and 43; `remove`, 83. -/
  | whole (c : Slot)
  /-- Under the shared lock of the entry and the exclusive lock of the inner map: engine/src/pubsub/manager.rs 62-63 and
  68-69. -/
  | remove (c : Slot) (i : c.Idx)
  /-- Under the shared lock of the entry and the shared lock of the inner map: engine/src/pubsub/manager.rs 18-19. -/
  | look (c : Slot) (i : c.Idx)

/-- What a thread accesses next. engine/src/pubsub/manager.rs 17-90. -/
def SubThread.need : SubThread → Option SubNeed
  | .subscribe _ s => some (.whole (.session s))
  | .subscribing k _ _ => some (.whole (.key k))
  | .unsubscribe k s => some (.remove (.key k) s)
  | .unsubscribing k s _ => some (.remove (.session s) k)
  | .get k s => some (.look (.session s) k)
  | .removeSession s => some (.whole (.session s))
  | _ => none

/-- How a thread goes on after it has found `x` in the inner map, or no inner map. engine/src/pubsub/manager.rs 18-21,
59-64 and 65-74. -/
def SubThread.given : SubThread → (c : Slot) → Option c.Item → SubThread
  | .unsubscribe k s, .key _, x => .unsubscribing k s x.isSome
  | .unsubscribing _ _ b, .session _, x => .unsubscribed (b || x.isSome)
  | .get _ _, .session _, x => .got (x.map (·.2))
  | t, _, _ => t

/-- A thread: between two accesses, or within one. engine/src/pubsub/manager.rs 17-90. -/
inductive PThread where
  /-- Between two accesses. In `subscribe` it may hold the exclusive lock of its session's entry (line 29). -/
  | ready (t : SubThread)
  /-- Holds also the exclusive lock of an entry, which was `o` when the lock was acquired (lines 29, 43 and 83). -/
  | owning (t : SubThread) (c : Slot) (o : Option (List c.Item))
  /-- Holds the shared lock of an entry, which exists (lines 18, 62 and 68), before it uses the inner map. -/
  | sharing (t : SubThread) (c : Slot) (i : c.Idx)
  /-- Holds the exclusive lock of the inner map as well, in which it found `x` (lines 63 and 69). -/
  | removing (t : SubThread) (c : Slot) (i : c.Idx) (x : Option c.Item)
  /-- Holds the shared lock of the inner map as well, in which it found `x` (line 19). -/
  | looking (t : SubThread) (c : Slot) (i : c.Idx) (x : Option c.Item)
  /-- Has dropped the lock of the inner map, and still holds the shared lock of the entry. -/
  | leaving (t : SubThread) (c : Slot)

/-- The entry of its session that a thread keeps locked during `subscribe`. engine/src/pubsub/manager.rs 29-51. -/
def SubThread.keeps (t : SubThread) : List Slot := (t.holds.map Slot.session).toList

/-- The entries a thread has locked exclusively. engine/src/pubsub/manager.rs 29, 43 and 83. -/
def PThread.owns : PThread → List Slot
  | .ready t => t.keeps
  | .owning t c _ => c :: t.keeps
  | _ => []

/-- The entries a thread has locked. engine/src/pubsub/manager.rs 18, 29, 43, 62, 68 and 83. -/
def PThread.holds : PThread → List Slot
  | .ready t => t.keeps
  | .owning t c _ => c :: t.keeps
  | .sharing _ c _ => [c]
  | .removing _ c _ _ => [c]
  | .looking _ c _ _ => [c]
  | .leaving _ c => [c]

/-- The inner map a thread has locked exclusively, and where. engine/src/pubsub/manager.rs 63 and 69. -/
def PThread.ownsInner : PThread → Option ((c : Slot) × c.Idx)
  | .removing _ c i _ => some ⟨c, i⟩
  | _ => none

/-- The inner map a thread has locked, and where. engine/src/pubsub/manager.rs 19, 63 and 69. -/
def PThread.holdsInner : PThread → Option ((c : Slot) × c.Idx)
  | .removing _ c i _ => some ⟨c, i⟩
  | .looking _ c i _ => some ⟨c, i⟩
  | _ => none

/-- The manager and the threads using it. A manager is shared, engine/src/pubsub/manager.rs 12-13. -/
structure PPool where
  threads : List PThread
  mgr : PubSub

/-- Which locks guard what: `DashMap` has a lock for each of its shards and puts a key into a shard by its hash.
engine/src/pubsub/manager.rs 8-9. -/
structure SubLocks where
  /-- The locks of `sessions`. -/
  session : UInt32 → Nat
  /-- The locks of `keys`. -/
  key : Bytes → Nat
  /-- The locks of the inner map of an entry. -/
  inner : (c : Slot) → c.Idx → Nat

/-- The two maps have different locks. engine/src/pubsub/manager.rs 8-9. -/
def SubLocks.of (L : SubLocks) : Slot → Bool × Nat
  | .session s => (true, L.session s)
  | .key k => (false, L.key k)

/-- One step of one thread. Acquiring waits until no thread holds the lock, or, for a shared lock, until none holds it
exclusively. Simplifications: a waiting thread takes no steps; `subscribe` drops its two locks at the same time.
engine/src/pubsub/manager.rs 17-90. -/
inductive PStep (L : SubLocks) : PPool → PPool → Prop
  /-- `entry` (lines 29 and 43), `remove` (line 83). -/
  | lock {p : PPool} {n : Nat} {t : SubThread} {c : Slot} :
    p.threads[n]? = some (.ready t) → t.need = some (.whole c) →
    (∀ (j : Nat) t', p.threads[j]? = some t' → ∀ c' ∈ t'.holds, L.of c' ≠ L.of c) →
    PStep L p { p with threads := p.threads.set n (.owning t c (p.mgr.slot c)) }
  /-- Part of a modification: the entry is left in any state whatever. -/
  | draft {p : PPool} {n : Nat} {t : SubThread} {c : Slot} {o : Option (List c.Item)} (v : Option (List c.Item)) :
    p.threads[n]? = some (.owning t c o) →
    PStep L p { p with mgr := p.mgr.setSlot c v }
  /-- The end of a modification, which is what `PubSubThreads` says of an entry as it was found. -/
  | commit {p : PPool} {n : Nat} {t : SubThread} {c : Slot} {o : Option (List c.Item)} :
    p.threads[n]? = some (.owning t c o) →
    PStep L p { threads := p.threads.set n (.ready (t.step (fun _ => true) (p.mgr.setSlot c o)).1),
                mgr := (t.step (fun _ => true) (p.mgr.setSlot c o)).2 }
  /-- `get` finds no entry (lines 18, 62 and 68). -/
  | miss {p : PPool} {n : Nat} {t : SubThread} {c : Slot} {i : c.Idx} :
    p.threads[n]? = some (.ready t) → (t.need = some (.remove c i) ∨ t.need = some (.look c i)) →
    (∀ (j : Nat) t', p.threads[j]? = some t' → ∀ c' ∈ t'.owns, L.of c' ≠ L.of c) → p.mgr.slot c = none →
    PStep L p { p with threads := p.threads.set n (.ready (t.given c none)) }
  /-- `get` finds an entry (lines 18, 62 and 68). -/
  | share {p : PPool} {n : Nat} {t : SubThread} {c : Slot} {i : c.Idx} :
    p.threads[n]? = some (.ready t) → (t.need = some (.remove c i) ∨ t.need = some (.look c i)) →
    (∀ (j : Nat) t', p.threads[j]? = some t' → ∀ c' ∈ t'.owns, L.of c' ≠ L.of c) → p.mgr.slot c ≠ none →
    PStep L p { p with threads := p.threads.set n (.sharing t c i) }
  /-- `remove` of the inner map begins (lines 63 and 69). -/
  | innerLock {p : PPool} {n : Nat} {t : SubThread} {c : Slot} {i : c.Idx} :
    p.threads[n]? = some (.sharing t c i) → t.need = some (.remove c i) →
    (∀ (j : Nat) t' i', p.threads[j]? = some t' → t'.holdsInner = some ⟨c, i'⟩ → L.inner c i' ≠ L.inner c i) →
    PStep L p { p with threads := p.threads.set n (.removing t c i (c.find i ((p.mgr.slot c).getD []))) }
  /-- Part of the removal: whether there is an item, and which, is left open; the others stay. -/
  | innerDraft {p : PPool} {n : Nat} {t : SubThread} {c : Slot} {i : c.Idx} {x : Option c.Item} (l : List c.Item) :
    p.threads[n]? = some (.removing t c i x) → c.without i l = c.without i ((p.mgr.slot c).getD []) →
    PStep L p { p with mgr := p.mgr.setSlot c (some l) }
  /-- The end of the removal. -/
  | innerCommit {p : PPool} {n : Nat} {t : SubThread} {c : Slot} {i : c.Idx} {x : Option c.Item} :
    p.threads[n]? = some (.removing t c i x) →
    PStep L p { threads := p.threads.set n (.leaving (t.given c x) c),
                mgr := p.mgr.setSlot c (some (c.without i ((p.mgr.slot c).getD []))) }
  /-- `get` of the inner map (line 19). -/
  | innerShare {p : PPool} {n : Nat} {t : SubThread} {c : Slot} {i : c.Idx} :
    p.threads[n]? = some (.sharing t c i) → t.need = some (.look c i) →
    (∀ (j : Nat) t' i', p.threads[j]? = some t' → t'.ownsInner = some ⟨c, i'⟩ → L.inner c i' ≠ L.inner c i) →
    PStep L p { p with threads := p.threads.set n (.looking t c i (c.find i ((p.mgr.slot c).getD []))) }
  /-- The lock of the inner map is dropped. The thread goes on with what it finds there now (line 21). -/
  | innerRelease {p : PPool} {n : Nat} {t : SubThread} {c : Slot} {i : c.Idx} {x : Option c.Item} :
    p.threads[n]? = some (.looking t c i x) →
    PStep L p { p with threads := p.threads.set n (.leaving (t.given c (c.find i ((p.mgr.slot c).getD []))) c) }
  /-- The shared lock of the entry is dropped. -/
  | release {p : PPool} {n : Nat} {t : SubThread} {c : Slot} :
    p.threads[n]? = some (.leaving t c) →
    PStep L p { p with threads := p.threads.set n (.ready t) }
  /-- `remove_session` closes a subscription, or is done (lines 85-89). -/
  | close {p : PPool} {n : Nat} {xs : List Nat} :
    p.threads[n]? = some (.ready (.closing xs)) →
    PStep L p { threads := p.threads.set n (.ready ((SubThread.closing xs).step (fun _ => true) p.mgr).1),
                mgr := ((SubThread.closing xs).step (fun _ => true) p.mgr).2 }

/-- Any number of steps. engine/src/pubsub/manager.rs 17-90. -/
inductive PSteps (L : SubLocks) : PPool → PPool → Prop
  | refl {p : PPool} : PSteps L p p
  | tail {p p' p'' : PPool} : PSteps L p p' → PStep L p' p'' → PSteps L p p''

end Hop
