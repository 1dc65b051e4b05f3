import Verif.Model.Basic

/-!
# The publish/subscribe manager (engine/src/pubsub/manager.rs)

A `Subscription` (engine/src/pubsub/mod.rs 8-12) is a channel; it is represented by a number that is
different for every subscription made, and by whether the channel has been closed. A `Weak` pointer to a
subscription is its number. What users do with subscriptions is in Model/Handles.lean.
-/

namespace Hop

/-- `DashMap<Key, Arc<Subscription>>`: entries in iteration order, no key twice. engine/src/pubsub/manager.rs 9. -/
abbrev SubMap := List (Bytes × Nat)

/-- `PubSubManagerRef`, engine/src/pubsub/manager.rs 6-10, with the subscriptions themselves. Session ids
are `u32` (engine/src/session/mod.rs 5-6). A `DashSet` is a list without repetitions. -/
structure PubSub where
  keys : Bytes → Option (List UInt32)
  sessions : UInt32 → Option SubMap
  made : Nat
  closed : List Nat

namespace PubSub

/-- `PubSubManager::default`, engine/src/pubsub/manager.rs 12-13. -/
def new : PubSub := { keys := fun _ => none, sessions := fun _ => none, made := 0, closed := [] }

/-- `PubSubManager::get`, engine/src/pubsub/manager.rs 17-22. -/
def get (p : PubSub) (key : Bytes) (sid : UInt32) : Option Nat :=
  match p.sessions sid with
  | none => none
  | some session => session.lookup key

/-- `PubSubManager::subscribe`, engine/src/pubsub/manager.rs 28-52. The session's entry is created if it
is missing (line 29). -/
def subscribe (p : PubSub) (key : Bytes) (sid : UInt32) : Option Nat × PubSub :=
  let session := (p.sessions sid).getD []
  match session.lookup key with
  | some _ => (none, { p with sessions := fun s => if s = sid then some session else p.sessions s })
  | none =>
    let p' := { p with
      sessions := fun s => if s = sid then some (session ++ [(key, p.made)]) else p.sessions s,
      made := p.made + 1 }
    match p'.keys key with
    | some _ => (none, p')
    | none => (some p.made, { p' with keys := fun k => if k = key then some [sid] else p'.keys k })

/-- `PubSubManager::unsubscribe`, engine/src/pubsub/manager.rs 58-75. The emptied set and the emptied map
stay. -/
def unsubscribe (p : PubSub) (key : Bytes) (sid : UInt32) : Bool × PubSub :=
  let keyUnsubbed := match p.keys key with
    | none => false
    | some l => l.contains sid
  let keys' := match p.keys key with
    | none => p.keys
    | some l => fun k => if k = key then some (l.filter (· != sid)) else p.keys k
  let sessionUnsubbed := match p.sessions sid with
    | none => false
    | some session => (session.lookup key).isSome
  let sessions' := match p.sessions sid with
    | none => p.sessions
    | some session => fun s => if s = sid then some (session.filter (fun e => e.1 != key)) else p.sessions s
  (keyUnsubbed || sessionUnsubbed, { p with keys := keys', sessions := sessions' })

/-- `PubSubManager::remove_session`, engine/src/pubsub/manager.rs 80-90: the loop closes every
subscription of the removed map (lines 85-87). -/
def removeSession (p : PubSub) (sid : UInt32) : Bool × PubSub :=
  match p.sessions sid with
  | none => (false, p)
  | some session =>
    (true, { p with
      sessions := fun s => if s = sid then none else p.sessions s,
      closed := session.foldl (fun c e => e.2 :: c) p.closed })

end PubSub

end Hop
