import Verif.Model.Dispatch
import Verif.Model.Sessions
import Verif.Model.PubSub

/-!
# The engine as a whole (engine/src/hop.rs)

Configuration, builder, and the engine that puts commands, sessions, publish/subscribe and metrics
together. `Hop` is an `Arc` (engine/src/hop.rs 147-149), so clones are the same engine.
-/

namespace Hop

/-- `Config`, engine/src/hop.rs 28-32. `usize` is 64 bits wide. -/
structure HopConfig where
  pubsubEnabled : Bool
  sessionsActiveMax : UInt64
deriving DecidableEq, Repr

/-- `Config::default`, engine/src/hop.rs 47-54. -/
def HopConfig.default : HopConfig := { pubsubEnabled := true, sessionsActiveMax := 0xffffffffffffffff }

/-- `Builder`, engine/src/hop.rs 77-78. -/
structure HopBuilder where
  config : HopConfig
deriving DecidableEq, Repr

namespace HopBuilder

/-- `Builder::new`, `Builder::default` and `Hop::builder`, engine/src/hop.rs 77, 84-86, 164-166. -/
def new : HopBuilder := { config := .default }

/-- `Builder::pubsub_enabled`, engine/src/hop.rs 96-100. -/
def pubsubEnabled (b : HopBuilder) (v : Bool) : HopBuilder :=
  { config := { b.config with pubsubEnabled := v } }

/-- `Builder::sessions_active_max`, engine/src/hop.rs 105-109. -/
def sessionsActiveMax (b : HopBuilder) (v : UInt64) : HopBuilder :=
  { config := { b.config with sessionsActiveMax := v } }

end HopBuilder

/-- `HopRef`, engine/src/hop.rs 121-129. `db` is `state` together with the counters of `metrics`, which
`metrics_writer` and the session manager's writer lead to (lines 131-144: they are clones of one writer).
`nextId` and `sessions` are the rest of the session manager. Gauges are never written by the engine. -/
structure HopEngine where
  config : HopConfig
  db : Db
  nextId : UInt32
  sessions : UInt32 → Option Session
  pubsub : PubSub

namespace HopEngine

/-- `Builder::build` and `Hop::from`, engine/src/hop.rs 89-91, 112-119; `HopRef::default`, 131-145. -/
def build (b : HopBuilder) : HopEngine :=
  { config := b.config, db := .empty, nextId := 0, sessions := fun _ => none, pubsub := .new }

/-- `Hop::new`, engine/src/hop.rs 157-159. -/
def new : HopEngine := build .new

/-- The session manager of the engine (`Hop::sessions`, engine/src/hop.rs 215-217) with its metrics
writer. -/
def mgr (h : HopEngine) : SessionMgr :=
  { metrics := { live := some { counters := h.db.ctrs, gauges := fun _ => none } },
    nextId := h.nextId, sessions := h.sessions }

/-- The engine after the session manager's part of it has become `m`. The field in engine/src/hop.rs 127. -/
def setMgr (h : HopEngine) (m : SessionMgr) : HopEngine :=
  { h with
    db := { h.db with ctrs := match m.metrics.live with | some c => c.counters | none => h.db.ctrs },
    nextId := m.nextId, sessions := m.sessions }

/-- `hop.dispatch(req, res)`, engine/src/hop.rs 170-197. -/
def dispatch (env : Env) (h : HopEngine) (req : Request) (resp : Bytes) : Outcome DispatchError Bytes × HopEngine :=
  let (o, db) := (Hop.dispatch env req resp).run h.db
  (o, { h with db })

/-- `hop.sessions().clone().add(token)`. engine/src/session/manager.rs 29-46. -/
def addSession (mode : Mode) (h : HopEngine) (token : Bytes) : Option (UInt32 × Session) × HopEngine :=
  let (a, m) := h.mgr.add mode token
  (a, h.setMgr m)

/-- `hop.sessions().remove(id)`. engine/src/session/manager.rs 48-50. -/
def removeSession (h : HopEngine) (id : UInt32) : Bool × HopEngine :=
  let (a, m) := h.mgr.remove id
  (a, h.setMgr m)

/-- `hop.pubsub().subscribe(key, id)`. engine/src/pubsub/manager.rs 28-52. -/
def subscribe (h : HopEngine) (key : Bytes) (sid : UInt32) : Option Nat × HopEngine :=
  let (a, p) := h.pubsub.subscribe key sid
  (a, { h with pubsub := p })

/-- `hop.pubsub().unsubscribe(key, id)`. engine/src/pubsub/manager.rs 58-75. -/
def unsubscribe (h : HopEngine) (key : Bytes) (sid : UInt32) : Bool × HopEngine :=
  let (a, p) := h.pubsub.unsubscribe key sid
  (a, { h with pubsub := p })

/-- `hop.pubsub().remove_session(id)`. engine/src/pubsub/manager.rs 80-90. -/
def dropSubscriber (h : HopEngine) (sid : UInt32) : Bool × HopEngine :=
  let (a, p) := h.pubsub.removeSession sid
  (a, { h with pubsub := p })

/-- `hop.metrics().counter(m)`, engine/src/hop.rs 205-207. -/
def readMetric (h : HopEngine) (m : Metric) : Option Nat := h.db.ctrs m

end HopEngine

end Hop
