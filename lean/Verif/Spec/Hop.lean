import Verif.Model.Hop
import Verif.Spec.History
import Verif.Spec.Sessions
import Verif.Spec.PubSub

/-! # Specification of the engine as a whole -/

namespace Hop.Spec

/-- What users do to a builder. -/
inductive BuilderOp where
  | pubsub (on : Bool)
  | sessionsMax (n : UInt64)

/-- Do it, with the builder's functions. -/
def BuilderOp.apply (b : HopBuilder) : BuilderOp → HopBuilder
  | .pubsub on => b.pubsubEnabled on
  | .sessionsMax n => b.sessionsActiveMax n

/-- An engine built after these calls on a new builder. -/
def built (ops : List BuilderOp) : HopEngine := .build (ops.foldl BuilderOp.apply .new)

/-- The last value given for publish/subscribe. -/
def lastPubsub (ops : List BuilderOp) : Option Bool :=
  (ops.filterMap fun | .pubsub on => some on | _ => none).getLast?

/-- The last value given for the number of sessions. -/
def lastMax (ops : List BuilderOp) : Option UInt64 :=
  (ops.filterMap fun | .sessionsMax n => some n | _ => none).getLast?

/-- What users do to an engine. -/
inductive HopOp where
  | dispatch (req : Request) (resp : Bytes)
  | session (o : SessionOp)
  | sub (o : SubOp)

/-- What they are answered. -/
inductive HopAnswer where
  | dispatched (o : Outcome DispatchError Bytes)
  | added (a : Option (UInt32 × Session))
  | removed (b : Bool)
  | subscribed (s : Option Nat)
  | unsubscribed (b : Bool)
  | dropped (b : Bool)
deriving DecidableEq

/-- Do one operation, with the engine's functions. -/
def HopOp.apply (env : Env) (h : HopEngine) : HopOp → HopAnswer × HopEngine
  | .dispatch r resp => let x := h.dispatch env r resp; (.dispatched x.1, x.2)
  | .session (.add t) => let x := h.addSession env.mode t; (.added x.1, x.2)
  | .session (.remove i) => let x := h.removeSession i; (.removed x.1, x.2)
  | .sub (.subscribe k s) => let x := h.subscribe k s; (.subscribed x.1, x.2)
  | .sub (.unsubscribe k s) => let x := h.unsubscribe k s; (.unsubscribed x.1, x.2)
  | .sub (.removeSession s) => let x := h.dropSubscriber s; (.dropped x.1, x.2)

/-- Do all of a history. -/
def applyAll (env : Env) (h : HopEngine) : List HopOp → List HopAnswer × HopEngine
  | [] => ([], h)
  | o :: os =>
    let x := o.apply env h
    let y := applyAll env x.2 os
    (x.1 :: y.1, y.2)

/-- The dispatches, session operations and subscriptions of a history. -/
def requestsOf (h : List HopOp) : List (Request × Bytes) :=
  h.filterMap fun | .dispatch r resp => some (r, resp) | _ => none
def sessionOpsOf (h : List HopOp) : List SessionOp := h.filterMap fun | .session o => some o | _ => none
def subOpsOf (h : List HopOp) : List SubOp := h.filterMap fun | .sub o => some o | _ => none

/-- There are at most `n` active sessions: any list of different identifiers with sessions is no longer
than `n`. -/
def AtMostActive (h : HopEngine) (n : Nat) : Prop :=
  ∀ ids : List UInt32, ids.Nodup → (∀ i ∈ ids, (h.sessions i).isSome) → ids.length ≤ n

end Hop.Spec
