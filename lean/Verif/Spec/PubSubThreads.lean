import Verif.Spec.PubSub
import Verif.Model.PubSubThreads

/-! # Specification of publish/subscribe used from several threads -/

namespace Hop.Spec

/-- A call. -/
inductive SubCall where
  | op (o : SubOp)
  | get (key : Bytes) (sid : UInt32)
deriving DecidableEq

/-- What the call changes. -/
def SubCall.op? : SubCall → Option SubOp
  | .op o => some o
  | .get _ _ => none

/-- A thread about to make the call. -/
def SubCall.thread : SubCall → SubThread
  | .op (.subscribe k s) => .subscribe k s
  | .op (.unsubscribe k s) => .unsubscribe k s
  | .op (.removeSession s) => .removeSession s
  | .get k s => .get k s

/-- One thread for each call, and a fresh manager. -/
def subPool (calls : List SubCall) : SubPool := { threads := calls.map SubCall.thread, mgr := .new }

/-- The operations of the calls listed, in the order of the list (`get` changes nothing). -/
def opsOf (calls : List SubCall) (order : List Nat) : List SubOp :=
  order.filterMap fun i : Nat => calls[i]?.bind SubCall.op?

/-- The call has returned. -/
def SubDone : SubThread → Prop
  | .subscribed _ | .unsubscribed _ | .got _ | .sessionRemoved _ => True
  | _ => False

/-- The session was the first one ever to subscribe to the key. -/
def FirstSubscriber (h : List SubOp) (key : Bytes) (sid : UInt32) : Prop :=
  ∃ pre post, h = pre ++ .subscribe key sid :: post ∧ ¬ EverSubscribed pre key

/-- The call has returned with the answer it has when it is made alone after history `h` (see C62). -/
def AnsweredAlone (h : List SubOp) : SubCall → SubThread → Prop
  | .op (.subscribe k _), .subscribed a => a.isSome ↔ ¬ EverSubscribed h k
  | .op (.unsubscribe k s), .unsubscribed a => a = true ↔ Subscribed h k s ∨ Pioneer h k s
  | .op (.removeSession s), .sessionRemoved a => a = true ↔ Used h s
  | .get k s, .got a => a.isSome ↔ Subscribed h k s
  | _, _ => False

/-- As `AnsweredAlone`, but of `unsubscribe` only: it answers true if the session is subscribed, and does so
otherwise only if the session was the first one ever to subscribe to the key. -/
def Answered (h : List SubOp) : SubCall → SubThread → Prop
  | .op (.unsubscribe k s), .unsubscribed a =>
    (Subscribed h k s → a = true) ∧ (a = true → Subscribed h k s ∨ FirstSubscriber h k s)
  | c, t => AnsweredAlone h c t

end Hop.Spec
