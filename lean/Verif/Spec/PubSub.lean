import Verif.Model.PubSub

/-! # Specification of publish/subscribe: who is subscribed to what after a history -/

namespace Hop.Spec

/-- What users do to the manager. -/
inductive SubOp where
  | subscribe (key : Bytes) (sid : UInt32)
  | unsubscribe (key : Bytes) (sid : UInt32)
  | removeSession (sid : UInt32)
deriving DecidableEq

/-- Do one operation, using the manager's functions. -/
def SubOp.apply (p : PubSub) : SubOp → PubSub
  | .subscribe k s => (p.subscribe k s).2
  | .unsubscribe k s => (p.unsubscribe k s).2
  | .removeSession s => (p.removeSession s).2

/-- The manager after a history. -/
def subsAfter (h : List SubOp) : PubSub := h.foldl SubOp.apply .new

/-- The session subscribed to the key and has neither unsubscribed nor been removed since. -/
def Subscribed (h : List SubOp) (key : Bytes) (sid : UInt32) : Prop :=
  ∃ pre post, h = pre ++ .subscribe key sid :: post ∧ .unsubscribe key sid ∉ post ∧ .removeSession sid ∉ post

/-- Some session has, at some time, subscribed to the key. -/
def EverSubscribed (h : List SubOp) (key : Bytes) : Prop := ∃ sid, .subscribe key sid ∈ h

/-- The session was the first one ever to subscribe to the key, and has not unsubscribed since (it may
have been removed, though). -/
def Pioneer (h : List SubOp) (key : Bytes) (sid : UInt32) : Prop :=
  ∃ pre post, h = pre ++ .subscribe key sid :: post ∧ ¬ EverSubscribed pre key ∧ .unsubscribe key sid ∉ post

/-- The session has subscribed to something since it was last removed. -/
def Used (h : List SubOp) (sid : UInt32) : Prop :=
  ∃ pre key post, h = pre ++ .subscribe key sid :: post ∧ .removeSession sid ∉ post

end Hop.Spec
