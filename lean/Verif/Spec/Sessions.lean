import Verif.Model.Sessions

/-! # Specification of sessions -/

namespace Hop.Spec

/-- What users do to a session manager. -/
inductive SessionOp where
  | add (token : Bytes)
  | remove (id : UInt32)

/-- How many sessions were added. -/
def adds (h : List SessionOp) : Nat := h.countP fun o => match o with | .add _ => true | _ => false

/-- Do one operation, using the manager's functions. -/
def SessionOp.apply (mode : Mode) (s : SessionMgr) : SessionOp → SessionMgr
  | .add token => (s.add mode token).2
  | .remove id => (s.remove id).2

/-- The manager of a new engine after a history. -/
def sessionsAfter (mode : Mode) (h : List SessionOp) : SessionMgr :=
  h.foldl (SessionOp.apply mode) (.new .new)

/-- What the additions of a history answer, in order. -/
def addAnswers (mode : Mode) (s : SessionMgr) : List SessionOp → List (Option (UInt32 × Session))
  | [] => []
  | .add token :: h => (s.add mode token).1 :: addAnswers mode (s.add mode token).2 h
  | .remove id :: h => addAnswers mode (s.remove id).2 h

/-- The tokens of the additions of a history, in order. -/
def tokens (h : List SessionOp) : List Bytes :=
  h.filterMap fun o => match o with | .add t => some t | .remove _ => none

/-- The `n`-th session (counting from zero) was added with this token, and not removed since. -/
def Active (h : List SessionOp) (n : Nat) (token : Bytes) : Prop :=
  ∃ pre post, h = pre ++ .add token :: post ∧ adds pre = n ∧ .remove (UInt32.ofNat n) ∉ post

/-! ## Several threads -/

/-- The thread is about to add a session. -/
def Adding : SessionThread → Prop
  | .add _ => True
  | _ => False

/-- The thread is about to add or remove a session. -/
def Fresh : SessionThread → Prop
  | .add _ => True
  | .remove _ => True
  | _ => False

/-- What threads get to, starting to add and remove sessions on a new engine. -/
def Reaches (mode : Mode) (ts : List SessionThread) (p : SessionPool) : Prop :=
  ∃ sched, p = SessionPool.exec mode { threads := ts, mgr := .new .new } sched

end Hop.Spec
