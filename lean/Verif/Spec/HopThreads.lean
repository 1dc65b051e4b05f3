import Verif.Model.HopThreads
import Verif.Spec.Hop
import Verif.Spec.PubSubThreads

/-! # Specification of one engine used from several threads at once -/

namespace Hop.Spec

/-- The parts of an engine that threads use. -/
inductive HopKind where
  | command | session | pubsub | metric
deriving DecidableEq

/-- What a thread does to an engine. -/
inductive HopCall where
  | dispatch (req : Request) (resp : Bytes)
  | session (o : SessionOp)
  | pubsub (c : SubCall)
  | metric (m : Metric)

/-- The part of the engine a call uses. -/
def HopCall.kind : HopCall → HopKind
  | .dispatch _ _ => .command
  | .session _ => .session
  | .pubsub _ => .pubsub
  | .metric _ => .metric

/-- A thread about to call the session manager. -/
def SessionOp.thread : SessionOp → SessionThread
  | .add t => .add t
  | .remove i => .remove i

/-- A thread about to make the call. -/
def HopCall.thread (env : Env) : HopCall → HopThread
  | .dispatch r resp => .command (Hop.dispatch env r resp)
  | .session o => .session o.thread
  | .pubsub c => .pubsub c.thread
  | .metric m => .measure m

/-- One thread for each call, on this engine. -/
def hopPool (env : Env) (calls : List HopCall) (h : HopEngine) : HopPool :=
  { threads := calls.map (HopCall.thread env), engine := h }

/-- The requests, the calls of the session manager and the calls of the publish/subscribe manager among calls. -/
def requestCalls (calls : List HopCall) : List (Request × Bytes) :=
  calls.filterMap fun | .dispatch r resp => some (r, resp) | _ => none
def sessionCalls (calls : List HopCall) : List SessionOp :=
  calls.filterMap fun | .session o => some o | _ => none
def pubsubCalls (calls : List HopCall) : List SubCall :=
  calls.filterMap fun | .pubsub c => some c | _ => none

/-- A thread's part in executing a request, in calling the session manager, and in calling the
publish/subscribe manager. -/
def commandOf : HopThread → Option (Prog Bytes)
  | .command p => some p
  | _ => none
def sessionOf : HopThread → Option SessionThread
  | .session t => some t
  | _ => none
def pubsubOf : HopThread → Option SubThread
  | .pubsub t => some t
  | _ => none

/-- The threads that execute requests, that call the session manager, and that call the publish/subscribe
manager. -/
def commandThreads (ts : List HopThread) : List (Prog Bytes) := ts.filterMap commandOf
def sessionThreads (ts : List HopThread) : List SessionThread := ts.filterMap sessionOf
def pubsubThreads (ts : List HopThread) : List SubThread := ts.filterMap pubsubOf

/-- The steps a schedule gives to threads of one kind, with these threads numbered among themselves. -/
def turnsOf (K : HopKind) (calls : List HopCall) (sched : List Nat) : List Nat :=
  sched.filterMap fun i =>
    if (calls[i]?).map HopCall.kind = some K then some ((calls.take i).countP fun c => c.kind = K) else none

/-- The threads that use the session manager, on an engine of their own. -/
def sessionsAlone (calls : List HopCall) (h : HopEngine) : SessionPool :=
  { threads := (sessionCalls calls).map SessionOp.thread, mgr := h.mgr }

/-- The threads that use the publish/subscribe manager, on an engine of their own. -/
def pubsubAlone (calls : List HopCall) (h : HopEngine) : SubPool :=
  { threads := (pubsubCalls calls).map SubCall.thread, mgr := h.pubsub }

/-- Both have ended in the same way: both succeeded, both failed with the same error, both crashed; or neither
has ended. -/
def SameEnd : Prog Bytes → Prog Bytes → Prop
  | .done (.ok _), .done (.ok _) => True
  | .done o, .done o' => o = o'
  | .done _, _ => False
  | _, .done _ => False
  | _, _ => True

/-- The thread has answered with success, or with an error. -/
def hopSucceeded : HopThread → Bool
  | .command (.done (.ok _)) => true
  | _ => false
def hopFailed : HopThread → Bool
  | .command (.done (.err _)) => true
  | _ => false

/-- The thread has started a session. -/
def hopStarted : HopThread → Bool
  | .session (.counted _ _) | .session (.advancing _ _ _) | .session (.added _ _) => true
  | _ => false

end Hop.Spec
