import Verif.Spec.HopThreads
import Verif.Spec.Linear

/-! # Specification of users of one engine who make one call after the other -/

namespace Hop.Spec

/-- The thread has been answered. -/
def HopEnded : HopThread → Bool
  | .command (.done _) => true
  | .session (.added _ _) | .session .panicked | .session (.removed _) => true
  | .pubsub (.subscribed _) | .pubsub (.unsubscribed _) | .pubsub (.got _) | .pubsub (.sessionRemoved _) => true
  | .measured _ _ => true
  | _ => false

/-- A call and how far it is. -/
abbrev Made := HopCall × HopThread

/-- A user: from the calls made so far and their answers, the next call, or nothing if there are no more. -/
abbrev User := List Made → Option HopCall

/-- A user, the calls that were answered, and the call that is under way. -/
structure UserState where
  user : User
  past : List Made
  now : Option Made

/-- All calls made by a user. -/
def UserState.made (u : UserState) : List Made := u.past ++ u.now.toList

/-- Users of one engine. -/
structure UserPool where
  users : List UserState
  engine : HopEngine

/-- The threads at work. -/
def UserPool.atWork (p : UserPool) : HopPool :=
  { threads := p.users.filterMap fun u => u.now.map (·.2), engine := p.engine }

/-- User `i` makes a step: of the call under way, if there is one; otherwise the user decides what to call
next. -/
def UserPool.stepAt (env : Env) (shard : UInt32 → Nat) (p : UserPool) (i : Nat) : UserPool :=
  match p.users[i]? with
  | none => p
  | some u =>
    match u.now with
    | some (c, t) =>
      let (t', h') := t.step env.mode p.atWork.sessionFree (p.atWork.pubsubFree shard) p.engine
      let u' := if HopEnded t' then { u with past := u.past ++ [(c, t')], now := none } else { u with now := some (c, t') }
      { users := p.users.set i u', engine := h' }
    | none =>
      match u.user u.past with
      | none => p
      | some c => { p with users := p.users.set i { u with now := some (c, HopCall.thread env c) } }

/-- Execute a schedule. -/
def UserPool.exec (env : Env) (shard : UInt32 → Nat) (p : UserPool) (sched : List Nat) : UserPool :=
  sched.foldl (UserPool.stepAt env shard) p

/-- Users who have not made any calls yet. -/
def userPool (us : List User) (h : HopEngine) : UserPool :=
  { users := us.map fun u => { user := u, past := [], now := none }, engine := h }

/-- All calls made by all users. -/
def UserPool.made (p : UserPool) : List Made := p.users.flatMap UserState.made

/-- The user that makes the given calls one after the other, whatever the answers. -/
def User.fixed (cs : List HopCall) : User := fun past => cs[past.length]?

end Hop.Spec
