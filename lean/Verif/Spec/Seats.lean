import Verif.Spec.Steps
import Verif.Spec.Adaptive
import Verif.Lemmas.Refine

/-! # Specification: clients of the machine that issue any number of requests, each depending on the answers so far -/

namespace Hop.Spec

/-- A client of the machine: from the outcomes of its requests so far, its next request (with the buffer the response
is appended to), or nothing if it has no more. -/
abbrev Customer := List (Outcome DispatchError Bytes) → Option (Call × Bytes)

/-- A client and how far it has come: the outcomes it has received, how many more requests it may issue, and the request
being served, if any. -/
structure Seat where
  past : List (Outcome DispatchError Bytes)
  left : Nat
  now : Option (Call × Bytes × Phase)

/-- The client that has received the outcomes `past` issues its next request. -/
def Seat.take (env : Env) (c : Customer) : Nat → List (Outcome DispatchError Bytes) → Seat
  | 0, past => { past := past, left := 0, now := none }
  | n + 1, past =>
    match c past with
    | none => { past := past, left := n + 1, now := none }
    | some (call, resp) =>
      match opening env resp call with
      | .answered a => Seat.take env c n (past ++ [render env resp a])
      | ph => { past := past, left := n, now := some (call, resp, ph) }

/-- The client's request makes a step; once it is answered the next one is issued. -/
def Seat.step (env : Env) (c : Customer) (s : Seat) (db : Db) : Seat × Db :=
  match s.now with
  | none => (s, db)
  | some (call, resp, ph) =>
    match advance env resp call ph db with
    | (.answered a, db') => (Seat.take env c s.left (s.past ++ [render env resp a]), db')
    | (ph', db') => ({ s with now := some (call, resp, ph') }, db')

/-- Clients of the machine. -/
structure Room where
  seats : List (Customer × Seat)
  db : Db

/-- Clients, each with a bound on the number of its requests. -/
def Room.start (env : Env) (cs : List (Customer × Nat)) (db : Db) : Room :=
  { seats := cs.map fun c => (c.1, Seat.take env c.1 c.2 []), db := db }

/-- Client `i` makes a step. -/
def Room.stepAt (env : Env) (r : Room) (i : Nat) : Room :=
  match r.seats[i]? with
  | none => r
  | some (c, s) =>
    let x := s.step env c r.db
    { seats := r.seats.set i (c, x.1), db := x.2 }

/-- The clients make steps in the given order. -/
def Room.exec (env : Env) (r : Room) (sched : List Nat) : Room := sched.foldl (Room.stepAt env) r

/-- The client issues exactly the requests of the customer. -/
def Impersonates (c : Client) (u : Customer) : Prop :=
  ∀ past, (c past = none ∧ u past = none) ∨
    ∃ r call resp, c past = some (r, resp) ∧ u past = some (call, resp) ∧ Views r call.cmd call.kt call.args

end Hop.Spec
