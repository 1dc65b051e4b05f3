import Verif.Spec.Promises

/-!
# Specification of commands that are interleaved

A machine that executes requests in steps, each on the whole store at one moment. Most requests do all their work in
one step, which is that of `execute`; the others are interrupted between the phases listed here.
-/

namespace Hop.Spec

/-- How far a request has come. -/
inductive Phase where
  /-- It names no type and has yet to look at the type of what is stored. -/
  | choosing
  /-- It is about to do all of its work at once, as a request naming this type. -/
  | ready (kt : Option KeyType)
  /-- A Set of a value of type `t` that has yet to remove the old value. -/
  | clearing (t : KeyType)
  /-- It is about to work on what is stored, if anything is. -/
  | working (t : KeyType)
  /-- It has found nothing stored, and is about to store the default value of type `t`. -/
  | missing (t : KeyType)
  /-- A Rename that has yet to see whether its key exists. -/
  | leaving
  /-- A Rename that has yet to see whether the new name is free. -/
  | arriving
  /-- A Rename that has yet to take the value. -/
  | taking
  /-- A Rename that has taken the value and has yet to store it. -/
  | carrying (v : Value)
  /-- An Exists or Is that has found the first `n` keys as asked. -/
  | seen (n : Nat)
  /-- A Stats that has noted some counters and has yet to look at others. -/
  | told (m : BMap) (left : List (Metric × String))
  /-- All is done but counting the command. -/
  | settled (a : Answer)
  | answered (a : Answer)
deriving DecidableEq

/-- The key of a request. -/
def mainKey (c : Call) : Bytes := c.args.headD []

/-- The new name given by a Rename. -/
def newName (c : Call) : Bytes := (c.args.drop 1).headD []

/-- The answer is there. If it cannot be encoded the request crashes; crashes are not counted. -/
def concluded (env : Env) (resp : Bytes) (a : Answer) : Phase :=
  match a with
  | .value v => if Response.writeValue env resp v = none then .answered .crash else .settled a
  | .error _ => .settled a
  | .crash => .answered .crash

/-- The phase unless the key is one that crashes. -/
def usable (env : Env) (c : Call) (ph : Phase) : Phase :=
  if unusable env.mode (mainKey c) then .answered .crash else ph

/-- An Append, Keys, Length or Set that knows which type to work with. -/
def typed (env : Env) (c : Call) (t : KeyType) : Phase :=
  match malformed ⟨c.cmd, some t, c.args⟩ with
  | some e => .settled (.error e)
  | none =>
    if c.cmd = .set then .clearing t
    else if c.cmd = .append then usable env c (.working t)
    else usable env c (.ready (some t))

/-- A request that has done nothing yet. -/
def opening (env : Env) (resp : Bytes) (c : Call) : Phase :=
  match malformed c with
  | some e => .settled (.error e)
  | none =>
    match c.cmd with
    | .echo => concluded env resp (.value (.list c.args))
    | .append | .keys | .length | .set =>
      match c.kt with
      | some t => typed env c t
      | none => .choosing
    | .increment | .decrement | .incrementBy => usable env c (.working .integer)
    | .decrementBy =>
      if env.mode = .debug ∧ (i64OfBytes ((newName c).take 8)).toInt = -2 ^ 63 then .answered .crash
      else usable env c (.working .integer)
    | .get => usable env c (.ready c.kt)
    | .delete | .type => .ready c.kt
    | .rename => .leaving
    | .exists | .is => .seen 0
    | .stats => .told [] [(.commandsErrored, "commands_errored"), (.commandsSuccessful, "commands_successful"),
        (.sessionsStarted, "sessions_started")]

/-- What a counter command, Append or Set makes of the value it finds, and what it answers. A Set of a value with a
type finds a value of another type only if it was stored meanwhile. -/
def workOn (env : Env) (resp : Bytes) (c : Call) (t : KeyType) (v : Value) : Answer × Value :=
  if c.cmd = .set then
    match parseValue t (c.args.drop 1) with
    | none => (.crash, v)
    | some w =>
      if v.kind ≠ t then (.error .keyTypeDifferent, v)
      else if (t = .map ∨ t = .set) ∧ Response.writeValue env resp w = none then (.crash, v)
      else (.value w, w)
  else
    let x := execute env (fun _ => none) c.cmd (if c.cmd = .append then some t else c.kt) c.args
      (fun k => if k = mainKey c then some v else none)
    (x.1, (x.2 (mainKey c)).getD v)

/-- The counter of an answer. -/
def outcomeCounter : Answer → Metric
  | .error _ => .commandsErrored
  | _ => .commandsSuccessful

/-- One step of a request: the next phase, and the database afterwards. -/
def advance (env : Env) (resp : Bytes) (c : Call) (ph : Phase) (db : Db) : Phase × Db :=
  match ph with
  | .choosing =>
    (typed env c (effectiveType none (db.keys (mainKey c)) (if c.cmd = .keys then .map else .bytes)), db)
  | .ready kt =>
    let x := execute env db.ctrs c.cmd kt c.args db.keys
    (concluded env resp x.1, { db with keys := x.2 })
  | .clearing t => (usable env c (.working t), { db with keys := Store.put db.keys (mainKey c) none })
  | .working t =>
    match db.keys (mainKey c) with
    | none => (.missing t, db)
    | some v =>
      let x := workOn env resp c t v
      (concluded env resp x.1, { db with keys := Store.put db.keys (mainKey c) (some x.2) })
  | .missing t => (.working t, { db with keys := Store.put db.keys (mainKey c) (some (.default t)) })
  | .leaving => (if db.keys (mainKey c) = none then .settled (.error .keyNonexistent) else .arriving, db)
  | .arriving => (if db.keys (newName c) = none then .taking else .settled (.error .preconditionFailed), db)
  | .taking =>
    match db.keys (mainKey c) with
    | none => (.settled (.error .keyNonexistent), db)
    | some v => (.carrying v, { db with keys := Store.put db.keys (mainKey c) none })
  | .carrying v =>
    (concluded env resp (.value (.bytes (newName c))), { db with keys := Store.put db.keys (newName c) (some v) })
  | .seen n =>
    let found := (c.args[n]?).bind db.keys
    let fine := match c.kt with
      | none => found.isSome
      | some t => found.map Value.kind = some t
    (if !fine then .settled (.value (.boolean false))
      else if n + 1 < c.args.length then .seen (n + 1) else .settled (.value (.boolean true)), db)
  | .told m left =>
    match left with
    | [] => (.told m [], db)
    | (x, name) :: left =>
      let m := match reported db.ctrs x with
        | some n => m ++ [(ascii name, n)]
        | none => m
      (if left = [] then concluded env resp (.value (.map m)) else .told m left, db)
  | .settled a =>
    let n := (db.ctrs (outcomeCounter a)).getD 0 + 1
    if n < 2 ^ 64 then (.answered a, db.setCtr (outcomeCounter a) (some n))
    else if env.mode = .release then (.answered a, db.setCtr (outcomeCounter a) (some (n % 2 ^ 64)))
    else (.answered .crash, db)
  | .answered a => (.answered a, db)

/-- Requests being served: each with the buffer for its response and how far it has come. -/
structure Desk where
  served : List (Call × Bytes × Phase)
  db : Db

/-- Requests that have just arrived. -/
def Desk.start (env : Env) (cs : List (Call × Bytes)) (db : Db) : Desk :=
  { served := cs.map fun c => (c.1, c.2, opening env c.2 c.1), db := db }

/-- Request `i` makes a step. -/
def Desk.stepAt (env : Env) (d : Desk) (i : Nat) : Desk :=
  match d.served[i]? with
  | none => d
  | some (c, resp, ph) =>
    let x := advance env resp c ph d.db
    { served := d.served.set i (c, resp, x.1), db := x.2 }

/-- The requests make steps in the given order. -/
def Desk.exec (env : Env) (d : Desk) (sched : List Nat) : Desk := sched.foldl (Desk.stepAt env) d

/-- How far a request served by thread `i` has come after a schedule, if all others are arbitrary programs. -/
def followed (env : Env) (resp : Bytes) (c : Call) (i : Nat) : Pool Bytes → List Nat → Phase → Phase
  | _, [], ph => ph
  | p, j :: sched, ph =>
    followed env resp c i (p.stepAt j) sched (if j = i then (advance env resp c ph p.db).1 else ph)

end Hop.Spec
