import Verif.Model.Server

/-!
# Connections that stay open (server/src/main.rs)

`Verif.Model.Server` takes the bytes of a connection as given up to its end. Here bytes arrive piece by piece while the
task of the connection (`handle_socket_inner`, server/src/main.rs 82-119) is at work, so that what has been answered
before the client goes on or hangs up can be talked about. A list of events is an execution; that the list is arbitrary
covers clients that decide what to send by what they have been answered.

Simplifications as in `Verif.Model.Server`; furthermore a write (line 113) does not block, as if the client read
everything it is sent.
-/

namespace Hop.Server

/-- Where the task of a connection is: in `read_until` (line 90), which has appended `size` bytes to `input` so far; in
`dispatch` (line 97); at its end. `ctx` and `input` are the variables of server/src/main.rs 83-84. -/
inductive Task where
  | reading (ctx : ReqParser.Ctx) (input : Bytes) (size : Nat)
  | running (p : Prog Bytes) (ctx : ReqParser.Ctx)
  | over (e : End)
  | stuck

/-- A connection: bytes that have arrived and have not been read, whether the client has closed its side, what has been
written to the socket, and the task. server/src/main.rs 82-119. -/
structure Live where
  pending : Bytes
  closed : Bool
  sent : Bytes
  task : Task

/-- server/src/main.rs 96-111: what is done with the input when `read_until` returns. -/
def Live.look (env : Env) (c : Live) (ctx : ReqParser.Ctx) (input : Bytes) : Live :=
  match ReqParser.feed ctx input with
  | (.request req, ctx') => { c with task := .running (dispatch env req []) ctx' }
  | (.more, ctx') => { c with task := .reading ctx' input 0 }
  | (.error why, ctx') => { c with sent := c.sent ++ Response.writeParseError [] why, task := .reading ctx' [] 0 }
  | (.panic, _) => { c with task := .over .panicked }
  | (.stuck, _) => { c with task := .stuck }

/-- The next step of the task, server/src/main.rs 90-116: take up a byte that has arrived, return from `read_until` (at
a newline, or if the client has closed), an operation of `dispatch`, or writing the answer. A task that has nothing to
read waits. -/
def Live.step (env : Env) (c : Live) (db : Db) : Live × Db :=
  match c.task with
  | .reading ctx input size =>
    match c.pending with
    | b :: rest =>
      let c' := { c with pending := rest }
      (if b = 10 then c'.look env ctx (input ++ [b]) else { c' with task := .reading ctx (input ++ [b]) (size + 1) }, db)
    | [] =>
      (if c.closed then (if size = 0 then { c with task := .over .closed } else c.look env ctx input) else c, db)
  | .running (.done (.ok resp)) ctx => ({ c with sent := c.sent ++ resp, task := .reading ctx [] 0 }, db)
  | .running (.done (.err why)) ctx =>
    ({ c with sent := c.sent ++ Response.writeDispatchError [] why, task := .reading ctx [] 0 }, db)
  | .running (.done .panic) _ => ({ c with task := .over .panicked }, db)
  | .running (.done .stuck) _ => ({ c with task := .stuck }, db)
  | .running p ctx => ({ c with task := .running (p.step db).1 ctx }, (p.step db).2)
  | .over _ | .stuck => (c, db)

/-- The connections of a server, all sharing one engine. server/src/main.rs 57-66. -/
structure Net where
  conns : List Live
  db : Db

/-- What happens: bytes arrive at a connection, its client closes its side, or its task is given a turn. As in
server/src/main.rs 82-119. -/
inductive NetEvent where
  | arrive (i : Nat) (bytes : Bytes)
  | hangup (i : Nat)
  | turn (i : Nat)
deriving DecidableEq, Repr

/-- One event. Nothing arrives after the client has closed its side. As in server/src/main.rs 82-119. -/
def Net.step (env : Env) (n : Net) : NetEvent → Net
  | .arrive i bytes =>
    match n.conns[i]? with
    | none => n
    | some c => if c.closed then n else { n with conns := n.conns.set i { c with pending := c.pending ++ bytes } }
  | .hangup i =>
    match n.conns[i]? with
    | none => n
    | some c => { n with conns := n.conns.set i { c with closed := true } }
  | .turn i =>
    match n.conns[i]? with
    | none => n
    | some c => { conns := n.conns.set i (c.step env n.db).1, db := (c.step env n.db).2 }

/-- A list of events. As in server/src/main.rs 82-119. -/
def Net.exec (env : Env) (n : Net) (events : List NetEvent) : Net := events.foldl (Net.step env) n

/-- `k` connections that have just been accepted. server/src/main.rs 64-66 and 83-88. -/
def Net.start (k : Nat) (db : Db) : Net :=
  { conns := List.replicate k { pending := [], closed := false, sent := [], task := .reading ReqParser.Ctx.new [] 0 }
    db := db }

end Hop.Server
