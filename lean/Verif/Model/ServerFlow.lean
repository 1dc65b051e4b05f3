import Verif.Model.ServerLive

/-!
# Connections whose clients are slow to read (server/src/main.rs)

As `Verif.Model.ServerLive`, but what is in transit takes up room: of what the server writes, the system holds at most
`outRoom` bytes until the client reads them, and `write_all` (server/src/main.rs 113) waits while there is no room; of what
the client sends, at most `inRoom` bytes are held until the task takes them up, and the client has to wait as well. Reading and
writing can also fail.

Simplification: `write_all` hands over one byte at a turn (more at a time is several turns in a row).
-/

namespace Hop.Server

/-- A connection. Of `live`, `sent` is all that has been given to `write_all`, and the other fields are as before; `wrote` is how
much of it the system has taken, and `read` how much of that the client has read. While `wrote` is less than what was given to
`write_all`, the task is at line 113 of server/src/main.rs. `dead`: the task has ended because reading or writing failed (lines
90 and 113). -/
structure Flow where
  live : Live
  wrote : Nat
  read : Nat
  dead : Bool

/-- server/src/main.rs 113: `write_all` has not returned. -/
def Flow.writing (c : Flow) : Bool := decide (c.wrote < c.live.sent.length)

/-- A turn of the task, server/src/main.rs 90-116: if it is in `write_all`, the system takes a byte if it has room for it;
otherwise as `Live.step`. -/
def Flow.step (env : Env) (outRoom : Nat) (c : Flow) (db : Db) : Flow × Db :=
  if c.dead then (c, db)
  else if c.writing then (if c.wrote < c.read + outRoom then { c with wrote := c.wrote + 1 } else c, db)
  else ({ c with live := (c.live.step env db).1 }, (c.live.step env db).2)

/-- The task waits at the socket, in `read_until` (server/src/main.rs 90) or in `write_all` (line 113), where it can meet an
error of the socket. -/
def Flow.atSocket (c : Flow) : Bool :=
  c.writing || match c.live.task with
    | .reading .. => true
    | _ => false

/-- The connections of a server, all sharing one engine. server/src/main.rs 57-66. -/
structure FlowNet where
  conns : List Flow
  db : Db

/-- What happens: a client sends bytes, closes its side, or reads up to `n` of the bytes in transit to it; the task of a
connection is given a turn; reading or writing fails. As in server/src/main.rs 82-119. -/
inductive FlowEvent where
  | send (i : Nat) (bytes : Bytes)
  | hangup (i : Nat)
  | read (i : Nat) (n : Nat)
  | turn (i : Nat)
  | fail (i : Nat)
deriving DecidableEq, Repr

/-- One event. A client can send only as long as it has not closed its side and there is room. If reading fails, the loop ends
(server/src/main.rs 90), if writing fails, the task returns the error (line 113). -/
def FlowNet.step (env : Env) (inRoom outRoom : Nat) (n : FlowNet) : FlowEvent → FlowNet
  | .send i bytes =>
    match n.conns[i]? with
    | none => n
    | some c =>
      if c.live.closed || decide (inRoom < c.live.pending.length + bytes.length) then n
      else { n with conns := n.conns.set i { c with live := { c.live with pending := c.live.pending ++ bytes } } }
  | .hangup i =>
    match n.conns[i]? with
    | none => n
    | some c => { n with conns := n.conns.set i { c with live := { c.live with closed := true } } }
  | .read i k =>
    match n.conns[i]? with
    | none => n
    | some c => { n with conns := n.conns.set i { c with read := min c.wrote (c.read + k) } }
  | .turn i =>
    match n.conns[i]? with
    | none => n
    | some c => { conns := n.conns.set i (c.step env outRoom n.db).1, db := (c.step env outRoom n.db).2 }
  | .fail i =>
    match n.conns[i]? with
    | none => n
    | some c => if c.atSocket then { n with conns := n.conns.set i { c with dead := true } } else n

/-- A list of events. As in server/src/main.rs 82-119. -/
def FlowNet.exec (env : Env) (inRoom outRoom : Nat) (n : FlowNet) (events : List FlowEvent) : FlowNet :=
  events.foldl (FlowNet.step env inRoom outRoom) n

/-- `k` connections that have just been accepted. server/src/main.rs 64-66 and 83-88. -/
def FlowNet.start (k : Nat) (db : Db) : FlowNet :=
  { conns := (Net.start k db).conns.map fun c => { live := c, wrote := 0, read := 0, dead := false }
    db := db }

end Hop.Server
