import Verif.Model.RequestParser
import Verif.Model.Dispatch

/-!
# The server (server/src/main.rs)

One task per connection (`handle_socket_inner`, server/src/main.rs 82-119), all sharing one engine. The
socket is the stream of bytes the client sends until it closes its side. A connection is a program over
the shared database, so that several connections can be interleaved.

Simplifications: a failing read looks like a stream that ends after its last complete piece (line 90: the loop
ends without processing what was read since); a failing write ends the task (line 113), which is the same as the
client sending nothing more; `peer_addr` (line 72, only used for logging, unwrapped) succeeds: if it fails the task
panics before reading, which is the same as a client that sends nothing.
-/

namespace Hop.Server

/-- What the successive `reader.read_until(b'\n', ..)` calls (line 90) append to `input`: pieces ending
with a newline, and possibly a last one without. How the bytes arrive in packets makes no difference:
`read_until` waits for a newline or the end. -/
def lines : Bytes → List Bytes
  | [] => []
  | b :: rest =>
    if b = 10 then [b] :: lines rest
    else match lines rest with
      | [] => [[b]]
      | l :: ls => (b :: l) :: ls

/-- How a connection ended: the client closed it, or the task panicked. server/src/main.rs 82-119. -/
inductive End where
  | closed
  | panicked
deriving DecidableEq, Repr

/-- The loop of `handle_socket_inner`, server/src/main.rs 90-116, over the pieces still to come; `input`
and `ctx` are the variables of lines 83-84 and `sent` is what has been written to the socket so far. The
variable `resp` is empty at the start of each round (lines 88, 114). `input` is cleared only after an
answer (line 115; `continue` in line 105 skips it). When `dispatch` fails it has not touched `resp`. -/
def loop (env : Env) (ctx : ReqParser.Ctx) (input sent : Bytes) : List Bytes → Prog (End × Bytes)
  | [] => .done (.ok (.closed, sent))
  | piece :: pieces =>
    let input := input ++ piece
    match ReqParser.feed ctx input with
    | (.request req, ctx') =>
      (dispatch env req []).andThen fun
        | .ok resp => loop env ctx' [] (sent ++ resp) pieces
        | .err why => loop env ctx' [] (sent ++ Response.writeDispatchError [] why) pieces
        | .panic => .done (.ok (.panicked, sent))
        | .stuck => .done .stuck
    | (.more, ctx') => loop env ctx' input sent pieces
    | (.error why, ctx') => loop env ctx' [] (sent ++ Response.writeParseError [] why) pieces
    | (.panic, _) => .done (.ok (.panicked, sent))
    | (.stuck, _) => .done .stuck

/-- `handle_socket_inner`, server/src/main.rs 82-119, for a client that sends `stream`. -/
def connection (env : Env) (stream : Bytes) : Prog (End × Bytes) :=
  loop env ReqParser.Ctx.new [] [] (lines stream)

/-- The connections of a server (`main`, server/src/main.rs 46-69: one task each) with a database. -/
def serve (env : Env) (streams : List Bytes) (db : Db) : Pool (End × Bytes) :=
  { threads := streams.map (connection env), db := db }

end Hop.Server
