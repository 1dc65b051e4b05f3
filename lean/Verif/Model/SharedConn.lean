import Verif.Model.Client

/-!
# One connection used by several tasks

The calls of `ServerBackend` take `&self` (client/src/backend/server.rs 155-159), so several tasks can be making calls on
one connection at a time. `send_and_wait` (lines 117-153) locks the writer, writes the request as fast as the connection
takes it, unlocks it at the end of the statement (line 123), locks the reader and waits for the answer. A task can be
dropped whenever it waits, which drops the guards it holds.

Simplifications: tokio's `Mutex` is a lock without an order of waiters; the requests are given by their bytes; a task
makes one call.
-/

namespace Hop.Client.Server

/-- Where a task is within `send_and_wait`, client/src/backend/server.rs 117-153. -/
inductive Task where
  /-- Has not got the lock of the writer (line 119). -/
  | waiting
  /-- Holds the lock of the writer and has this much left to write (line 121). -/
  | writing (rest : Bytes)
  /-- Has written the request and dropped the lock (line 123). -/
  | written
  /-- Has returned. -/
  | returned (r : Outcome Error Value)
  /-- Has been dropped before it returned. -/
  | dropped
deriving DecidableEq

/-- The connection and the tasks using it: what has been written so far, and what the server will ever send.
client/src/backend/server.rs 98-101. -/
structure Shared where
  tasks : List Task
  wire : Bytes
  incoming : Bytes

/-- What can happen. The steps of client/src/backend/server.rs 117-153. -/
inductive Happening where
  /-- Task `i` goes on; if it is writing, the connection takes up to `n` bytes. -/
  | go (i n : Nat)
  /-- The connection fails while task `i` is writing. -/
  | fail (i : Nat)
  /-- Task `i` is dropped. -/
  | drop (i : Nat)

/-- Nobody holds the lock of the writer (client/src/backend/server.rs 100). -/
def Shared.free (s : Shared) : Bool := s.tasks.all fun t => match t with
  | .writing _ => false
  | _ => true

/-- One happening; `reqs` are the requests of the tasks. Lines 118-123 (`write_all`), 128 (the lock of the reader, which is
held only while `waitLoop` runs, that is from one suspension of the task to the next, see `waitLoop`), 130-152 of
client/src/backend/server.rs. -/
def Shared.step (m : Mode) (fuel : Nat) (reqs : List Bytes) (s : Shared) : Happening → Shared
  | .go i n =>
    match s.tasks[i]?, reqs[i]? with
    | some .waiting, some r => if s.free then { s with tasks := s.tasks.set i (.writing r) } else s
    | some (.writing rest), _ =>
      { s with
        tasks := s.tasks.set i (if rest.drop n = [] then .written else .writing (rest.drop n)),
        wire := s.wire ++ rest.take n }
    | some .written, _ => { s with tasks := s.tasks.set i (.returned (waitLoop m fuel .new [] s.incoming)) }
    | _, _ => s
  | .fail i =>
    match s.tasks[i]? with
    | some (.writing _) => { s with tasks := s.tasks.set i (.returned (.err .writingMessage)) }
    | _ => s
  | .drop i =>
    match s.tasks[i]? with
    | some (.returned _) => s
    | some _ => { s with tasks := s.tasks.set i .dropped }
    | none => s

/-- What happens, in order. client/src/backend/server.rs 117-153. -/
def Shared.exec (m : Mode) (fuel : Nat) (reqs : List Bytes) (s : Shared) : List Happening → Shared
  | [] => s
  | h :: hs => (s.step m fuel reqs h).exec m fuel reqs hs

end Hop.Client.Server
