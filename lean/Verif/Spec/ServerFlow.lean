import Verif.Model.ServerFlow
import Verif.Spec.ServerLive

/-! # Specification: what clients that are slow to read are told -/

namespace Hop.Spec

open Server

/-- The client of connection `i` can send these bytes now: it has not closed its side, and they fit in with what the server has
not taken up yet. -/
def canSend (inRoom : Nat) (n : FlowNet) (i : Nat) (bytes : Bytes) : Bool :=
  match n.conns[i]? with
  | some c => !c.live.closed && decide (c.live.pending.length + bytes.length ≤ inRoom)
  | none => false

/-- What the client of connection `i` sends at an event. -/
def sendsAt (inRoom i : Nat) (n : FlowNet) : FlowEvent → Bytes
  | .send j bytes => if j = i ∧ canSend inRoom n i bytes = true then bytes else []
  | _ => []

/-- What the client of connection `i` has managed to send. -/
def accepted (env : Env) (inRoom outRoom : Nat) (i : Nat) : FlowNet → List FlowEvent → Bytes
  | _, [] => []
  | n, e :: es => sendsAt inRoom i n e ++ accepted env inRoom outRoom i (n.step env inRoom outRoom e) es

/-- What the client of connection `i` has read. -/
def readBy (n : FlowNet) (i : Nat) : Bytes :=
  match n.conns[i]? with
  | some c => c.live.sent.take c.read
  | none => []

/-- The value of a counter at some moment of the execution. -/
def FlowSeen (env : Env) (inRoom outRoom : Nat) (n : FlowNet) (events : List FlowEvent) (m : Metric) (o : Option Nat) : Prop :=
  ∃ s t, events = s ++ t ∧ o = (n.exec env inRoom outRoom s).db.ctrs m

/-- There is nothing left to do on connection `i`: neither a turn of the server nor an attempt of the client to read changes
anything. -/
def Quiet (env : Env) (inRoom outRoom : Nat) (n : FlowNet) (i : Nat) : Prop :=
  n.step env inRoom outRoom (.turn i) = n ∧ n.step env inRoom outRoom (.read i 1) = n

/-- Reading or writing has failed on connection `i`. -/
def FlowFailed (n : FlowNet) (i : Nat) : Prop := ∃ c, n.conns[i]? = some c ∧ c.dead = true

/-- The task of the connection has come to its end. -/
def FlowOver (n : FlowNet) (i : Nat) (e : End) : Prop := ∃ c, n.conns[i]? = some c ∧ c.live.task = .over e

/-- The client of connection `i` has been answered `rs`: one response for each thing heard in the whole lines it has managed to
send, and in the last, unfinished line only if it has hung up; it has read all of them; the connection has broken down if an
overfull request was heard, and is closed if the client has hung up and it has not broken down. -/
def FlowSettled (env : Env) (inRoom outRoom : Nat) (n : FlowNet) (events : List FlowEvent) (i : Nat) (rs : List Response) : Prop :=
  ∃ part hs e, (if .hangup i ∈ events then part = accepted env inRoom outRoom i n events
      else Whole (accepted env inRoom outRoom i n events) part) ∧
    Hears [] (Server.lines part) hs e ∧ All2 (Responds (FlowSeen env inRoom outRoom n events)) hs rs ∧
    readBy (n.exec env inRoom outRoom events) i = wire env rs ∧
    (FlowOver (n.exec env inRoom outRoom events) i .panicked ↔ e = .panicked) ∧
    (FlowOver (n.exec env inRoom outRoom events) i .closed ↔ e = .closed ∧ .hangup i ∈ events)

/-- The situation after the first `t` events of an infinite execution. -/
def afterEvents (env : Env) (inRoom outRoom : Nat) (n : FlowNet) (run : Nat → FlowEvent) (t : Nat) : FlowNet :=
  n.exec env inRoom outRoom ((List.range t).map run)

end Hop.Spec
