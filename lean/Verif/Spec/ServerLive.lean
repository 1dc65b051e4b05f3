import Verif.Model.ServerLive
import Verif.Spec.Server
import Verif.Spec.History

/-! # Specification: what has been answered on connections that stay open -/

namespace Hop.Spec

/-- The bytes that have arrived at connection `i`. -/
def arrived (i : Nat) (events : List Server.NetEvent) : Bytes :=
  (events.takeWhile (· ≠ .hangup i)).flatMap fun
    | .arrive j bytes => if j = i then bytes else []
    | _ => []

/-- The value of a counter at some moment of the execution. -/
def SeenAmid (env : Env) (n : Server.Net) (events : List Server.NetEvent) (m : Metric) (o : Option Nat) : Prop :=
  ∃ s t, events = s ++ t ∧ o = (n.exec env s).db.ctrs m

/-- The server has nothing to do for connection `i` until something arrives: a turn changes nothing. -/
def AtRest (env : Env) (n : Server.Net) (i : Nat) : Prop := n.step env (.turn i) = n

/-- What a connection has been sent. -/
def sentTo (n : Server.Net) (i : Nat) : Bytes := ((n.conns[i]?).map (·.sent)).getD []

/-- The connection has come to its end. -/
def IsOver (n : Server.Net) (i : Nat) (e : Server.End) : Prop := ∃ c, n.conns[i]? = some c ∧ c.task = .over e

/-- A command has been done. -/
def isValue : Response → Bool
  | .value _ => true
  | _ => false

/-- A command has failed. -/
def isFailure : Response → Bool
  | .dispatchError _ => true
  | _ => false

/-- `bytes` up to and including the last newline. -/
def Whole (bytes whole : Bytes) : Prop :=
  ∃ rest, bytes = whole ++ rest ∧ (10 : UInt8) ∉ rest ∧ (whole = [] ∨ whole.getLast? = some 10)

/-- Connection `i` has been answered `rs`: one response for each thing heard in the whole lines that have arrived, and in
the last, unfinished line only if the client has hung up; it has broken down if an overfull request was heard, and is
closed if the client has hung up and it has not broken down. -/
def Settled (env : Env) (n : Server.Net) (events : List Server.NetEvent) (i : Nat) (rs : List Response) : Prop :=
  ∃ part hs e, (if .hangup i ∈ events then part = arrived i events else Whole (arrived i events) part) ∧
    Hears [] (Server.lines part) hs e ∧ All2 (Responds (SeenAmid env n events)) hs rs ∧
    sentTo (n.exec env events) i = wire env rs ∧
    (IsOver (n.exec env events) i .panicked ↔ e = .panicked) ∧
    (IsOver (n.exec env events) i .closed ↔ e = .closed ∧ .hangup i ∈ events)

end Hop.Spec
