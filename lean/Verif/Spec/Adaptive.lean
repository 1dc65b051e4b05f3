import Verif.Model.Dispatch

/-! # Specification: clients that issue any number of requests, each depending on the answers so far -/

namespace Hop.Spec

/-- A client: from the outcomes of its requests so far, its next request (with the buffer the response is
appended to), or nothing if it has no more. -/
abbrev Client := List (Outcome DispatchError Bytes) → Option (Request × Bytes)

/-- The program of a client that has received the outcomes `past` and issues up to `n` more requests. It ends
with all outcomes received. -/
def Client.prog (env : Env) (c : Client) : Nat → List (Outcome DispatchError Bytes) → Prog (List (Outcome DispatchError Bytes))
  | 0, past => .done (.ok past)
  | n + 1, past =>
    match c past with
    | none => .done (.ok past)
    | some (r, resp) => (dispatch env r resp).andThen fun o => Client.prog env c n (past ++ [o])

/-- Clients running concurrently on a database, each with a bound on the number of its requests. -/
def Clients.pool (env : Env) (cs : List (Client × Nat)) (db : Db) : Pool (List (Outcome DispatchError Bytes)) :=
  { threads := cs.map fun c => Client.prog env c.1 c.2 [], db := db }

/-- The client may issue the request. -/
def Client.Issues (c : Client) (r : Request) : Prop := ∃ past resp, c past = some (r, resp)

/-- The client that issues the given requests one after the other, whatever the answers. -/
def Client.fixed (rs : List Request) : Client := fun past => (rs[past.length]?).map fun r => (r, [])

end Hop.Spec
