import Verif.Spec.Adaptive

/-! # Specification: many requests by many clients, as if served one after the other -/

namespace Hop.Spec

/-- Requests in an order in which they are served, each with the client that issued it and its response buffer. -/
abbrev Roll := List (Nat × Request × Bytes)

/-- What belongs to client `i`, in order. -/
def chosen {α} (i : Nat) (l : List (Nat × α)) : List α := l.filterMap fun e => if e.1 = i then some e.2 else none

/-- What may be left of a program after some operations. -/
inductive LeadsTo {α} : Prog α → Prog α → Prop
  | here {p : Prog α} : LeadsTo p p
  | onKey {k : Bytes} {upd : Option Value → Option Value} {next : Option Value → Prog α} {o : Option Value} {q : Prog α} :
    LeadsTo (next o) q → LeadsTo (.onKey k upd next) q
  | onCtr {m : Metric} {upd : Option Nat → Option Nat} {next : Option Nat → Prog α} {o : Option Nat} {q : Prog α} :
    LeadsTo (next o) q → LeadsTo (.onCtr m upd next) q

/-- Where a client is that issues up to `n` requests: it has received the outcomes `got`, and either has ended with
them, or is within its next request. -/
def Client.Amid (env : Env) (c : Client) (n : Nat) (got : List (Outcome DispatchError Bytes))
    (t : Prog (List (Outcome DispatchError Bytes))) : Prop :=
  (t = .done (.ok got) ∧ (got.length = n ∨ got.length < n ∧ c got = none)) ∨
  ∃ r resp p, got.length < n ∧ c got = some (r, resp) ∧ LeadsTo (dispatch env r resp) p ∧ (∀ o, p ≠ .done o) ∧
    t = p.andThen fun o => Client.prog env c (n - got.length - 1) (got ++ [o])

end Hop.Spec
