import Verif.Spec.Linear
import Verif.Spec.Client

/-! # Specification: tasks that make any number of calls of an in-memory client -/

namespace Hop.Spec

/-- What a call of the in-memory client comes to: it resolves to a result or an error, or it panics. -/
abbrev Resolved := Outcome DispatchError (Except Client.Error Got)

/-- A task: from what its calls so far came to, its next call, or nothing if it makes no more. -/
abbrev Caller := List Resolved → Option Api

/-- The program of a task whose calls so far came to `past` and that makes up to `n` more calls. It ends with all that
its calls came to. -/
def Caller.prog (env : Env) (c : Caller) : Nat → List Resolved → Prog (List Resolved)
  | 0, past => .done (.ok past)
  | n + 1, past =>
    match c past with
    | none => .done (.ok past)
    | some a => (a.start env).andThen fun o => Caller.prog env c n (past ++ [o])

/-- Tasks sharing an in-memory client, each with a bound on the number of its calls. -/
def Callers.pool (env : Env) (cs : List (Caller × Nat)) (db : Db) : Pool (List Resolved) :=
  { threads := cs.map fun c => Caller.prog env c.1 c.2 [], db := db }

/-- The task may make the call. -/
def Caller.Makes (c : Caller) (a : Api) : Prop := ∃ past, c past = some a

/-- Where a task is that makes up to `n` calls: its calls came to `got`, and either it has ended, or it is within its next
call. -/
def Caller.Amid (env : Env) (c : Caller) (n : Nat) (got : List Resolved) (t : Prog (List Resolved)) : Prop :=
  (t = .done (.ok got) ∧ (got.length = n ∨ got.length < n ∧ c got = none)) ∨
  ∃ a p, got.length < n ∧ c got = some a ∧ LeadsTo (a.start env) p ∧ (∀ o, p ≠ .done o) ∧
    t = p.andThen fun o => Caller.prog env c (n - got.length - 1) (got ++ [o])

/-- Calls made by a single task, one after the other. -/
def callAll (env : Env) : List Api → Db → List Resolved × Db
  | [], db => ([], db)
  | a :: l, db =>
    let x := (a.start env).run db
    let y := callAll env l x.2
    (x.1 :: y.1, y.2)

/-- What the engine's commands give for the calls, one after the other: a refused call changes nothing, any other has the
effect of the command it stands for and resolves to the answer. -/
def askAll (env : Env) : List Api → Db → List Resolved × Db
  | [], db => ([], db)
  | a :: l, db =>
    match a.refusal with
    | some e => (.ok (.error e) :: (askAll env l db).1, (askAll env l db).2)
    | none =>
      let x := perform env (a.call env) db
      (a.given env x.1 :: (askAll env l x.2).1, (askAll env l x.2).2)

end Hop.Spec
