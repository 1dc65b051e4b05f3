import Verif.Spec.Store
import Verif.Spec.Response
import Verif.Spec.Request

/-! # Specification of request histories: answers, stored keys and statistics -/

namespace Hop.Spec

/-- A request as a user sees it. -/
structure Call where
  cmd : CommandId
  kt : Option KeyType
  args : List Bytes

/-- The counters after one more event. -/
def counted (ctrs : Metric → Option Nat) (m : Metric) : Metric → Option Nat :=
  fun m' => if m' = m then some ((ctrs m).getD 0 + 1) else ctrs m'

/-- Every counter can count `n` more events without exceeding 64 bits. -/
def Roomy (n : Nat) (ctrs : Metric → Option Nat) : Prop := ∀ m, (ctrs m).getD 0 + n < 2 ^ 64

/-- The counters after an answer: a crash is not counted. -/
def tally (ctrs : Metric → Option Nat) : Answer → Metric → Option Nat
  | .value _ => counted ctrs .commandsSuccessful
  | .error _ => counted ctrs .commandsErrored
  | .crash => ctrs

/-- The answer fits into a response: below 4 GiB, and (debug builds) at most 65535 list items. -/
def Deliverable (m : Mode) : Answer → Prop
  | .value v => (body (.value v)).length < 2 ^ 32 ∧ (m = .debug → ∀ l, v = .list l → l.length < 2 ^ 16)
  | _ => True

/-- What the caller gets: a response frame after the bytes already in the buffer, an error, or a panic. -/
def delivered (env : Env) (resp : Bytes) : Answer → Outcome DispatchError Bytes
  | .value v => .ok (resp ++ frame (ordered env (.value v)))
  | .error e => .err e
  | .crash => .panic

/-- One call on the abstract store. -/
def perform (env : Env) (c : Call) (db : Db) : Answer × Db :=
  let x := execute env db.ctrs c.cmd c.kt c.args db.keys
  (x.1, { keys := x.2, ctrs := tally db.ctrs x.1 })

/-- A history of calls on the abstract store. -/
def performAll (env : Env) : List Call → Db → List Answer × Db
  | [], db => ([], db)
  | c :: cs, db =>
    let x := perform env c db
    let y := performAll env cs x.2
    (x.1 :: y.1, y.2)

/-- The requests (each with its response buffer) are, as seen through their accessors, these calls. -/
inductive Sees : List (Request × Bytes) → List Call → Prop
  | nil : Sees [] []
  | cons {r : Request} {resp : Bytes} {c : Call} {rs : List (Request × Bytes)} {cs : List Call} :
    Views r c.cmd c.kt c.args → Sees rs cs → Sees ((r, resp) :: rs) (c :: cs)

end Hop.Spec
