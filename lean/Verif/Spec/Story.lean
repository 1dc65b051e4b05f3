import Verif.Spec.Moving

/-! # Specification of where stored values come from -/

namespace Hop.Spec

/-- What a call that succeeds makes of the value of its key. -/
def effect (env : Env) (c : Call) (v : Value) : Option Value :=
  match c.args[0]? with
  | none => none
  | some k =>
    match execute env (fun _ => none) c.cmd c.kt c.args (fun k' => if k' = k then some v else none) with
    | (.value _, s) => s k
    | _ => none

/-- What a value began as: what a key held at first, or the default value of a type. -/
inductive Base where
  | initial (k : Bytes)
  | fresh (t : KeyType)

/-- How a value came about: what it began as, and which calls then worked on it, in order. -/
structure Story where
  base : Base
  deeds : List Nat

/-- The value a story begins with. -/
def Story.begins (before : Store) (s : Story) : Option Value :=
  match s.base with
  | .initial k => before k
  | .fresh t => some (.default t)

/-- The value a story leads to. -/
def Story.leads (env : Env) (cs : List Call) (before : Store) (s : Story) : Option Value :=
  s.deeds.foldl (fun v i => v.bind fun v => cs[i]?.bind fun c => effect env c v) (s.begins before)

/-- A call that gives a missing key the default value of type `t`. -/
def Makes (c : Call) (t : KeyType) : Prop :=
  match c.cmd with
  | .increment | .decrement | .incrementBy | .decrementBy => t = .integer
  | .append | .set => c.kt = none ∨ c.kt = some t
  | _ => False

/-- `story` tells how everything that is stored came about: no call has worked twice on a value or on two values,
nothing has become two values, and no call has worked on any that reports an error or is not a
counter command, Append or Set. Keys that no Rename moves
anything to hold what they held at first or something new made by a call naming them, and only calls naming them have
worked on it. -/
structure Chronicle (env : Env) (cs : List Call) (before : Store) (threads : List (Prog Bytes)) (now : Store)
    (story : Bytes → Story) : Prop where
  leads : ∀ k v, now k = some v → (story k).leads env cs before = some v
  once : ∀ k, now k ≠ none → (story k).deeds.Nodup
  apart : ∀ k k', now k ≠ none → now k' ≠ none → k ≠ k' → ∀ i ∈ (story k).deeds, i ∉ (story k').deeds
  single : ∀ k k' b, now k ≠ none → now k' ≠ none → (story k).base = .initial b → (story k').base = .initial b → k = k'
  fine : ∀ k i, now k ≠ none → i ∈ (story k).deeds →
    (∃ c t, cs[i]? = some c ∧ Makes c t) ∧ ∀ e, threads[i]? ≠ some (.done (.err e))
  made : ∀ k t, now k ≠ none → (story k).base = .fresh t → ∃ c ∈ cs, Makes c t
  home : ∀ k, now k ≠ none → (∀ c ∈ cs, target c ≠ some k) → (∀ b, (story k).base = .initial b → b = k) ∧
    (∀ t, (story k).base = .fresh t → ∃ c ∈ cs, Makes c t ∧ c.args[0]? = some k) ∧
    ∀ i ∈ (story k).deeds, ∃ c, cs[i]? = some c ∧ c.args[0]? = some k

end Hop.Spec
