import Verif.Model.Dispatch

/-!
# The key space as a library (engine/src/state/mod.rs)

The public functions of `State`, complete with their answers. Those that hand out a guard are modelled
together with what the caller does through the guard (`f`), since the entry stays locked until it is
dropped.
-/

namespace Hop.State

open Prog

/-- A caller of `State`. engine/src/state/mod.rs 70-209. -/
inductive Op where
  | containsKey (k : Bytes)
  | insert (k : Bytes) (v : Value)
  | remove (k : Bytes)
  | keyRef (k : Bytes)
  | keyMut (k : Bytes) (f : Value → Value)
  | keyOrInsertWith (k : Bytes) (mk : Value) (f : Value → Value)
  | keyType (k : Bytes)

/-- What it is answered: for guards, the value behind the guard. engine/src/state/mod.rs 70-209. -/
inductive Ans where
  | bool (b : Bool)
  | value (v : Option Value)
  | type (t : Option KeyType)
deriving DecidableEq

/-- engine/src/state/mod.rs 70-72 (`contains_key`), 86-88 (`insert`), 106-108 (`remove`), 128-136
(`key_ref`), 142-150 (`key_mut`), 169-192 (`key_or_insert_with`), 207-209 (`key_type`). -/
def Op.prog (env : Env) : Op → Prog Ans
  | .containsKey k => Hop.containsKey k fun b => done (.ok (.bool b))
  | .insert k v => onKey k (fun _ => some v) fun o => done (.ok (.value o))
  | .remove k => removeKey k fun o => done (.ok (.value o))
  | .keyRef k => Hop.keyRef env k fun o => done (.ok (.value o))
  | .keyMut k f =>
    if isInternal k then done .panic
    else if env.mode = .debug ∧ k = [] then done .panic
    else onKey k (fun o => o.map f) fun o => done (.ok (.value o))
  | .keyOrInsertWith k mk f => Hop.keyOrInsertWith env k mk fun v => (f v, .ok (.value (some v)))
  | .keyType k => keyTypeOf k fun o => done (.ok (.type o))

end Hop.State
