import Verif.Model.Client

/-!
# Collections given to `set(key).map(..)` and `set(key).set(..)`

client/src/request/set/mod.rs and the two request types it makes, with the in-memory backend. The other `set(key).<type>(..)` take
their argument as it is (`Client.setTyped`). How the requests are polled is in `Verif.Model.Futures`.
-/

namespace Hop.Client

/-- client/src/request/set/mod.rs 189-195 (`map`): `FromIterator::from_iter` of a `DashMap` inserts the entries one after
the other. -/
def collectMap (entries : List (Bytes × Bytes)) : BMap := entries.foldl (fun m e => m.insert e.1 e.2) []

/-- `set(key).map(entries)`: client/src/request/set/mod.rs 189-195 and client/src/request/set/set_map.rs 41-62. -/
def setMap (env : Env) (key : Bytes) (entries : List (Bytes × Bytes)) : Job Value :=
  setTyped env key (.map (collectMap entries))

/-- client/src/request/set/set_set.rs 49-51: `Value::Set(FromIterator::from_iter(value))`, inserting the items one after
the other. `SetUnconfigured::set` (client/src/request/set/mod.rs 222-224) leaves them as they are: its `FromIterator` is that of
`Vec`. -/
def collectSet (items : List Bytes) : BSet := items.foldl BSet.insert []

/-- `set(key).set(items)`: client/src/request/set/set_set.rs 41-60. The answer is `set.into_iter().collect()`, in the
order of the iterator. -/
def setSet (env : Env) (key : Bytes) (items : List Bytes) : Job (List Bytes) :=
  bind (set env key (.set (collectSet items))) fun
    | .set s => ret (env.setOrd s)
    | _ => panic

end Hop.Client
