import Verif.Model.Guards

/-!
# Which accesses of a command are exclusive

`Verif.Model.Guards` leaves open which of a command's accesses take a lock exclusively though they change nothing. Here it
is as the code has it: `DashMap::get` and `contains_key` take the lock of the key's shard shared, `get_mut`, `insert`
and `remove` take it exclusively (`dashmap` 3.11), whether the key exists or not.
-/

namespace Hop

/-- Whether the next access of a command is exclusive, if `seen` is what it has found so far (the last first).

* `key_or_insert_with` calls `get_mut` and `insert`, and `remove` is exclusive (engine/src/state/mod.rs 106-108, 180-191):
  the counters (increment_by.rs 14 and 30), Delete (delete.rs 14-17).
* Append and Set without a key type ask for the type first, shared (append.rs 64-67, set.rs 134-137, state/mod.rs 207-209); then
  append.rs 16, 29 and 45, set.rs 13-14 and so on.
* Rename asks for both keys, shared, and then removes and inserts (rename.rs 17-26).
* The others use `contains_key`, `key_type` and `key_ref` (state/mod.rs 70-72, 128-136, 207-209). -/
def exclusive (c : CommandId) (kt : Option KeyType) (seen : List (Option Value)) : Bool :=
  match c with
  | .append | .set => kt.isSome || !seen.isEmpty
  | .decrement | .decrementBy | .increment | .incrementBy | .delete => true
  | .rename => decide (2 ≤ seen.length)
  | _ => false

/-- A command dispatched by a thread that may hold guards, and what the thread goes on with. `Hop::dispatch`,
engine/src/hop.rs 170-197. -/
noncomputable def GProg.dispatch (env : Env) (r : Request) (resp : Bytes) (next : Outcome DispatchError Bytes → GProg) : GProg :=
  GProg.ofProg (exclusive r.commandId r.keyType) [] (Hop.dispatch env r resp) next

end Hop
