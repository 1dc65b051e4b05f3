import Verif.Model.Futures

/-!
# Specification of requests

What a chain of calls on the client asks for, and what somebody polling a single call of the backend sees.
-/

namespace Hop.Spec

open Client.Futures

/-- What the user of the library wrote: `client.get(k)`, `client.get(k).int()`, `client.set(k).value(v)`,
`client.set(k).list(l)`, `client.increment(k).int().by(n).by(m)`, `client.length(k).list().map()`, ... -/
inductive Chain where
  | append (k : Bytes) (v : Value)
  | decrement (k : Bytes)
  | decrementAs (k : Bytes) (t : KeyType) (amounts : List Value)
  | delete (k : Bytes)
  | echo (c : Bytes)
  | existsKey (k : Bytes)
  | existsKeys (ks : List Bytes)
  | get (k : Bytes)
  | getAs (k : Bytes) (t : KeyType)
  | increment (k : Bytes)
  | incrementAs (k : Bytes) (t : KeyType) (amounts : List Value)
  | isKey (t : KeyType) (k : Bytes)
  | isKeys (t : KeyType) (ks : List Bytes)
  | keyType (k : Bytes)
  | keys (k : Bytes)
  | length (k : Bytes) (types : List KeyType)
  | rename (a b : Bytes)
  | set (k : Bytes) (v : Value)
  | setAs (k : Bytes) (v : Value)
  | stats

/-- Running the chain with the functions of the library. `none` is a panic, `some (.error e)` a refusal. -/
def Chain.write (S : Type) : Chain → Option (Except Client.ConfigError (ClientRequest S))
  | .append k v => some (.ok (Client.Futures.appendAs k v))
  | .decrement k => some (.ok (ofKey .decrement k))
  | .decrementAs k t amounts => (Client.Futures.decrementAs (ofKey .decrement k) t).map fun r => .ok (amounts.foldl byAmount r)
  | .delete k => some (.ok (ofKey .delete k))
  | .echo k => some (.ok (ofKey .echo k))
  | .existsKey k => some (.ok (Client.Futures.existsKey k))
  | .existsKeys ks => some (Client.Futures.existsKeys ks)
  | .get k => some (.ok (ofKey (.get none) k))
  | .getAs k t => (Client.Futures.getAs (ofKey (.get none) k) t).map .ok
  | .increment k => some (.ok (ofKey .increment k))
  | .incrementAs k t amounts => (Client.Futures.incrementAs (ofKey .increment k) t).map fun r => .ok (amounts.foldl byAmount r)
  | .isKey t k => some (.ok (Client.Futures.isKey t k))
  | .isKeys t ks => some (Client.Futures.isKeys t ks)
  | .keyType k => some (.ok (ofKey .keyType k))
  | .keys k => some (.ok (ofKey .keys k))
  | .length k types => some (.ok (types.foldl withType (ofKey .length k)))
  | .rename a b => some (.ok (Client.Futures.rename a b))
  | .set k v => some (.ok (Client.Futures.setValue k v))
  | .setAs k v => some (.ok (Client.Futures.setAs k v))
  | .stats => some (.ok Client.Futures.stats)

/-- The amount that counts: the last one given, or the number one (as a double: sign 0, exponent 0, which is
stored as 1023, and no fraction bits). -/
def lastAmount (t : KeyType) (amounts : List Value) : Value :=
  match amounts.getLast? with
  | some v => v
  | none => if t = .float then .float ⟨1023 * 2 ^ 52⟩ else .integer 1

/-- The call of the backend a chain asks for. -/
def Chain.asks : Chain → Api
  | .append k v => .append k v
  | .decrement k => .decrement k none
  | .decrementAs k t amounts => .decrementBy k (lastAmount t amounts)
  | .delete k => .delete k
  | .echo k => .echo k
  | .existsKey k => .exists [k]
  | .existsKeys ks => .exists ks
  | .get k => .get k
  | .getAs k _ => .get k
  | .increment k => .increment k none
  | .incrementAs k t amounts => .incrementBy k (lastAmount t amounts)
  | .isKey t k => .is t [k]
  | .isKeys t ks => .is t ks
  | .keyType k => .keyType k
  | .keys k => .keys k
  | .length k types => .length k types.getLast?
  | .rename a b => .rename a b
  | .set k v => .set k v
  | .setAs k v => .set k v
  | .stats => .stats

/-- The type the answer must have, for chains that name one. -/
def Chain.expects : Chain → Option KeyType
  | .append _ v | .setAs _ v => some v.kind
  | .decrementAs _ t _ | .incrementAs _ t _ | .getAs _ t => some t
  | _ => none

/-- Keys given to a chain that can be refused. -/
def Chain.checked : Chain → Option (List Bytes)
  | .existsKeys ks | .isKeys _ ks => some ks
  | _ => none

/-- What is made of an answer when a type is expected. -/
def judged {ε} (t : Option KeyType) : Poll (Except ε Got) → Poll (Except ε Got)
  | .ready (.ok (.value v)) => if t.all (fun t => decide (v.kind = t)) then .ready (.ok (.value v)) else .panic
  | .ready (.ok g) => if t.isNone then .ready (.ok g) else .panic
  | p => p

/-- The state to go on from after a poll, if there is one. -/
def onward {α S : Type} : Poll α → S → Option S
  | .pending, s => some s
  | _, _ => none

/-- Polling one future of the backend `n` times: the results and the world afterwards. After it has ended it
is left alone, and every further poll is a panic. -/
def watch {σ ε} (B : Backend σ ε) (t : Option KeyType) : Nat → Option B.State → σ → List (Poll (Except ε Got)) × σ
  | 0, _, w => ([], w)
  | n + 1, none, w => (.panic :: (watch B t n none w).1, w)
  | n + 1, some s, w =>
    let p := B.poll s w
    let rest := watch B t n (onward p.1 p.2.1) p.2.2
    (judged t p.1 :: rest.1, rest.2)

/-- The first poll of a call that runs to its end at once. -/
def atOnce {ε} : Outcome DispatchError (Except ε Got) → Poll (Except ε Got)
  | .ok r => .ready r
  | _ => .panic

/-- Polling a request `n` times. -/
def pollTimes {σ ε} (B : Backend σ ε) :
    Nat → ClientRequest B.State → σ → List (Poll (Except ε Got)) × ClientRequest B.State × σ
  | 0, r, w => ([], r, w)
  | n + 1, r, w =>
    let p := r.poll B w
    let rest := pollTimes B n p.2.1 p.2.2
    (p.1 :: rest.1, rest.2)

end Hop.Spec
