import Verif.Spec.Client

/-!
# Specification of the client's server backend

Which bytes a call of the client sends to the server, and when it is refused before anything is sent.
-/

namespace Hop.Spec

/-- Wrap the result of a call on the server backend. -/
def wrapRemote {α} (f : α → Got) (r : Client.Server.Job α) : Client.Server.Job Got :=
  (r.1, match r.2 with
    | .ok a => .ok (f a)
    | .err e => .err e
    | .panic => .panic
    | .stuck => .stuck)

/-- The call as executed by the server backend, with anything in place of the exchange with the server. -/
def Api.serveBy (env : Env) (send : Builder → Client.Server.Job Value) : Api → Client.Server.Job Got
  | .append k v => wrapRemote .value (Client.Server.append env send k v)
  | .decrementBy k v => wrapRemote .value (Client.Server.decrementBy env send k v)
  | .decrement k t => wrapRemote .value (Client.Server.decrement env send k t)
  | .delete k => wrapRemote .bytes (Client.Server.delete env send k)
  | .echo x => wrapRemote .list (Client.Server.echo env send x)
  | .exists ks => wrapRemote .bool (Client.Server.exists env send ks)
  | .get k => wrapRemote .value (Client.Server.get env send k)
  | .incrementBy k v => wrapRemote .value (Client.Server.incrementBy env send k v)
  | .increment k t => wrapRemote .value (Client.Server.increment env send k t)
  | .is t ks => wrapRemote .bool (Client.Server.is env send t ks)
  | .keyType k => wrapRemote .kind (Client.Server.keyType env send k)
  | .keys k => wrapRemote .list (Client.Server.keys env send k)
  | .length k t => wrapRemote .int (Client.Server.length env send k t)
  | .rename a b => wrapRemote .bytes (Client.Server.rename env send a b)
  | .set k v => wrapRemote .value (Client.Server.set env send k v)
  | .stats => wrapRemote .stats (Client.Server.stats send)

/-- The call as executed by the server backend on a connection, with a budget for the reading loop. -/
def Api.serve (env : Env) (fuel : Nat) (c : Client.Server.Conn) (a : Api) : Client.Server.Job Got :=
  a.serveBy env (Client.Server.sendAndWait env.mode fuel c)

/-- The command a call sends: the one it stands for, except that `increment` forgets its key type. -/
def Api.remote (env : Env) : Api → Call
  | .increment k _ => ⟨.increment, none, [k]⟩
  | a => a.call env

/-- The bytes of a command on the wire; Stats has no argument count. -/
def Call.wire (c : Call) : Bytes :=
  if c.cmd = .stats then encodeHead c.cmd c.kt else encode c.cmd c.kt c.args

/-- The error of a call that is refused before anything is sent. Unlike with the in-memory backend,
`increment_by` looks at the value before the key. -/
def Api.refusalRemote : Api → Option Client.Server.Error
  | .append k v =>
    if k = [] then some (.buildingRequest .argumentEmpty)
    else if !appendable v.kind then some (.keyTypeUnsupported v.kind)
    else if hollow v then some (.buildingRequest .argumentEmpty) else none
  | .decrementBy k v =>
    if k = [] then some (.buildingRequest .argumentEmpty)
    else if !numeric v.kind then some (.keyTypeUnsupported v.kind) else none
  | .incrementBy k v =>
    if !numeric v.kind then some (.keyTypeUnsupported v.kind)
    else if k = [] then some (.buildingRequest .argumentEmpty) else none
  | .set k v =>
    if k = [] then some (.buildingRequest .argumentEmpty)
    else if hollow v then some (.buildingRequest .valueEmpty) else none
  | .rename a b => if a = [] ∨ b = [] then some (.buildingRequest .argumentEmpty) else none
  | .exists ks | .is _ ks => if [] ∈ ks then some (.buildingRequest .argumentEmpty) else none
  | .decrement k _ | .delete k | .echo k | .get k | .increment k _ | .keyType k | .keys k | .length k _ =>
    if k = [] then some (.buildingRequest .argumentEmpty) else none
  | .stats => none

/-- What a call makes of the value of a response: the value as the call's result, or an error. The number of a type is
taken modulo 256. -/
def Api.reads (a : Api) (v : Value) : Outcome Client.Server.Error Got :=
  match a, v with
  | .keyType _, .integer i =>
    match KeyType.ofByte (UInt8.ofNat (i.toInt % 256).toNat) with
    | some t => .ok (.kind t)
    | none => .err (.keyTypeInvalid (UInt8.ofNat (i.toInt % 256).toNat))
  | a, v =>
    match a.understood v with
    | some g => .ok g
    | none => .err .badResponse

/-- What an exchange with the server would hand over for the engine's answer: the value with maps and sets in some order,
the engine's error, or nothing but a closed connection. -/
def handed (env : Env) : Answer → Outcome Client.Server.Error Value
  | .value v => .ok (orderedValue env v)
  | .error e => .err (.dispatching e)
  | .crash => .err .connectionClosed

end Hop.Spec
