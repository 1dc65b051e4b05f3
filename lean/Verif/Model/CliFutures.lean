import Verif.Model.Errors
import Verif.Model.Futures

/-!
# Processing a line with any backend (cli/lib/src/process.rs)

`Cli.process` is `process` with the in-memory backend. Here it is as the code has it: an `async fn`, generic in the
backend.
-/

namespace Hop.Cli

open Client.Futures Spec

/-- What `process_inner` (cli/lib/src/process.rs 203-334) has decided when it reaches its `.await`, or ends without
one: to wait for a request, to fail, to return a text, or to panic. -/
inductive Plan (S : Type) where
  | send (r : ClientRequest S)
  | fail (f : Fault)
  | text (t : Text)
  | panic

/-- `Option::ok_or_else(..)?`. As in cli/lib/src/process.rs 203-334. -/
def Plan.needing {S α : Type} (o : Option α) (f : Fault) (k : α → Plan S) : Plan S :=
  match o with
  | some a => k a
  | none => .fail f

/-- `exists().keys(..)` and `is(..).keys(..)?`: cli/lib/src/process.rs 246-254, 283 and 101-108. -/
def Plan.checked {S : Type} (r : Except Client.ConfigError (ClientRequest S)) : Plan S :=
  match r with
  | .ok r => .send r
  | .error .noKeys => .fail .keyRequiredMinimum
  | .error .tooManyKeys => .fail .tooManyArguments

/-- cli/lib/src/process.rs 203-334 (`process_inner`), up to the `.await`. -/
def plan (S : Type) (r : Request) : Plan S :=
  match r.commandId with
  | .decrement => .needing r.key .keyUnspecified fun k => .send (ofKey .decrement k)
  | .delete => .needing r.key .keyUnspecified fun k => .send (ofKey .delete k)
  | .echo =>
    match r.argsFrom 0 with
    | some args => .send (ofKey .echo (joinWith 32 args))
    | none => .text []
  | .exists => .needing (r.argsFrom 0) .keyUnspecified fun args => .checked (existsKeys args)
  | .get => .needing r.key .keyUnspecified fun k => .send (ofKey (.get none) k)
  | .increment => .needing r.key .keyUnspecified fun k => .send (ofKey .increment k)
  | .is => .needing r.keyType .keyTypeRequired fun t => .needing (r.argsFrom 0) .tooFewArguments fun args =>
      .checked (isKeys t args)
  | .keys => .needing r.key .keyUnspecified fun k => .send (ofKey .keys k)
  | .rename => .needing r.key .keyDestinationRequired fun src => .needing (r.arg 1) .keySourceRequired fun dst =>
      .send (rename src dst)
  | .stats => .send stats
  | .type => .needing r.key .keyUnspecified fun k => .send (ofKey .keyType k)
  | .append | .decrementBy | .incrementBy | .length | .set => .panic

/-- cli/lib/src/process.rs 203-334 (`process_inner`), after the `.await`; `none` is a panic. In Rust the type of the
result goes with the command; the last line is for the other combinations, which do not exist there. -/
def printed (env : Env) (std : Std) : CommandId → Got → Option Text
  | .decrement, .value v | .get, .value v | .increment, .value v => value env std v
  | .delete, .bytes b | .rename, .bytes b => some (std.lossy b)
  | .echo, .list l => some (joinWith ' ' (l.map std.lossy))
  | .exists, .bool b | .is, .bool b => some (showBool b)
  | .keys, .list l => some (joinWith '\n' (l.map std.lossy))
  | .stats, .stats m => some
      ("Commands successful: ".toList ++ showInt (Client.statsInt m .commandsSuccessful) ++ ['\n'] ++
        "Commands errored: ".toList ++ showInt (Client.statsInt m .commandsErrored) ++ ['\n'] ++
        "Sessions started: ".toList ++ showInt (Client.statsInt m .sessionsStarted) ++ ['\n'] ++
        "Sessions ended: ".toList ++ showInt (Client.statsInt m .sessionsEnded))
  | .type, .kind t => some (typeName t)
  | _, _ => none

/-- cli/lib/src/process.rs 167-201 (`backend_err`) and its use in `process` (119-163): `b.downcast::<MemoryError>()` is
`asMemory`. The error handed on is the one received. -/
def failed {ε : Type} (asMemory : ε → Option Client.Error) (e : ε) : Except (ProcessError ε) Text :=
  match asMemory e with
  | some m => .ok (fault m).message
  | none => .error (.backend e)

/-- The future `process(client, input)`: not polled yet, waiting for a request, or over. cli/lib/src/process.rs
110-165. -/
inductive Processing (S : Type) where
  | fresh (input : Text)
  | waiting (c : CommandId) (r : ClientRequest S)
  | over

variable {σ ε : Type}

/-- Polling it while it waits for a request. The `.await`s of cli/lib/src/process.rs 203-334. -/
def awaitRequest (env : Env) (std : Std) (asMemory : ε → Option Client.Error) (B : Backend σ ε) (c : CommandId)
    (r : ClientRequest B.State) (w : σ) : Poll (Except (ProcessError ε) Text) × Processing B.State × σ :=
  match r.poll B w with
  | (.pending, r', w') => (.pending, .waiting c r', w')
  | (.ready (.ok g), _, w') =>
    match printed env std c g with
    | some t => (.ready (.ok t), .over, w')
    | none => (.panic, .over, w')
  | (.ready (.error e), _, w') => (.ready (failed asMemory e), .over, w')
  | (.panic, _, w') => (.panic, .over, w')

/-- cli/lib/src/process.rs 110-165 (`process`), polled once. -/
def Processing.poll (env : Env) (std : Std) (asMemory : ε → Option Client.Error) (B : Backend σ ε) :
    Processing B.State → σ → Poll (Except (ProcessError ε) Text) × Processing B.State × σ
  | .fresh input, w =>
    match parse env.mode std input with
    | .ok req =>
      match plan B.State req with
      | .send r => awaitRequest env std asMemory B req.commandId r w
      | .fail f => (.ready (.ok f.message), .over, w)
      | .text t => (.ready (.ok t), .over, w)
      | .panic => (.panic, .over, w)
    | .err e => (.ready (.error (.parsingInput e)), .over, w)
    | _ => (.panic, .over, w)
  | .waiting c r, w => awaitRequest env std asMemory B c r w
  | .over, w => (.panic, .over, w)

end Hop.Cli
