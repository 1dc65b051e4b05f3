# Formal model of hop

The Rust sources of hopdb/hop are read as text and transcribed, function by function, into Lean 4
definitions under `lean/Verif/Model`; every definition cites file and lines and names its
simplifications. Specifications that do not use the model's helpers are in `lean/Verif/Spec`, lemmas in
`lean/Verif/Lemmas`, and the theorems about the properties of `properties.jsonl` in `lean/Verif/Props`
(named after the property: `C17_...`). `MANIFEST.json` lists the theorems of each property.

A property that is false of the code is kept as stated: `Cnn_Statement` is the full statement, `Cnn_false`
its refutation by a concrete witness, `Cnn_..._partial` the strongest true part, and what exactly is
missing is said in the comment. Where possible the exact behaviour is a further property of its own.

## What is modelled

| Lean module (`Verif.Model.`) | Rust |
| --- | --- |
| `Basic`, `Types` | integers, slices, UTF-8; `command_id.rs`, `error.rs`, key types, values, metrics names, `Env` |
| `Request`, `Arguments` | `engine/src/command/request/{mod,builder}.rs` |
| `RequestParser` | `engine/src/command/request/context.rs` |
| `Response` | `engine/src/command/response/mod.rs` (writers) |
| `ResponseParser` | `engine/src/command/response/context.rs` |
| `Prog`, `Locks`, `Guards`, `GuardLocks`, `Dispatch` | `engine/src/state/mod.rs`, `engine/src/command/impl/*.rs`, `Hop::dispatch` |
| `State`, `Value` | the public API of `State` and the accessors of `Value` |
| `Metrics` | `lib/metrics/src/lib.rs` |
| `MetricsThreads`, `MetricLocks` | `lib/metrics/src/lib.rs`, called by several threads: weak pointers, reference count, snapshots shard by shard; the same with locks |
| `Timer` | `lib/timer/src/lib.rs` |
| `Sessions`, `SessionGuards`, `SessionLocks`, `PubSub` | `engine/src/session` (run alone, by several threads, with guards kept by users, with changes that take time), `engine/src/pubsub` |
| `EngineGuards` | `Hop::state` and `Hop::sessions` used by threads that keep guards of both |
| `Hop` | `engine/src/hop.rs` (configuration, builder, the parts together) |
| `HopThreads` | `engine/src/hop.rs`: one engine used at once by threads executing commands, using sessions and subscriptions, and reading metrics |
| `Server` | `server/src/main.rs` (per-connection task) |
| `ServerLive` | `server/src/main.rs`: the tasks of connections that stay open while bytes arrive (writes do not wait; each read takes what has arrived) |
| `ServerFlow` | the same with limited room for what is in transit in both directions, so that writes and clients wait, and with failures |
| `Config`, `PubSubThreads`, `PubSubLocks`, `Handles` | `server/src/main.rs` 23-70 (configuration, accept loop); `engine/src/pubsub` as steps, and with all its locks; subscriptions held by users |
| `Futures` | `client/src/request/**` as hand-written futures, `Client::connect` |
| `SharedConn` | `send_and_wait` of `client/src/backend/server.rs`, called by several tasks that may be dropped |
| `Collections` | `map` and `set` of `client/src/request/set/mod.rs`, `set_map.rs`, `set_set.rs`: how collections are built |
| `Client` | `client/src/backend/{memory,server}.rs`, `client/src/{lib,model}.rs`, `client/src/request/**` |
| `Cli`, `CliFutures` | `cli/lib/src/{parse,process,print}.rs`, `cli/bin/src/main.rs` |
| `Errors` | `Display` and `source` of all errors, `From` implementations of `Value` and `Response` |

### Conventions

* Bytes are `List UInt8`. `usize` lengths and indices are natural numbers: a Rust `Vec` is shorter than
  2^63, so `usize` arithmetic on them cannot overflow (bounds given by a caller can, see `Arguments`). Arithmetic on `u8`, `u16`, `u32`,
  `u64` and `i64`, and every `as` cast, is explicit (wrapping, or a panic in debug builds).
* `i64` is Lean's `Int64`. `f64` is its 64-bit pattern; floating point addition and subtraction are
  parameters (`Env.fadd`, `Env.fsub`) about which nothing is assumed.
* `String` is `List Char`; UTF-8 is Lean core's verified encoder and decoder. C75 states positional
  notation, two's complement and UTF-8 without the model's helpers.
* Build profiles: `Mode.debug` has overflow checks and debug assertions, `Mode.release` neither. Both are
  covered by every theorem unless it says otherwise, because the profiles behave differently.
* A panic is an outcome. A panic while a `DashMap` guard is held drops the guard, so it releases the lock
  and the entry keeps what was written to it so far.
* `DashMap` (the key space) is a function from keys to optional values, and each call, together with the
  lifetime of the guard it returns, is one atomic step on one key. No command makes a second call on the
  key space while it holds a guard. Inner maps and sets are association lists and lists without repetition; the
  order in which they are iterated is an arbitrary permutation (`Env.mapOrd`, `Env.setOrd`).
* A command is a *program* (`Prog`): a tree of atomic steps. Running it to the end is the sequential
  semantics; interleaving the steps of several programs by an arbitrary schedule is the concurrent one.
  Both use the same transcription. The response buffer is unchanged when a command reports an error,
  because every write to it is followed by infallible statements only.
* The loop of `key_or_insert_with` is unbounded in Rust. It gets `Env.spins` rounds; theorems quantify
  over `Env`. Running out of rounds is the separate outcome `stuck`, meaning "still running". That the
  number of rounds makes no difference once it exceeds the operations made is proved (C134).
* An `async` call is the program it executes when awaited. A socket is the stream of bytes received until
  it closes.
* Sessions: the accesses of `add` to shared memory are separate steps (C61). Simplification: an entry's
  lock instead of its shard's, which allows more schedules than the real program has. With guards kept by
  users (`SessionGuards`) which sessions share a lock is a parameter.
* Publish/subscribe: the two halves of `subscribe` (which holds a lock in between) and of `unsubscribe`
  (which does not) are separate steps (C93 to C96); which sessions share a lock is a parameter.
* Subscriptions in the hands of users (`Handles`): of `Arc` and `Weak` the number of pointers; of
  `futures_intrusive`'s channels the numbers of senders and receivers, that the channel closes with `close` or
  with the last sender or receiver, and never opens again. These two are taken from the libraries.
* CLI: `str::parse::<f64>`, `f64::to_string` and `String::from_utf8_lossy` are parameters (`Std`); of the
  last only that valid text is returned unchanged is assumed.

### Not modelled

Sockets, packets and timeouts below the byte stream; what binding a socket does; tokio
scheduling and cancellation (except in `SharedConn`); allocation failure; `DashMap`'s hashing (which keys share a lock is
arbitrary in `Locks`, `Guards`, `GuardLocks`, `PubSubLocks`, `SessionLocks`, `MetricLocks`, `SessionGuards` and
`EngineGuards`); the messages in the channels of subscriptions (nothing in /repo sends any); logging;
derived `Debug` implementations (apart from the names of error variants); tests and benches.

## Trusted base

* Lean 4.33.0's kernel and the axioms listed at the end per theorem: at most `propext`,
  `Classical.choice` and `Quot.sound`. No axioms of this project, no `sorry`, no `native_decide`, no
  `bv_decide`. Concrete examples use `decide` or `decide +kernel`.
* The transcription from Rust, which is manual. As a check on it the project's own unit tests are restated on the model, one `example` per assertion or
  group of assertions, in `Verif/Tests/Engine.lean` and `Verif/Tests/Others.lean`, and all hold. These are tests, not proofs, and no claim rests on them. Left out are
  two tests of the timer that read the real clock, one of closed channels, and assertions about which traits a type has.
* The conventions above, in particular sequentially consistent atomics (the code uses `Ordering::SeqCst` only), and that `DashMap` guards each key by a
  reader-writer lock held for the lifetime of a guard. That each access may then be taken as one step is proved
  for keys and counters (C106), keys of which users keep guards (C171), publish/subscribe (C165), sessions (C167) and metrics (C169).
* No Mathlib module is imported.

## Mutation tests

`seeded/LOG.jsonl` records wrong versions of the model that were tried (in a copy outside this
directory): the definition, the edit, the claim it breaks, the theorems that no longer prove, and what was
tightened because a theorem survived.

## Properties: how they are stated and proved, and what was found

### Requests

* **C01** Invariant over the pushed arguments relating buffer, positions and argument list; the accessors
  are compared with a plain list. Stats drops its arguments: proved as an exception.
* **C113** False and **C114** exact: `args(range)`. `len()` of the iterator is the end of the range, and a range
  that ends before it starts gives all arguments from its start on. The commands use `..` and `1..` only.
* **C02** Layout `Spec.encode` is one line; builder bytes equal it, and equal bytes imply equal command,
  type and arguments.
* **C03** Builder then typed accessors; maps and sets compared as finite maps and sets.
* **C04** False: the 256th argument panics (debug) or makes the count byte 0 (release).
* **C05** False: a list with an empty item after a good one is pushed in part.
* **C06** The parser as a state machine; progress on a prefix is the same on an extension.
* **C07** False: typed frames are refused, parsed requests carry no arguments. Universally negative
  theorem over all buffers beside the true part.
* **C08** False: the last up to four bytes need not have arrived; exact acceptance threshold proved.
* **C09** Termination, exact error characterisation, exact panic characterisation.
* **C49** Exactly which buffers are accepted, as an inductive description of chunks.
* **C146** False: a request taken up again by a builder forgets how many arguments it had; **C147** exactly what becomes
  of it.
* **C75** Request bytes, response bytes and argument readers against positional notation.

### Responses

* **C11** False at the boundaries (empty list, empty set, empty bytes in debug builds, long map keys, long
  set items, more than 65535 items). **C50**: a response survives exactly if it is within the limits.
* **C12** Length header equals what follows, for every writer.
* **C13**, **C14** Chunking; a reader that reads as many bytes as asked reads exactly one response.
* **C15** False: unknown error codes and inconsistent lengths panic. **C51**: exactly which bytes do.
  **C177** (`ResponseAsks`) exactly how many bytes the decoder asks for, **C178** when that is none at all. **C179**
  False: within maps and sets longer than announced it asks for more than it needs.
  **C180** (`ResponseReads`) exactly what the decoder concludes with, from any bytes; with C51 (panics), C127 (errors)
  and C177 every outcome of feeding it any bytes is characterised.
* **C126** False: a response decoder is not reset by an error, so after a text that is not UTF-8 it takes part of
  the next response for a text. **C127** exactly which bytes are refused and how the decoder goes on.
* **C16** Codes and names are one-to-one, over all 256 bytes and all names.
* **C187** `key_notation` says exactly which arguments a command looks up as keys. **C188** is false: Append and Set use more
  arguments than `argument_notation` says. **C189** which arguments are used, exactly (the programs of two requests that agree
  there are equal, so this holds in any schedule), and the four commands whose notation is wrong.

### Commands on one engine, one at a time

* **C48** Refinement: for every history the outcomes, response bytes, keys and counters are those of the
  abstract store `Spec.execute` (a function on `Bytes → Option Value`, not using programs). The other
  properties in this group are corollaries or are proved against the model directly:
* **C17**, **C18**, **C22**, **C23**, **C26**, **C27**, **C52** what set, delete, rename, append and the
  queries do. **C19**, **C20** footprints, by a structural predicate on programs.
* **C21** False: a float increment of a missing key reports an error and creates the key. **C53**: that is
  the only way.
* **C24** counters over histories, with overflow per profile. **C25** False: By-commands refuse floats, a
  float increment of a missing key creates an integer. **C55**: exactly what By-commands accept.
* **C28** statistics; **C29** types change only by set, delete and rename; **C31** exactly when dispatch
  panics; **C56** stored maps and sets have no repetition.
* **C30** False: rename creates, delete and set remove, exists and type reveal internal keys, the others
  panic. **C57**: all ways in which a request can change an internal key.
* **C81**, **C82** the key space as a library: a map; but only three of its seven functions protect
  internal keys.
* **C80** False: `Value::is_string` tests for a boolean.
* **C182** (`CountersAside`) the counters have no influence on keys and answers, by a lockstep relation between two
  executions. `Roomy n db.ctrs` in the other theorems says that counting cannot overflow; the theorems whose names end in
  `_any` do without.
* **C212** (`Verif.Props.ClientRepeat`) and **C213** (`Verif.Props.ClientReorder`) carry C190 and C191 over to calls through an in-memory
  client: a call that is not refused is one request and a way of reading what comes of it that does not depend on the database.
* **C216** (`Verif.Props.ClientGrowth`) carries C198 over to calls through an in-memory client. For tasks, each thread of the pool is
  accompanied by the program of the request it is within, which is replaced when the task begins its next call; what the requests may
  still add is kept account of (`HeldTo` in `Verif.Props.Growth`).
* **C190** the same request again and again (`Verif.Props.Repeat`): by C48, what one execution does to the abstract store, and what a
  second one finds. **C191** requests that have nothing to do with each other, in another order (`Verif.Props.Reorder`): two neighbours
  are exchanged using the keys a request looks at (C187) and the keys it may change (C19); then induction on the exchanges.
* **C192** the values and stores that can be reached from the empty store (`Verif.Props.Storable`): an invariant one way, a program
  that builds the store up the other way. **C196** from any store to any other: deleting all keys first.
  **C207** (`Verif.Props.ClientStores`) the same for calls through an in-memory client, which can be refused, which never leave an empty byte string,
  string or map, but can put empty members into sets and maps. **C208** (`Verif.Props.ClientMidway`) at every moment while tasks share the client: a
  property of values that every operation of every call keeps (`Verif.Lemmas.Stores`); conversely a schedule that builds the store up, empty values by renaming a key while
  it is being set. **C193** (`Verif.Props.Observe`) different stores are told apart by answers; uses the round
  trip of responses (C11). **C210** (`Verif.Props.ClientFinds`) the same for calls through an in-memory client, exactly: a lockstep relation between the programs
  of two executions whose stores differ only in what is hidden, and one or two calls that tell other stores apart. What is hidden is said by what the decoder makes
  of the response with the value, since a response with a long map key can be unreadable.
* **C194** (`Verif.Props.Order`) each command, on stores that are the same up to the order in sets and maps, and with two orders of
  listing them; with C193, what is stored up to order is exactly what can be found out. **C197** (`Verif.Props.OrderThreads`) the same for
  any interleaving and without conditions: a lockstep relation between the programs of two threads, whose operations keep entries the same
  up to order; the lengths written into responses do not depend on the order, though they may wrap or overflow.
* **C198** (`Verif.Props.Growth`) what is stored is bounded by what was sent: each program has a budget it spends by its updates, whatever others
  do in between; the keys it may create are paid for by the request that names them. **C199** (there too) how long answers can be: the
  length of every response that is written, and C198 for the values read.
* **C200** (`Verif.Props.UsersGrowth`) C198 and C199 for the users of C150.
* **C201** (`Verif.Props.Builds`), **C202**, **C203** (`Verif.Props.BuildsAround`): a debug and a release build of the same program. A relation
  between two programs, "the same steps with the same effects and the same end, until the first ends badly", is shown for every command and kept
  by sequencing, from which the client, the command line and the server follow; the converse fails wherever a debug build panics. **C204**
  (`Verif.Props.BuildsClients`) the same for clients that act on answers, who may go on after a panic: "until the first can only end badly".
  **C205** (`Verif.Props.BuildsUsers`) the same for the users of C150, at every moment.
  **C206** (`Verif.Props.AfterPanic`) what is stored and counted after a request has panicked: what was, or what a
  release build would have left, except that a `Set` may have emptied its key.
  **C211** (`Verif.Props.ClientAftermath`) the same seen from a caller of the in-memory client: what is left, told by whether the call
  resolved to an error, to a value, or panicked. Needs that no response written for a value is read as an error.

### Concurrency

Pools of programs, arbitrary schedules, induction over the schedule.

* **C32**, **C37** increments and appends to existing keys are never lost. **C33** False for missing keys:
  a second client that also found the key missing overwrites it; the final value is the sum of a
  non-empty run of the last operations.
* **C34**, **C54** non-interference on disjoint keys. **C58** single-key commands on an existing key are
  linearizable. **C59** only one of several clients deleting or renaming a key away succeeds. **C60**
  statistics are exact.
* **C142** the same for clients that issue many such commands and choose them by the answers, at every moment of
  every execution: the order of the commands that have taken effect only grows (strong linearizability). **C156** the same
  for the commands on some keys while anything happens to the others, Sets, Renames and creations included. **C157**,
  **C158** what follows for the clients: numbers shown of a counter only go up, are up to date and are not given out twice;
  contents that are appended to only grow.
* **C35** False: a set in progress can be seen as a missing key and as the default value; nothing else can
  be seen. **C36** False: rename checks its target before inserting; true if nobody else changes the
  target.
* **C123** what concurrent Renames and Deletes can do to values: a map from values to places (key, underway,
  dropped) is kept injective. **C124** the same idea for all commands: a ghost story (origin and list of calls)
  travels with each value, through the hands of Renames; stories never share a call or an origin.
* **C125** the general statement behind the claims about gaps: a small-step machine (`Spec/Steps.lean`), written
  from the sequential specification of each command and a list of its pauses, and a bisimulation with the pool. **C128** the same for clients that issue many commands.
* **C87** False: of two concurrent Sets with different types one can fail, because it meets the other's
  default value. **C88** exact outcome: the key holds the value of a Set that succeeded; Sets fail only if
  types differ. Hypothesis: as many rounds (`spins + 1`) as there are Sets, so the real, unbounded loop
  ends under every schedule.
* **C89** False: an Append to a missing key can be overwritten. **C90** exact outcome for all commands that
  create a missing key (counters and Appends): as if the last few had been executed one after another.
  **C103** the converse: every such outcome occurs under some schedule, so `n` Increments of a missing key can
  leave exactly 1 to `n`.
* **C104** False: Exists and Is look at several keys one after another, so they can answer true though the keys
  never were there together. **C105** exactly how the answer comes about.
* **C106** the single steps of `Prog` justified: a finer model with shard locks, shared and exclusive guards and
  arbitrary intermediate states of an entry (`Model/Locks`) refines it, and the other way round. Proof: a forward
  simulation that executes reads when the guard is acquired and writes when it is dropped. **C107** no deadlock.
  **C165**, **C166** the same for publish/subscribe (`Model/PubSubLocks`), whose maps contain maps with locks of their own;
  there `subscribe` holds one lock while it waits for another, and everybody returns nevertheless.
  **C167**, **C168** the same for sessions and their guards (`Model/SessionLocks`), **C169**, **C170** for metrics
  (`Model/MetricLocks`), **C171**, **C172** for the key space used by threads that keep guards (`Model/GuardLocks`).
* **C117** guards kept by users of the library (`Verif.Model.Guards`): threads with any programs, holding any
  number of guards. What guards protect; which waiting is for ever; asking for locks in order, or one at a time,
  is enough for all to finish (well-founded induction over the programs). **C129** what each function of the key space
  does at such a moment. **C118** commands dispatched meanwhile:
  on a key that shares a lock with an exclusive guard of the same thread they never answer. **C186** the same with the
  locks each access of each command takes (`Verif.Model.GuardedCommands`): commands that change nothing get past
  shared guards, commands that may change a key never succeed, and a Rename can take a value away and wait for ever
  with it. Proof of "no success": two pools that differ only in what the thread does after a success stay alike. **C195** refusals of
  Append, Set and Rename get past shared guards.
* **C111** which values and errors each command can answer, other threads being arbitrary programs.
* **C134** the bound that the model gives to the loop of `key_or_insert_with` makes no difference.
* **C101** False: Deletes can keep an Increment (Append, Set) in its loop for ever. **C102** exact bound:
  `2 B + 6` operations and one for each argument, if at most `B` concurrent requests remove the key. Proof: a
  budget of removals shared by all threads (`Cuts`) pays for the rounds of the loop (`Lives`).
* **C61** False: concurrent `SessionManager::add` can panic, store a session under an identifier it does
  not carry, and (with removals) hand out an identifier twice, or leave the manager in a state in which every
  later addition panics (`C61_stuck`).
* **C135** to **C138** session guards kept by users (`Verif.Model.SessionGuards`, same steps of `add` as C61): what a
  guard protects; removing a session while its guard is kept never returns; a guard that shares its lock with the next
  number stops all additions; threads that call only without guards can always finish.
* **C183** guards of keys and of sessions in the same hands (`Verif.Model.EngineGuards`, the steps of `Guards` and
  `SessionGuards` over one engine; threads using one part only are shown to do what those models say). **C184** False:
  keeping no guard of the same kind is not enough, two threads can wait for each other across the two parts. **C185** one
  order for all locks is enough (the thread waiting for the highest lock is never blocked by another that waits).
* **C139** fair infinite executions of all of these end: commands (with and without locks), publish/subscribe, guards.
* **C83**-**C86** hold at every moment for any number of *adaptive* clients (`Spec.Client`: the next request
  is any function of the answers so far): maps and sets never repeat, types of existing keys are stable,
  internal keys only vanish, release builds panic on internal keys only. Proof: a relation every atomic
  step respects (`Obeys`), lifted to schedules. A key created meanwhile can change its type
  (`C84_created_false`): the loop of `key_or_insert_with` overwrites what another client has just created.

### Metrics, timer, sessions, publish/subscribe, the engine as a whole

* **C40** counters, gauges, snapshots, dropping. **C120**, **C122** the same with several threads. **C119** False: a
  call under way when the instance is dropped keeps it alive for others. **C121** False: a snapshot is of one moment
  per shard only.
* **C41** the timer with clock readings as inputs; panics
  with negative seconds.
* **C38** sessions over histories, including identifier wrap-around after 2^32 additions.
* Nothing outside the crate can make a `SessionId` (its field is private and no function returns one), so
  publish/subscribe cannot be reached through the public API; it is modelled at its own functions.
* **C39** False: the second or a returning subscriber is told it was subscribed already, and a removed
  session that it unsubscribed. **C62**: the exact answers.
* **C93** False: an unsubscribe overtaken between its two halves by a subscribe of the same session leaves
  the session in the key's set, so a later unsubscribe answers wrongly. Every call takes effect at one
  moment, found by an invariant that relates the maps to the calls that have taken effect and to the locks
  held. **C94** one of concurrent subscribers succeeds; **C95** no deadlock, by running lock holders first;
  **C96** subscriptions are open and not shared.
* **C130 to C133** (`Handles`) subscriptions in the hands of users, with calls from several threads: when weak handles
  can be upgraded (C130), when channels are closed (C132), and that `remove_session` closes them (C133). That
  `unsubscribe` closes them too (C131) is **false**: it only drops the manager's pointer. Proved by counting
  owners: each count equals the number of those who hold something.
* **C76** False: neither the session limit nor the publish/subscribe switch is looked at anywhere. **C77**:
  the configuration is reported and has no effect.
* **C78** Simulation of a mixed history by the separate histories of its parts; **C79** what metrics and
  Stats show after it.
* **C148** Threads of all kinds on one engine: each kind is as if it had the engine to itself (projection of
  schedules and pools), so that everything proved about one kind holds; **C149** counters and readers.
* **C150** Users who make any calls one after the other, reduced to threads with one call each (invariant over the
  schedule that builds the list of calls); **C151** statistics and subscriptions for such users.
* **C152** such users come to their end under every fair schedule (well-founded order on pools of users; whoever
  holds a lock can go on). **C153** what they store is what the requests alone would store, and what follows.
  **C161**–**C164** from this C124 (where values come from), C123 (values moved about), C59 (only one takes a key) and C37
  (appends) for such users.

### Server

* **C10** False and **C63** exact: the parser drops all arguments, so over TCP no byte stream changes or
  reads any key; what is answered to every stream is proved.

* **C154** False: a request is not answered until a newline arrives or the client hangs up. **C155** (`ServerLive`) exactly
  what has been sent when, for connections that stay open: an invariant relates what has arrived, what has been read
  and what has been sent; a measure bounds the turns needed.
* **C174** (`ServerFlow`) with limited room for what is in transit, slow clients and failures change only the pace: a
  simulation by C155's server. **C175** a client that reads is answered in every fair execution, whatever others do; **C176** one
  that reads only after it has sent everything may wait for ever, however much room there is.
  **C181** (`ServerFail`) whatever fails, and whoever does not read, every command heard is finished and counted once.
* **C218** (`ServerLimits`) a connection is sent at most 97 bytes for each line that has arrived, read off C155's invariant;
  what is kept for it is the end of what has arrived, without limit while no newline arrives.
  **C219** (`FlowLimits`) of what is answered, at most 97 bytes wait besides those the system has room for: an invariant over C174's server.
* **C220** (`ServerAlone`) two connections on which the same has arrived are answered the same, whatever else the servers do, but for
  the numbers in statistics: what is heard is determined by what has arrived.

* **C91** host and port from the environment. **C92** False: the first connection that cannot be accepted
  ends the server.

### Client

* **C42**, **C43** False: a map with a 256-byte key is stored but neither returned nor refused; appending an
  empty list to a missing key stores it and panics; reads of reserved keys panic. **C64** and **C65**:
  exactly what calls on the in-memory backend do; **C66** typed requests (float counters never succeed);
  **C68** statistics (`sessions_ended` is always 0). **C47** validation of multi-key requests.
* **C143** maps and sets given entry by entry (`Verif.Model.Collections`): the last value of a key wins, repetitions do not
  count towards the limits of C64.
* **C44** False and **C67** exact: every call on the TCP backend ends in `ConnectionClosed`, because the
  buffer that is read into has length 0; `increment` drops the key type.
* **C145** the calls of the TCP backend around any exchange with the server: bytes out, value in; they agree with the
  in-memory backend (the model's calls take the exchange as a parameter).
* **C116** C63 and C97 put together with C67: whatever clients do over TCP, no key changes and no call succeeds.
* **C97** calls of more than 255 arguments, which C65 and C67 leave out: beyond 255 (debug) or 256 (release)
  they fail and change nothing, nearly always by a panic, because the check made by `set` looks at the number
  of items modulo 256 and the other calls have none. 256 arguments in a release build are carried out.

* **C112** calls of several threads on one in-memory client are, step by step, the engine commands they stand
  for, so everything proved about concurrent requests holds for them. **C144** tasks that make any number of calls, each
  acting on what its earlier calls came to, are served as if by a single task (the proof is C142's, for anything that takes
  effect at one moment: `Verif.Lemmas.Agents`). **C159**, **C160**, **C173** the same as C156, C157 and C158 for such tasks.
  **C209** (`Verif.Props.CallersEnd`) such tasks come to an end: each call names one key first, and looks for it anew only if another task took it away.
* **C98** requests as futures over an arbitrary backend (a state machine): polling a configured request is
  polling one backend call. **C99** when a request can still be given a type. **C100** False: `Client::connect`
  unwraps the result.

* **C140**, **C141** one connection used by several tasks (`Verif.Model.SharedConn`): requests are not mixed up as long as no
  call is dropped; a call dropped while it writes leaves part of its request in front of the next one (C141 is false).

### Command line interface

* **C45**, **C69** lines: Stats loses its arguments, an odd last map key is dropped, more than 255
  arguments panic in debug builds. Every line is parsed or refused for one of five reasons.
* **C46**, **C70** output: the last character of lists and maps is cut off; non-ASCII there and empty
  collections panic. **C71** integers survive being printed and typed in.
* **C72** a line does what the client call does, whatever type it names; append, set, length,
  increment:by and decrement:by panic. **C73** the CLI can only store integers. **C74** the session ends at
  the first line that cannot be parsed.

* **C115** the same for any backend: polling a line is polling the one call it stands for; errors that are not
  those of the in-memory backend are handed on.

* **C214** exactly which stores sessions can bring about: finitely many keys that are words, with integers. (In a
  debug build a session ends by a panic once the statistics cannot count a command, so that every such store
  can be reached is proved under a bound on the lines needed. Keys of 4 GiB and more are left out of that half,
  since a response cannot carry them.)

* **C215** a session is the client calls its lines stand for, one after the other, up to the first panic; the spelling
  of the lines makes no difference.

* **C217** (`Verif.Props.ClientGrowth`) a session stores no more than has been typed, with four bytes for each line.

### Errors and conversions

* **C108** the text of an error determines it, up to quoted values and I/O errors. **C109** False: a builder
  error is not reported as the source of the error about it; the exact list is proved. **C110** `From`
  conversions to values and responses.

## Axioms per theorem

Output of `#print axioms` for every theorem named in MANIFEST.json (prefix `Hop.` left out). Nothing else
occurs: no `sorryAx`, no `Lean.ofReduceBool`, no axiom of this project.

* `Classical.choice`, `Quot.sound`, `propext` (499 theorems): C01_built_request_args, C02_layout, C02_unambiguous, C03_value_round_trip, C04_limit_partial, C04_false, C04_list_map_panic, C06_chunks, C07_command_partial, C07_false, C07_typed_rejected, C07_no_arguments_waits, C08_threshold_partial, C08_false, C09_error_iff, C09_panic_iff, C49_accepted, C11_round_trip_partial, C11_false, C11_empty_list_set, C11_empty_bytes_debug, C11_long_map_key, C11_long_set_item, C11_map_65536_becomes_empty, C12_header_exact, C12_writes, C13_terminates, C13_resume, C13_chunks, C14_reads_exactly, C15_release_partial, C15_false, C50_round_trip_iff, C51_panic_iff, C51_panic_chunked, C17_set_then_get, C18_independent, C18_succeeds, C19_frame, C20_read_only, C21_error_no_change_partial, C21_error_no_change_any_partial, C21_false, C22_delete, C22_delete_missing, C23_rename, C24_counters_count, C24_overflow_debug, C24_decrement_by_min_panics, C25_increment_float_partial, C25_false, C26_split, C26_appends, C27_length, C27_keys, C27_type, C27_exists, C27_is, C27_missing, C28_counts, C28_sum, C28_stats, C29_type_stable, C29_type_stable_any, C30_values_out_of_reach_partial, C30_values_out_of_reach_any_partial, C30_false, C31_panic_iff, C31_built_requests_return, C48_dispatch, C48_keys, C48_history, C48_history_any, C52_set_collections, C52_set_collections_any, C53_error_changes_iff, C53_error_changes_any, C55_by_refuses_non_integers, C55_by_refuses_non_integers_any, C56_well_formed, C56_well_formed_any, C57_reserved_changes, C57_reserved_changes_any, C32_concurrent_counters, C33_missing_counter_partial, C33_increments_partial, C33_false, C34_no_interference, C35_seen_partial, C35_get_partial, C35_false, C36_success_partial, C36_false, C37_concurrent_appends, C54_untouched, C54_untouched_always, C58_linearizable, C58_finishes, C59_at_most_one_taker, C59_exactly_one_taker, C60_concurrent_statistics, C38_in_order, C38_distinct, C39_answers_partial, C39_false, C39_second_subscriber, C39_returning_subscriber, C39_ghost_unsubscribe, C39_subscriptions, C40_snapshot, C41_timer, C41_parse_timespec, C62_pubsub_exact, C10_replies_partial, C10_false, C63_no_key_changes, C63_replies, C63_heard_unique, C42_set_get_partial, C42_false, C43_no_panic_partial, C43_false, C43_witnesses, C43_reserved_panics, C47_accepted, C64_set_resolves_iff, C65_refused, C65_answered, C65_shape, C66_get_hit, C66_get_miss, C66_set, C66_append_kind, C66_append, C66_increment_int, C66_increment_float_corrupts, C66_increment_float_never, C66_decrement_float_never, C68_stats, C44_decodes_partial, C44_false, C67_refused, C67_closed, C67_unwritable, C45_parsed_partial, C45_false, C45_rejected, C46_list_partial, C46_map_partial, C46_panics, C46_false, C69_every_line, C70_list, C70_map, C71_integers, C72_line, C72_effect, C73_session, C73_fresh, C74_stops, C74_end, C74_continues, C75_request_bytes, C75_response_bytes, C75_reads_integer, C75_reads_float, C75_reads_text, C76_default_partial, C76_sessions, C76_pubsub, C76_false, C77_no_effect, C78_independent, C79_statistics, C81_is_a_map, C82_guarded_partial, C82_false, C83_well_formed_always, C84_type_stable_always, C84_created_false, C85_reserved_only_vanish, C85_reserved_stay, C86_release_calm, C87_sets_of_one_type_partial, C87_false, C88_concurrent_sets, C89_concurrent_appends_partial, C89_false, C90_concurrent_creation, C93_one_moment_partial, C93_false, C94_one_subscriber, C96_open_and_apart, C97_too_many, C97_nothing_sent, C97_panics, C97_at_256, C98_memory, C101_bounded_partial, C101_false, C102_finishes, C102_starved, C102_clients, C103_any_can_be_lost, C103_increments, C104_moment_partial, C104_false, C105_in_order, C106_one_step, C106_moments, C106_all_possible, C107_no_deadlock, C107_can_finish, C108_memory, C108_server, C108_refusals, C110_response, C110_errors, C111_answers, C111_wrong, C112_calls, C112_refused, C112_counters, C113_in_range_partial, C113_false, C113_len_false, C115_line, C115_refused, C115_memory, C116_no_success, C116_remote, C117_guards, C117_protects, C117_shared, C117_reads, C117_written, C117_deadlock, C117_ordered, C117_can_finish, C117_one_at_a_time, C118_own_guard, C118_shared_guard, C118_orderly, C118_out_of_the_way, C119_dropped_partial, C120_answers, C120_counter, C120_read, C122_snapshot, C122_meanwhile, C123_accounts, C123_nothing_lost, C124_chronicle, C124_never_overcounts, C125_machine, C125_one, C126_ready_partial, C126_false, C127_error_iff, C127_after_type, C127_after_text, C128_clients, C129_waits, C129_short, C129_guards, C129_unusable, C129_use, C129_or_insert, C129_or_insert_alone, C130_handles, C131_unsubscribed_partial, C132_closed_exactly, C133_removed_closed, C134_bounds, C138_can_finish, C139_clients, C139_locks, C139_pubsub, C139_guards, C139_sessions, C140_whole_requests, C141_beginnings_partial, C141_false, C142_one_after_the_other, C142_finishes, C143_map_iff, C143_map_stored, C143_set_iff, C143_set_stored, C144_one_after_the_other, C144_finishes, C144_calls, C145_reads, C145_given, C146_false, C146_shown_partial, C147_taken_up, C147_cut_short, C148_pubsub, C148_sessions, C148_commands, C149_statistics, C149_reading, C150_threads, C151_statistics, C151_open_and_apart, C151_one_subscriber, C151_sessions_apart, C152_all_end, C152_answered, C153_requests, C153_well_formed, C153_type_stable, C153_untouched, C153_reserved, C153_calm, C153_counters, C154_newline_partial, C154_false, C155_sent, C155_rest, C155_counts, C155_soon, C155_silence, C155_keys, C156_as_if_alone, C157_counters_advance, C158_contents_extend, C159_as_if_alone, C160_counters_advance, C161_chronicle, C161_never_overcounts, C162_accounts, C162_nothing_lost, C163_one_taker, C164_appends, C165_one_step, C165_moments, C165_all_possible, C166_no_deadlock, C166_can_finish, C166_all_return, C167_moments, C167_one_step, C168_deadlock, C168_can_finish, C168_all_finish, C169_moments, C169_one_step, C169_all_possible, C170_no_deadlock, C170_can_finish, C170_all_return, C171_moments, C171_one_step, C171_guarded, C172_deadlock, C172_can_finish, C172_all_finish, C173_contents_extend, C174_as_unhindered, C174_read, C174_rest, C174_all_possible, C175_answered, C175_room, C176_stall, C176_never, C177_asks, C177_asks_chunked, C177_incomplete, C177_frame, C178_asks_for_nothing, C179_announced_partial, C179_false, C180_concludes, C180_concludes_chunked, C180_header_is_a_minimum, C180_unambiguous, C181_counts, C182_keys, C182_outcome, C182_history, C182_concurrent, C183_guards, C183_protects, C183_reads_key, C183_reads_session, C183_written_key, C183_written_session, C183_deadlock, C184_partial, C184_false, C185_ranked, C185_keys_first, C185_sessions_first, C185_commands, C185_fair, C185_fair_keys_first, C185_fair_sessions_first, C186_reads, C186_waits, C186_no_success, C186_rename_loses, C186_ordered, C187_keys, C187_each, C188_partial, C188_false, C189_used, C189_needed, C190_keys, C190_answers, C190_refused, C190_once, C190_accumulating, C191_reordered, C191_any_order, C191_concurrent, C191_needed, C192_only, C192_all, C192_exactly, C192_only_stores, C192_rebuild, C192_stores, C193_told_apart, C193_beyond_order, C194_order, C194_exactly, C195_refused, C196_anywhere, C196_undo, C197_interleaved, C197_history, C198_history, C198_at_once, C199_reply, C199_at_once, C200_stored, C200_answers, C201_request, C201_history, C201_at_once, C202_decoder, C203_call, C203_calls_at_once, C203_remote, C203_lines, C203_server, C204_clients, C204_tasks, C205_users, C206_debug, C206_release, C207_only, C207_anywhere, C207_stores, C207_undo, C208_always, C208_stays, C208_stores, C209_resolves, C209_fair, C210_exact, C210_hidden, C210_calls, C210_told, C210_unnoticed, C211_error, C211_value, C211_panic_release, C211_panic_debug, C212_error, C212_keys, C212_results, C212_once, C213_reordered, C213_any_order, C213_concurrent, C213_needed, C214_only, C214_every, C214_stores, C215_session, C215_same, C215_all, C216_calls, C216_tasks, C217_session, C218_sent, C218_kept, C218_no_limit, C218_read, C219_waits, C219_answered, C220_alone, C220_same_bytes, C220_slow.
* `Quot.sound`, `propext` (59 theorems): C01_new, C01_stats_argument_lost, C04_overflow, C06_resume, C06_waiting, C07_nothing_but_command, C09_terminates, C16_commands, C16_key_types, C16_response_types, C16_dispatch_errors, C16_parse_errors, C16_names, C24_total_exact, C38_sessions, C38_counted, C38_wraps, C40_metrics, C61_distinct_partial, C61_false, C61_panics, C61_wrong_id, C61_reused, C61_stuck, C63_pieces, C77_reports, C82_open, C91_port, C91_host, C92_until_failure_partial, C92_false, C95_no_deadlock, C98_configured, C98_one_call, C99_types_after_poll, C108_parse, C108_process, C109_sources_partial, C114_backwards, C114_limits, C114_commands, C120_gauge_from, C120_gauge_last, C121_snapshot_partial, C121_false, C135_guards, C135_protects, C135_reads, C135_written, C135_returned, C135_at_most, C136_deadlock, C136_remove_own, C137_additions_stop, C147_again, C167_all_possible, C171_all_possible, C183_sessions_only, C202_builder.
* `propext` (20 theorems): C05_unchanged_partial, C05_false, C38_once, C47_checked, C80_accessors_partial, C80_string, C80_false, C92_unbound, C100_false, C109_false, C110_value, C110_every, C114_len, C114_none, C119_false, C131_false, C183_keys_only, C189_declared, C202_arguments, C208_wider.
* no axioms (5 theorems): C16_command_codes_below_128, C41_negative_seconds, C100_connected_partial, C108_config, C202_counting.
