import Verif.Props.Builds
import Verif.Spec.ClientServer
import Verif.Model.Arguments
import Verif.Model.Sessions
import Verif.Model.Server
import Verif.Props.Cli

/-!
# Building requests, reading responses, the clients, the command line and the server in debug and release builds (C202, C203)
-/

namespace Hop

open Prog Spec

/-! ## The builder -/

private theorem pushArgument_alike {b b' : Builder} {arg : Bytes} (h : b.pushArgument .debug arg = some b') : b.pushArgument .release arg = some b' := by
  simp only [Builder.pushArgument] at h ⊢
  cases ha : addU .debug 8 b.argumentCount 1 with
  | none => rw [ha] at h; cases h
  | some n => rw [ha] at h; rw [addU_alike ha]; exact h

private theorem pushAll_alike (l : List Bytes) : ∀ {b : Builder}, (b.pushAll .debug l).1 = .panic ∨ b.pushAll .debug l = b.pushAll .release l := by
  induction l with
  | nil => exact .inr rfl
  | cons a l ih =>
    intro b
    simp only [Builder.pushAll]
    cases hp : b.pushArgument .debug a with
    | none => exact .inl rfl
    | some b' => rw [pushArgument_alike hp]; exact ih

private theorem pushItems_alike (l : List Bytes) : ∀ {b : Builder}, (b.pushItems .debug l).1 = .panic ∨ b.pushItems .debug l = b.pushItems .release l := by
  induction l with
  | nil => exact .inr rfl
  | cons a l ih =>
    intro b
    simp only [Builder.pushItems]
    split
    · exact .inr rfl
    · cases hp : b.pushArgument .debug a with
      | none => exact .inl rfl
      | some b' => rw [pushArgument_alike hp]; exact ih

private theorem bytes_alike {b : Builder} {arg : Bytes} : (b.bytes .debug arg).1 = .panic ∨ b.bytes .debug arg = b.bytes .release arg := by
  simp only [Builder.bytes]
  split
  · exact .inr rfl
  · exact pushAll_alike _

private theorem bytesAll_alike (l : List Bytes) : ∀ {b : Builder}, (b.bytesAll .debug l).1 = .panic ∨ b.bytesAll .debug l = b.bytesAll .release l := by
  induction l with
  | nil => exact .inr rfl
  | cons a l ih =>
    intro b
    simp only [Builder.bytesAll]
    rcases bytes_alike (b := b) (arg := a) with h | h
    · cases hb : b.bytes .debug a with
      | mk o b' => rw [hb] at h; subst h; exact .inl rfl
    · rw [← h]
      split
      · exact ih
      · exact .inr rfl

private theorem value_alike (env : Env) {b : Builder} {v : Value} :
    (b.value (builtAs env .debug) v).1 = .panic ∨ b.value (builtAs env .debug) v = b.value (builtAs env .release) v := by
  cases v <;> simp only [Builder.value, builtAs] <;> repeat' split
  all_goals first | exact .inr rfl | exact pushAll_alike _ | exact pushItems_alike _

/-- **C202, building.** Pushing an argument, several arguments, or a value onto any builder, if it does not panic in a debug build, gives the same result and
the same builder in a release build. -/
theorem C202_builder (env : Env) (b : Builder) :
    (∀ arg, (b.bytes .debug arg).1 ≠ .panic → b.bytes .release arg = b.bytes .debug arg) ∧
    (∀ args, (b.bytesAll .debug args).1 ≠ .panic → b.bytesAll .release args = b.bytesAll .debug args) ∧
    ∀ v, (b.value (builtAs env .debug) v).1 ≠ .panic → b.value (builtAs env .release) v = b.value (builtAs env .debug) v :=
  ⟨fun _ h => (bytes_alike.resolve_left h).symm, fun _ h => ((bytesAll_alike _).resolve_left h).symm, fun _ h => ((value_alike env).resolve_left h).symm⟩

/-- A map given to a builder for Set, key first. -/
example : ((Builder.newWithKeyType .set (some .map)).bytesAll .release [[7], [8]]).2.value (builtAs (sampleEnv .debug) .release) (.map [([1], [2]), ([3], [])]) =
    ((Builder.newWithKeyType .set (some .map)).bytesAll .debug [[7], [8]]).2.value (builtAs (sampleEnv .debug) .debug) (.map [([1], [2]), ([3], [])]) := by
  rw [(C202_builder (sampleEnv .debug) _).2.1 _ (by decide +kernel)]
  exact (C202_builder _ _).2.2 _ (by decide +kernel)

/-! ## The decoder -/

namespace RespParser

/-- The first panics, or both are the same. -/
private def StepAlike (a b : Step) : Prop := a = .panic ∨ a = b

private theorem StepAlike.assert {p : Bool} {k k' : Step} (h : StepAlike k k') : StepAlike (debugAssert .debug p k) (debugAssert .release p k') := by
  cases p with
  | false => exact .inl rfl
  | true => exact h

private theorem StepAlike.sub {a b : Nat} {k : Nat → Step} : StepAlike (subThen .debug a b k) (subThen .release a b k) := by
  simp only [subThen]
  split
  · exact .inr rfl
  · exact .inl rfl

private theorem StepAlike.remaining {a b c : Nat} : StepAlike (remainingBytes .debug a b c) (remainingBytes .release a b c) := .assert (.assert (.inr rfl))

private theorem step_alike (c : Ctx) (buf : Bytes) : StepAlike (step .debug c buf) (step .release c buf) := by
  cases hs : c.stage <;> simp only [step, hs, stageInit, stageDetermineType, stageBoolean, stageBytes, stageFloat, stageInteger, stageList, stageMap, stageSet,
    stageString, stageTypeInit, stageDispatchError, stageParseError]
  all_goals first | refine .assert (.assert ?_) | refine .assert ?_
  all_goals repeat' split
  all_goals first | exact .inr rfl | exact .sub | exact .remaining

theorem loop_alike (n : Nat) : ∀ (c : Ctx) (buf : Bytes), (loop .debug n c buf).1 = .panic ∨ loop .debug n c buf = loop .release n c buf := by
  induction n with
  | zero => exact fun _ _ => .inr rfl
  | succ n ih =>
    intro c buf
    simp only [loop]
    rcases step_alike c buf with h | h
    · rw [h]; exact .inl rfl
    · rw [← h]
      split
      · exact ih _ _
      all_goals exact .inr rfl

end RespParser

private theorem feed_alike (c : RespParser.Ctx) (buf : Bytes) :
    (RespParser.feed .debug c buf).1 = .panic ∨ RespParser.feed .debug c buf = RespParser.feed .release c buf := RespParser.loop_alike _ _ _

/-- **C202, decoding.** A response decoder in any state, given any bytes, that does not panic in a debug build says the same and is left in the same state in a
release build. -/
theorem C202_decoder (c : RespParser.Ctx) (buf : Bytes) (h : (RespParser.feed .debug c buf).1 ≠ .panic) :
    RespParser.feed .release c buf = RespParser.feed .debug c buf := ((feed_alike c buf).resolve_left h).symm

/-- Half a list, in both builds; the second half is then asked for. -/
example : RespParser.feed .release .new [0, 0, 0, 13, 4, 0, 2, 0, 0, 0, 1] = RespParser.feed .debug .new [0, 0, 0, 13, 4, 0, 2, 0, 0, 0, 1] :=
  C202_decoder _ _ (by decide +kernel)

/-- An empty byte string, at which a debug build panics, is read in a release build. -/
example : (RespParser.feed .debug .new [0, 0, 0, 5, 1, 0, 0, 0, 0]).1 = .panic ∧
    (RespParser.feed .release .new [0, 0, 0, 5, 1, 0, 0, 0, 0]).1 = .concluded (.value (.bytes [])) := by decide +kernel

/-! ## Arguments, metrics and sessions -/

private theorem start_alike {lo : Bound} {n : Nat} (h : lo.start .debug = some n) : lo.start .release = some n := by
  cases lo with
  | excluded n => exact addU_alike h
  | _ => exact h

private theorem stop_alike {hi : Bound} {count n : Nat} (h : hi.stop .debug count = some n) : hi.stop .release count = some n := by
  cases hi with
  | included n => exact addU_alike h
  | _ => exact h

/-- **C202, arguments.** Asking a request for a range of its arguments, and taking the next of them, if that does not panic in a debug build, gives the same in
a release build. -/
theorem C202_arguments (r : Request) (lo hi : Bound) (it : ArgIter) :
    (∀ x, r.args .debug lo hi = some x → r.args .release lo hi = some x) ∧ ∀ y, it.next .debug = some y → it.next .release = some y := by
  refine ⟨fun x h => ?_, fun y h => ?_⟩
  · simp only [Request.args] at h ⊢
    split at h
    · rename_i h0; rw [if_pos h0]; exact h
    · rename_i h0
      rw [if_neg h0]
      cases hl : lo.start .debug with
      | none => rw [hl] at h; cases h
      | some a =>
        rw [hl] at h
        rw [start_alike hl]
        simp only [] at h ⊢
        cases hh : hi.stop .debug r.argCount with
        | none => rw [hh] at h; cases h
        | some b => rw [hh] at h; rw [stop_alike hh]; exact h
  · simp only [ArgIter.next] at h ⊢
    split at h
    · rename_i h0; rw [if_pos h0]; exact h
    · rename_i h0
      rw [if_neg h0]
      cases ha : addU .debug 64 it.idx 1 with
      | none => rw [ha] at h; cases h
      | some n => rw [ha] at h; rw [addU_alike ha]; exact h

theorem increment_alike {T : Type} [DecidableEq T] (c : MetricCell T) (t : T) :
    (c.increment .debug t).1 = none ∨ c.increment .debug t = c.increment .release t := by
  simp only [MetricCell.increment]
  cases c.live with
  | none => exact .inr rfl
  | some m =>
    simp only []
    cases h : addU .debug 64 ((m.counters t).getD 0) 1 with
    | none => exact .inl rfl
    | some n => rw [addU_alike h]; exact .inr rfl

/-- **C202, metrics and sessions.** Counting in any metrics, and adding a session to any manager, if that does not panic in a debug build, answers and leaves the
same in a release build. -/
theorem C202_counting {T : Type} [DecidableEq T] (c : MetricCell T) (t : T) (s : SessionMgr) (token : Bytes) :
    ((c.increment .debug t).1 ≠ none → c.increment .release t = c.increment .debug t) ∧
    ((s.add .debug token).1 ≠ none → s.add .release token = s.add .debug token) := by
  refine ⟨fun h => ((increment_alike c t).resolve_left h).symm, fun h => ?_⟩
  simp only [SessionMgr.add] at h ⊢
  cases hs : s.sessions s.nextId with
  | some x => rfl
  | none =>
    rw [hs] at h
    simp only [] at h ⊢
    rcases increment_alike s.metrics .sessionsStarted with hi | hi
    · rw [hi] at h; exact (h rfl).elim
    · rw [← hi]

/-- The arguments after the first of a request with three. -/
example : ∃ it, (call .exists none [[1], [2], [3]]).args .release (.excluded 0) .unbounded = some (some it) ∧ it.idx = 1 ∧ it.to = 3 ∧
    (it.next .release).map Prod.fst = some (some [2]) :=
  ⟨_, (C202_arguments (call .exists none [[1], [2], [3]]) (.excluded 0) .unbounded ⟨0, 0, call .exists none []⟩).1 _ rfl, by decide +kernel⟩

/-- A first session. -/
example : (SessionMgr.new ⟨some ⟨fun _ => none, fun _ => none⟩⟩).add .release [5] = (SessionMgr.new ⟨some ⟨fun _ => none, fun _ => none⟩⟩).add .debug [5] :=
  (C202_counting (⟨none⟩ : MetricCell Metric) .commandsSuccessful _ _).2 (by intro h; cases h)

/-! ## The clients -/

private theorem panics_on {α β} {f : Outcome DispatchError α → Prog β} (h : f .panic = .done .panic) : ∀ r, Panicked r → ∃ r', Panicked r' ∧ f r = .done r' :=
  fun _ hr => ⟨.panic, rfl, by rw [hr, h]⟩

private theorem UntilBad.bind {α β} {p q : Client.Job α} {f : α → Client.Job β} (h : UntilBad Panicked p q) (hf : ∀ a, UntilBad Panicked (f a) (f a)) :
    UntilBad Panicked (Client.bind p f) (Client.bind q f) := by
  refine h.andThen (panics_on rfl) fun r => ?_
  cases r with
  | ok e =>
    cases e with
    | ok a => exact hf a
    | error e => exact .same _
  | _ => exact .same _

private theorem UntilBad.built {α} {r r' : Builder.Res} {f f' : Builder → Client.Job α} (h : r.1 = .panic ∨ r = r') (hf : ∀ b, UntilBad Panicked (f b) (f' b)) :
    UntilBad Panicked (Client.built r f) (Client.built r' f') := by
  rcases h with h | h
  · simp only [Client.built, h]; exact .panic
  · subst h
    simp only [Client.built]
    split
    · exact hf _
    all_goals exact .same _

private theorem agree_send (env : Env) (b : Builder) : UntilBad Panicked (Client.send (builtAs env .debug) b) (Client.send (builtAs env .release) b) := by
  refine (agree_dispatch env _ _).andThen (panics_on rfl) fun r => ?_
  cases r with
  | ok resp =>
    simp only [Spec.builtAs]
    rcases feed_alike .new resp with h | h
    · rw [h]; exact .panic
    · rw [← h]
      split <;> exact .same _
  | _ => exact .same _

private theorem agree_done {α} {p : Prog α} (h : ∃ r, p = .done r) : UntilBad Panicked p p := by
  obtain ⟨r, rfl⟩ := h
  exact .same r

private theorem as_done (v : Value) : (∃ r, Client.asNumber v = .done r) ∧ (∃ r, Client.asBytes v = .done r) ∧ (∃ r, Client.asList v = .done r) ∧
    (∃ r, Client.asBool v = .done r) ∧ (∃ r, Client.asInt v = .done r) ∧ (∃ r, Client.asMap v = .done r) ∧ ∃ r, Client.asKeyType v = .done r := by
  refine ⟨?_, ?_, ?_, ?_, ?_, ?_, ?_⟩ <;> cases v <;> first | exact ⟨_, rfl⟩ | skip
  simp only [Client.asKeyType]
  split <;> exact ⟨_, rfl⟩

private theorem agree_as {α} (env : Env) {f : Value → Client.Job α} (h : ∀ v, ∃ r, f v = .done r) (b : Builder) :
    UntilBad Panicked (Client.bind (Client.send (builtAs env .debug) b) f) (Client.bind (Client.send (builtAs env .release) b) f) :=
  (agree_send env b).bind fun v => agree_done (h v)

private theorem agree_append (env : Env) (k : Bytes) (v : Value) : UntilBad Panicked (Client.append (builtAs env .debug) k v) (Client.append (builtAs env .release) k v) := by
  refine .built bytes_alike fun b => ?_
  cases v <;> first | exact .same _ | exact .built bytes_alike (agree_send env) | exact .built (bytesAll_alike _) (agree_send env)

private theorem agree_decrementBy (env : Env) (k : Bytes) (v : Value) : UntilBad Panicked (Client.decrementBy (builtAs env .debug) k v) (Client.decrementBy (builtAs env .release) k v) := by
  refine .built bytes_alike fun b => ?_
  split
  · exact .same _
  · exact .built (value_alike env) (agree_as env fun v => (as_done v).1)

private theorem agree_decrement (env : Env) (k : Bytes) (t : Option KeyType) : UntilBad Panicked (Client.decrement (builtAs env .debug) k t) (Client.decrement (builtAs env .release) k t) := .built bytes_alike (agree_as env fun v => (as_done v).1)

private theorem agree_delete (env : Env) (k : Bytes) : UntilBad Panicked (Client.delete (builtAs env .debug) k) (Client.delete (builtAs env .release) k) := .built bytes_alike (agree_as env fun v => (as_done v).2.1)

private theorem agree_echo (env : Env) (k : Bytes) : UntilBad Panicked (Client.echo (builtAs env .debug) k) (Client.echo (builtAs env .release) k) := .built bytes_alike (agree_as env fun v => (as_done v).2.2.1)

private theorem agree_exists (env : Env) (ks : List Bytes) : UntilBad Panicked (Client.exists (builtAs env .debug) ks) (Client.exists (builtAs env .release) ks) := .built (bytesAll_alike _) (agree_as env fun v => (as_done v).2.2.2.1)

private theorem agree_get (env : Env) (k : Bytes) : UntilBad Panicked (Client.get (builtAs env .debug) k) (Client.get (builtAs env .release) k) := .built bytes_alike (agree_send env)

private theorem agree_incrementBy (env : Env) (k : Bytes) (v : Value) : UntilBad Panicked (Client.incrementBy (builtAs env .debug) k v) (Client.incrementBy (builtAs env .release) k v) := by
  refine .built bytes_alike fun b => ?_
  split
  · exact .same _
  · exact .built (value_alike env) (agree_as env fun v => (as_done v).1)

private theorem agree_increment (env : Env) (k : Bytes) (t : Option KeyType) : UntilBad Panicked (Client.increment (builtAs env .debug) k t) (Client.increment (builtAs env .release) k t) := .built bytes_alike (agree_as env fun v => (as_done v).1)

private theorem agree_is (env : Env) (t : KeyType) (ks : List Bytes) : UntilBad Panicked (Client.is (builtAs env .debug) t ks) (Client.is (builtAs env .release) t ks) := .built (bytesAll_alike _) (agree_as env fun v => (as_done v).2.2.2.1)

private theorem agree_keyType (env : Env) (k : Bytes) : UntilBad Panicked (Client.keyType (builtAs env .debug) k) (Client.keyType (builtAs env .release) k) := .built bytes_alike (agree_as env fun v => (as_done v).2.2.2.2.2.2)

private theorem agree_keys (env : Env) (k : Bytes) : UntilBad Panicked (Client.keys (builtAs env .debug) k) (Client.keys (builtAs env .release) k) := .built bytes_alike (agree_as env fun v => (as_done v).2.2.1)

private theorem agree_length (env : Env) (k : Bytes) (t : Option KeyType) : UntilBad Panicked (Client.length (builtAs env .debug) k t) (Client.length (builtAs env .release) k t) := .built bytes_alike (agree_as env fun v => (as_done v).2.2.2.2.1)

private theorem agree_rename (env : Env) (k l : Bytes) : UntilBad Panicked (Client.rename (builtAs env .debug) k l) (Client.rename (builtAs env .release) k l) := .built bytes_alike fun _ => .built bytes_alike (agree_as env fun v => (as_done v).2.1)

private theorem agree_set (env : Env) (k : Bytes) (v : Value) : UntilBad Panicked (Client.set (builtAs env .debug) k v) (Client.set (builtAs env .release) k v) := .built bytes_alike fun _ => .built (value_alike env) (agree_send env)

private theorem agree_stats (env : Env) : UntilBad Panicked (Client.stats (builtAs env .debug)) (Client.stats (builtAs env .release)) := agree_as env (fun v => (as_done v).2.2.2.2.2.1) _

theorem agree_start (env : Env) (a : Api) : UntilBad Panicked (a.start (builtAs env .debug)) (a.start (builtAs env .release)) := by
  have hw : ∀ {α} {f : α → Got} {p q : Client.Job α}, UntilBad Panicked p q → UntilBad Panicked (wrap f p) (wrap f q) := fun h => h.bind fun _ => .same _
  cases a <;> refine hw ?_
  case append k v => exact agree_append env k v
  case decrementBy k v => exact agree_decrementBy env k v
  case decrement k t => exact agree_decrement env k t
  case delete k => exact agree_delete env k
  case echo k => exact agree_echo env k
  case «exists» ks => exact agree_exists env ks
  case get k => exact agree_get env k
  case incrementBy k v => exact agree_incrementBy env k v
  case increment k t => exact agree_increment env k t
  case is t ks => exact agree_is env t ks
  case keyType k => exact agree_keyType env k
  case keys k => exact agree_keys env k
  case length k t => exact agree_length env k t
  case rename k l => exact agree_rename env k l
  case set k v => exact agree_set env k v
  case stats => exact agree_stats env

/-- **C203, in-memory client.** A call of the in-memory client that does not panic in a debug build resolves to the same and has the same effect in a release
build. -/
theorem C203_call (env : Env) (a : Api) (db : Db) (h : ((a.start (builtAs env .debug)).run db).1 ≠ .panic) :
    (a.start (builtAs env .release)).run db = (a.start (builtAs env .debug)).run db := (agree_start env a).run h

/-- A Set of a list and its Length. -/
example : ((Api.set [1] (.list [[2], [3]])).start (builtAs (sampleEnv .debug) .release)).run (sampleDb []) =
    ((Api.set [1] (.list [[2], [3]])).start (builtAs (sampleEnv .debug) .debug)).run (sampleDb []) := C203_call _ _ _ (by decide +kernel)

private def endedInPanic {α} : Prog α → Bool
  | .done .panic => true
  | _ => false

/-- **C203, callers at once.** Calls of the in-memory client made at once, in any order of their steps, none of which has panicked so far in a debug build: in a
release build, with the same order of steps, the same is stored and counted, and the same calls have resolved to the same. -/
theorem C203_calls_at_once (env : Env) (as : List Api) (db : Db) (sched : List Nat)
    (h : ∀ t ∈ (Pool.exec ⟨as.map fun a => a.start (builtAs env .debug), db⟩ sched).threads, t ≠ .done .panic) :
    (Pool.exec ⟨as.map fun a => a.start (builtAs env .release), db⟩ sched).db = (Pool.exec ⟨as.map fun a => a.start (builtAs env .debug), db⟩ sched).db ∧
    ∀ (i : Nat) (o : Outcome DispatchError (Except Client.Error Got)),
      (Pool.exec ⟨as.map fun a => a.start (builtAs env .release), db⟩ sched).threads[i]? = some (.done o) ↔
      (Pool.exec ⟨as.map fun a => a.start (builtAs env .debug), db⟩ sched).threads[i]? = some (.done o) :=
  UntilBad.pool (agree_start env) as db sched fun t ht r hr e => h t ht (by rw [e, hr])

/-- Two callers incrementing a missing key. -/
example : (Pool.exec ⟨[Api.increment [1] none, .increment [1] none].map fun a => a.start (builtAs (sampleEnv .debug) .release), sampleDb []⟩
    [0, 1, 0, 1, 1, 0, 1, 1, 0, 0]).db.keys [1] = some (.integer 2) := by
  have := (C203_calls_at_once (sampleEnv .debug) [.increment [1] none, .increment [1] none] (sampleDb []) [0, 1, 0, 1, 1, 0, 1, 1, 0, 0] ?_).1
  · rw [this]; decide +kernel
  · intro t ht hp
    have hall : ∀ t ∈ (Pool.exec ⟨[Api.increment [1] none, .increment [1] none].map fun a => a.start (builtAs (sampleEnv .debug) .debug), sampleDb []⟩
      [0, 1, 0, 1, 1, 0, 1, 1, 0, 0]).threads, endedInPanic t = false := by decide +kernel
    have := hall t ht
    rw [hp] at this
    cases this

/-! ## The client of a server -/

private theorem waitLoop_alike (n : Nat) : ∀ (c : RespParser.Ctx) (resp incoming : Bytes), Client.Server.waitLoop .debug n c resp incoming = .panic ∨
    Client.Server.waitLoop .debug n c resp incoming = Client.Server.waitLoop .release n c resp incoming := by
  induction n with
  | zero => exact fun _ _ _ => .inr rfl
  | succ n ih =>
    intro c resp incoming
    simp only [Client.Server.waitLoop]
    split
    · exact .inr rfl
    · rename_i got rest _
      split
      · exact .inr rfl
      · rcases feed_alike c got with h | h
        · cases hf : RespParser.feed .debug c got with
          | mk x c' => rw [hf] at h; subst h; exact .inl rfl
        · rw [← h]
          split <;> first | exact .inr rfl | exact ih _ _ _

/-- The first panics, or both are the same. -/
private def JobAlike {α} (x y : Client.Server.Job α) : Prop := x.2 = .panic ∨ x = y

private theorem JobAlike.wrap {α} {f : α → Got} {x y : Client.Server.Job α} (h : JobAlike x y) : JobAlike (wrapRemote f x) (wrapRemote f y) := by
  rcases h with h | h
  · exact .inl (by simp only [wrapRemote, h])
  · rw [h]; exact .inr rfl

private theorem JobAlike.bind {α} {f : Value → Outcome Client.Server.Error α} {x y : Client.Server.Job Value} (h : JobAlike x y) :
    JobAlike (Client.Server.bind x f) (Client.Server.bind y f) := by
  rcases h with h | h
  · exact .inl (by simp only [Client.Server.bind, h])
  · rw [h]; exact .inr rfl

private theorem JobAlike.built {α} {r r' : Builder.Res} {f f' : Builder → Client.Server.Job α} (h : r.1 = .panic ∨ r = r') (hf : ∀ b, JobAlike (f b) (f' b)) :
    JobAlike (Client.Server.built r f) (Client.Server.built r' f') := by
  rcases h with h | h
  · exact .inl (by simp only [Client.Server.built, h])
  · subst h
    simp only [Client.Server.built]
    split
    · exact hf _
    all_goals exact .inr rfl

private theorem serve_alike (env : Env) (fuel : Nat) (c : Client.Server.Conn) (a : Api) :
    JobAlike (a.serve (builtAs env .debug) fuel c) (a.serve (builtAs env .release) fuel c) := by
  have hs : ∀ b, JobAlike (Client.Server.sendAndWait .debug fuel c b) (Client.Server.sendAndWait .release fuel c b) := fun b => by
    simp only [Client.Server.sendAndWait]
    split
    · rcases waitLoop_alike fuel .new [] c.incoming with h | h
      · exact .inl h
      · rw [h]; exact .inr rfl
    · exact .inr rfl
  cases a <;> refine JobAlike.wrap ?_
  case append k v =>
    refine .built bytes_alike fun b => ?_
    cases v <;> first | exact .inr rfl | exact .built bytes_alike hs | exact .built (bytesAll_alike _) hs
  case decrementBy k v =>
    refine .built bytes_alike fun b => ?_
    split
    · exact .inr rfl
    · exact .built (value_alike env) fun b => (hs b).bind
  case incrementBy k v =>
    simp only [Client.Server.incrementBy]
    split
    · exact .inr rfl
    · exact .built bytes_alike fun b => .built (value_alike env) fun b => (hs b).bind
  case «exists» ks => exact .built (bytesAll_alike _) fun b => (hs b).bind
  case is t ks => exact .built (bytesAll_alike _) fun b => (hs b).bind
  case get k => exact .built bytes_alike hs
  case set k v => exact .built bytes_alike fun b => .built (value_alike env) hs
  case rename k l => exact .built bytes_alike fun b => .built bytes_alike fun b => (hs b).bind
  case stats => exact (hs _).bind
  all_goals exact .built bytes_alike fun b => (hs b).bind

/-- **C203, client of a server.** A call of the client of a server that does not panic in a debug build, whatever the connection takes and whatever comes back on
it, sends the same bytes and resolves to the same in a release build. -/
theorem C203_remote (env : Env) (fuel : Nat) (c : Client.Server.Conn) (a : Api) (h : (a.serve (builtAs env .debug) fuel c).2 ≠ .panic) :
    a.serve (builtAs env .release) fuel c = a.serve (builtAs env .debug) fuel c := ((serve_alike env fuel c a).resolve_left h).symm

/-- A call of the client of a server. -/
example : (Api.get [1]).serve (builtAs (sampleEnv .debug) .release) 9 ⟨none, [0, 0, 0, 2, 0, 1]⟩ =
    (Api.get [1]).serve (builtAs (sampleEnv .debug) .debug) 9 ⟨none, [0, 0, 0, 2, 0, 1]⟩ := C203_remote _ _ _ _ (by decide +kernel)

/-! ## The command line -/

namespace Cli

private theorem truncate2_alike {s t : Text} (h : truncate2 .debug s = some t) : truncate2 .release s = some t := by
  simp only [truncate2] at h ⊢
  split at h
  · cases h
  · rename_i h0; rw [if_neg h0]; exact h

private theorem shown_alike {env : Env} {std : Std} {v : Value} {t : Text} (h : value (builtAs env .debug) std v = some t) :
    value (builtAs env .release) std v = some t := by
  cases v <;> first | exact h | exact truncate2_alike h

private theorem agree_shown {o o' : Option Text} (h : ∀ t, o = some t → o' = some t) : UntilBad Panicked (shown o) (shown o') := by
  cases o with
  | none => exact .panic
  | some t => rw [h t rfl]; exact .same _

private theorem agree_awaiting {α} {p q : Client.Job α} {f f' : α → Option Text} (h : UntilBad Panicked p q) (hf : ∀ a t, f a = some t → f' a = some t) :
    UntilBad Panicked (awaiting p f) (awaiting q f') := by
  refine h.andThen (panics_on rfl) fun r => ?_
  cases r with
  | ok e =>
    cases e with
    | ok a => exact agree_shown (hf a)
    | error e => exact .same _
  | _ => exact .same _

private theorem agree_needing {α} {o : Option α} {e : Fault} {f f' : α → Job} (h : ∀ a, UntilBad Panicked (f a) (f' a)) :
    UntilBad Panicked (needing o e f) (needing o e f') := by
  cases o with
  | none => exact .same _
  | some a => exact h a

private theorem agree_inner (env : Env) (std : Std) (r : Request) : UntilBad Panicked (processInner (builtAs env .debug) std r) (processInner (builtAs env .release) std r) := by
  simp only [processInner]
  cases r.commandId with
  | decrement => exact agree_needing fun k => agree_awaiting (agree_decrement env k none) fun _ _ => shown_alike
  | delete => exact agree_needing fun k => agree_awaiting (agree_delete env k) fun _ _ h => h
  | echo =>
    simp only []
    split
    · exact agree_awaiting (agree_echo env _) fun _ _ h => h
    · exact .same _
  | «exists» =>
    refine agree_needing fun args => ?_
    split
    · exact agree_awaiting (agree_exists env _) fun _ _ h => h
    all_goals exact .same _
  | get => exact agree_needing fun k => agree_awaiting (agree_get env k) fun _ _ => shown_alike
  | increment => exact agree_needing fun k => agree_awaiting (agree_increment env k none) fun _ _ => shown_alike
  | is =>
    refine agree_needing fun t => agree_needing fun args => ?_
    split
    · exact agree_awaiting (agree_is env t _) fun _ _ h => h
    all_goals exact .same _
  | keys => exact agree_needing fun k => agree_awaiting (agree_keys env k) fun _ _ h => h
  | rename => exact agree_needing fun k => agree_needing fun l => agree_awaiting (agree_rename env k l) fun _ _ h => h
  | stats => exact agree_awaiting (agree_stats env) fun _ _ h => h
  | type => exact agree_needing fun k => agree_awaiting (agree_keyType env k) fun _ _ h => h
  | _ => exact .panic

private theorem parse_alike (std : Std) (input : Text) : parse .debug std input = .panic ∨ parse .debug std input = parse .release std input := by
  simp only [parse]
  split
  · exact .inr rfl
  · exact .inr rfl
  · split
    · exact .inr rfl
    · split
      · exact .inr rfl
      · split
        · exact .inr rfl
        · rename_i c kt _ _ _ _ args _
          rcases bytesAll_alike args (b := Builder.newWithKeyType c (some (kt.getD .bytes))) with h | h
          · cases hb : (Builder.newWithKeyType c (some (kt.getD .bytes))).bytesAll .debug args with
            | mk o b' => rw [hb] at h; subst h; exact .inl rfl
          · rw [← h]; exact .inr rfl

private theorem agree_process (env : Env) (std : Std) (input : Text) : UntilBad Panicked (process (builtAs env .debug) std input) (process (builtAs env .release) std input) := by
  simp only [process, show (builtAs env .debug).mode = .debug from rfl, show (builtAs env .release).mode = .release from rfl]
  rcases parse_alike std input with h | h
  · rw [h]; exact .panic
  · rw [← h]
    cases parse .debug std input with
    | ok r =>
      refine (agree_inner env std r).andThen (panics_on rfl) fun r => ?_
      cases r with
      | ok e => cases e <;> exact .same _
      | _ => exact .same _
    | _ => exact .same _

end Cli

/-- **C203, command line.** A line that does not make the command line panic in a debug build prints the same (or is refused for the same reason) and has the same
effect in a release build; and lines one after the other, unless they end in a panic, print the same, end the same way and leave the same. -/
theorem C203_lines (env : Env) (std : Cli.Std) :
    (∀ line db, ((Cli.process (builtAs env .debug) std line).run db).1 ≠ .panic →
      (Cli.process (builtAs env .release) std line).run db = (Cli.process (builtAs env .debug) std line).run db) ∧
    ∀ lines db, (Cli.session (builtAs env .debug) std lines db).2.1 ≠ .panic →
      Cli.session (builtAs env .release) std lines db = Cli.session (builtAs env .debug) std lines db := by
  have h1 : ∀ line db, ((Cli.process (builtAs env .debug) std line).run db).1 ≠ .panic →
      (Cli.process (builtAs env .release) std line).run db = (Cli.process (builtAs env .debug) std line).run db := fun line db h => (Cli.agree_process env std line).run h
  refine ⟨h1, fun lines => ?_⟩
  induction lines with
  | nil =>
    intro db h
    simp only [Cli.session] at h ⊢
    cases hp : (Cli.process (builtAs env .debug) std (Cli.trimEnd [])).run db with
    | mk o db' =>
      rw [hp] at h
      rw [h1 _ _ (by rw [hp]; rintro rfl; exact h rfl), hp]
  | cons line lines ih =>
    intro db h
    simp only [Cli.session] at h ⊢
    cases hp : (Cli.process (builtAs env .debug) std (Cli.trimEnd line)).run db with
    | mk o db' =>
      rw [hp] at h
      rw [h1 _ _ (by rw [hp]; rintro rfl; exact h rfl), hp]
      cases o with
      | ok e =>
        cases e with
        | ok s => simp only [] at h ⊢; rw [ih _ h]
        | error e => rfl
      | _ => rfl

/-- Three lines, the last of which cannot be parsed. -/
example : Cli.session (builtAs (sampleEnv .debug) .release) plainStd ["increment a\n".toList, "rename a b\n".toList, "nothing\n".toList] Db.empty =
    Cli.session (builtAs (sampleEnv .debug) .debug) plainStd ["increment a\n".toList, "rename a b\n".toList, "nothing\n".toList] Db.empty :=
  (C203_lines _ _).2 _ _ (by decide +kernel)

/-! ## The server -/

/-- The task of the connection has panicked. -/
private def Crashed (r : Outcome DispatchError (Server.End × Bytes)) : Prop := ∃ sent, r = .ok (.panicked, sent)

private theorem agree_connection (env : Env) (pieces : List Bytes) : ∀ (ctx : ReqParser.Ctx) (input sent : Bytes),
    UntilBad Crashed (Server.loop (builtAs env .debug) ctx input sent pieces) (Server.loop (builtAs env .release) ctx input sent pieces) := by
  induction pieces with
  | nil => exact fun _ _ _ => .same _
  | cons piece pieces ih =>
    intro ctx input sent
    simp only [Server.loop]
    split
    · refine (agree_dispatch env _ _).andThen (fun r hr => ⟨_, ⟨sent, rfl⟩, by rw [hr]⟩) fun r => ?_
      cases r with
      | ok resp => exact ih _ _ _
      | err e => exact ih _ _ _
      | _ => exact .same _
    · exact ih _ _ _
    · exact ih _ _ _
    · exact .same _
    · exact .same _

/-- **C203, server.** Connections served at once, in any order of their steps, none of which has panicked so far in a debug build: in a release build, with the
same order of steps, the same is stored and counted, and the same connections have ended, with the same bytes sent. -/
theorem C203_server (env : Env) (streams : List Bytes) (db : Db) (sched : List Nat)
    (h : ∀ t ∈ ((Server.serve (builtAs env .debug) streams db).exec sched).threads, ∀ sent, t ≠ .done (.ok (.panicked, sent))) :
    ((Server.serve (builtAs env .release) streams db).exec sched).db = ((Server.serve (builtAs env .debug) streams db).exec sched).db ∧
    ∀ (i : Nat) (how : Server.End) (sent : Bytes),
      ((Server.serve (builtAs env .release) streams db).exec sched).threads[i]? = some (.done (.ok (how, sent))) ↔
      ((Server.serve (builtAs env .debug) streams db).exec sched).threads[i]? = some (.done (.ok (how, sent))) := by
  have := UntilBad.pool (fun s => agree_connection env (Server.lines s) .new [] []) streams db sched fun t ht r hr e => by
    obtain ⟨sent, rfl⟩ := hr
    exact h t ht sent e
  exact ⟨this.1, fun i how sent => this.2 i _⟩

private def crashed : Prog (Server.End × Bytes) → Bool
  | .done (.ok (.panicked, _)) => true
  | _ => false

/-- Two connections: an invalid command, and an Increment of a key. -/
example : ((Server.serve (builtAs (sampleEnv .debug) .release) [[99, 10], [1, 1, 0, 0, 0, 1, 107, 10]] (sampleDb [])).exec [1, 0, 1, 1, 1, 1, 1, 1, 1]).db =
    ((Server.serve (builtAs (sampleEnv .debug) .debug) [[99, 10], [1, 1, 0, 0, 0, 1, 107, 10]] (sampleDb [])).exec [1, 0, 1, 1, 1, 1, 1, 1, 1]).db := by
  refine (C203_server (sampleEnv .debug) _ _ _ fun t ht sent e => ?_).1
  have hall : ∀ t ∈ ((Server.serve (builtAs (sampleEnv .debug) .debug) [[99, 10], [1, 1, 0, 0, 0, 1, 107, 10]] (sampleDb [])).exec [1, 0, 1, 1, 1, 1, 1, 1, 1]).threads,
    crashed t = false := by decide +kernel
  have := hall t ht
  rw [e] at this
  cases this

end Hop
