import Verif.Spec.CliFutures
import Verif.Props.CliOutput
import Verif.Props.Futures

/-! # C115: lines with any backend -/

namespace Hop

open Spec Client.Futures Cli

variable {σ ε : Type}

theorem judged_none {ε : Type} (p : Poll (Except ε Got)) : judged none p = p := by
  match p with
  | .pending | .panic | .ready (.error _) => rfl
  | .ready (.ok g) => cases g <;> rfl

/-- A future that is over panics when polled. -/
theorem pollLine_over (env : Env) (std : Std) (asMemory : ε → Option Client.Error) (B : Backend σ ε) (n : Nat) (w : σ) :
    pollLine env std asMemory B n .over w = (List.replicate n .panic, w) := by
  induction n with
  | zero => rfl
  | succ n ih => simp only [pollLine, Processing.poll, ih, List.replicate_succ]

theorem watch_over (B : Backend σ ε) (t : Option KeyType) (n : Nat) (w : σ) :
    watch B t n none w = (List.replicate n .panic, w) := by
  induction n with
  | zero => rfl
  | succ n ih => simp only [watch, ih, List.replicate_succ]

/-- What the line is at, given what the request is at. -/
def lineAfter (S : Type) (c : CommandId) : Poll (Except ε Got) → ClientRequest S → Processing S
  | .pending, r => .waiting c r
  | _, _ => .over

/-- One poll of a line that waits for a request. -/
theorem awaitRequest_eq (env : Env) (std : Std) (asMemory : ε → Option Client.Error) (B : Backend σ ε) (c : CommandId) (a : Api)
    (hp : ∀ g, a.fits g = true → printed env std c g = written env std a g) (r : ClientRequest B.State) (w : σ)
    (hf : ∀ g, (r.poll B w).1 = .ready (.ok g) → a.fits g = true) :
    awaitRequest env std asMemory B c r w =
      (relayed env std asMemory a (r.poll B w).1, lineAfter B.State c (r.poll B w).1 (r.poll B w).2.1, (r.poll B w).2.2) := by
  unfold awaitRequest
  generalize r.poll B w = x at hf ⊢
  obtain ⟨p, r', w'⟩ := x
  match p with
  | .pending => rfl
  | .panic => rfl
  | .ready (.error e) =>
    simp only [failed, relayed, lineAfter]
    cases asMemory e with
    | none => rfl
    | some m => simp only [fault_complaint]
  | .ready (.ok g) =>
    simp only [hp g (hf g rfl), relayed, lineAfter]
    cases written env std a g <;> rfl

/-- Polling a line that waits for a request in flight. -/
theorem pollLine_waiting (env : Env) (std : Std) (asMemory : ε → Option Client.Error) (B : Backend σ ε) (c : CommandId) (a : Api)
    (hp : ∀ g, a.fits g = true → printed env std c g = written env std a g) (n : Nat) (s : B.State)
    (r : ClientRequest B.State) (w : σ) (h : r.fut = some (.running s none))
    (hf : ∀ g, .ready (.ok g) ∈ (watch B none n (some s) w).1 → a.fits g = true) :
    pollLine env std asMemory B n (.waiting c r) w =
      ((watch B none n (some s) w).1.map (relayed env std asMemory a), (watch B none n (some s) w).2) := by
  induction n generalizing s r w with
  | zero => rfl
  | succ n ih =>
    have hr : r.poll B w = ((B.poll s w).1,
        { r with fut := some (inFlight B none (onward (B.poll s w).1 (B.poll s w).2.1)) }, (B.poll s w).2.2) := by
      unfold ClientRequest.poll
      rw [h]
      simp only [Block.poll_running, judged_none]
    simp only [watch, judged_none] at hf ⊢
    simp only [pollLine, Processing.poll]
    rw [awaitRequest_eq env std asMemory B c a hp r w (fun g hg => hf g (by rw [hr] at hg; exact hg ▸ List.mem_cons_self))]
    rw [hr]
    dsimp only
    revert hf
    generalize B.poll s w = x
    obtain ⟨p, s', w'⟩ := x
    intro hf
    cases p with
    | pending =>
      have := ih s' { r with fut := some (inFlight B none (some s')) } w' rfl
        (fun g hg => hf g (List.mem_cons_of_mem _ hg))
      simp only [lineAfter, onward, List.map_cons]
      rw [this]
    | panic => simp only [lineAfter, onward, pollLine_over, watch_over, List.map_cons, List.map_replicate, relayed]
    | ready x => simp only [lineAfter, onward, pollLine_over, watch_over, List.map_cons, List.map_replicate, relayed]

/-- What is printed for a result is what is to be written out. -/
theorem printed_written (env : Env) (std : Std) {c : CommandId} {t : KeyType} {args : List Bytes} {a : Api}
    (hm : meaning c t args = .call a) (g : Got) (hg : a.fits g = true) : printed env std c g = written env std a g := by
  cases c
  case rename =>
    match args with
    | [] | [_] => cases hm
    | _ :: _ :: _ => cases hm; cases g <;> first | (cases hg; done) | rfl
  case type =>
    cases args with
    | nil => cases hm
    | cons k l =>
      cases hm
      cases g <;> first | (cases hg; done) | skip
      rename_i x
      cases x <;> rfl
  case keys =>
    cases args with
    | nil => cases hm
    | cons k l =>
      cases hm
      cases g <;> first | (cases hg; done) | skip
      exact congrArg some (joinWith_eq '\n' _)
  case echo =>
    cases args with
    | nil => cases hm
    | cons k l =>
      cases hm
      cases g <;> first | (cases hg; done) | skip
      exact congrArg some (joinWith_eq ' ' _)
  case stats =>
    cases args <;> cases hm <;> cases g <;> first | (cases hg; done) | exact stats_written _
  all_goals
    cases args with
    | nil => cases hm
    | cons k l =>
      cases hm <;> cases g <;> first | (cases hg; done) | rfl | exact value_written env std _ _

/-- The plan made for a request is its meaning. -/
theorem plan_views (S : Type) {r : Request} {c : CommandId} {t : KeyType} {args : List Bytes}
    (h : Views r c (some t) args) (hn : args.length ≤ 255) :
    match meaning c t args with
    | .call a => ∃ q, plan S r = .send q ∧ Fresh q a none
    | .message s => ∃ f, plan S r = .fail f ∧ f.message = s.toList
    | .blank => plan S r = .text []
    | .unsupported => plan S r = .panic := by
  have hargs := argsFrom_eq h 0
  have hkey : c.keyNotation ≠ .none → r.key = args.head? := keyed h
  unfold plan
  rw [h.command]
  cases c
  case append => cases args <;> rfl
  case decrementBy => cases args <;> rfl
  case incrementBy => cases args <;> rfl
  case length => cases args <;> rfl
  case set => cases args <;> rfl
  case rename =>
    simp only [hkey (by decide), h.arg]
    match args with
    | [] => exact ⟨_, rfl, rfl⟩
    | [_] => exact ⟨_, rfl, rfl⟩
    | a :: b :: l => exact ⟨_, rfl, rfl, rfl, rfl, rfl⟩
  case stats => cases args <;> exact ⟨_, rfl, rfl, rfl, rfl, rfl⟩
  case echo =>
    simp only [hargs]
    cases args with
    | nil => rfl
    | cons k l =>
      rw [if_neg (by simp)]
      simp only [List.drop_zero, joinWith_spaced]
      exact ⟨_, rfl, rfl, rfl, rfl, rfl⟩
  case «exists» =>
    simp only [hargs]
    cases args with
    | nil => exact ⟨_, rfl, rfl⟩
    | cons k l =>
      rw [if_neg (by simp)]
      simp only [List.drop_zero, Plan.needing, existsKeys, checkKeys_ok (ks := k :: l) (by simp) hn]
      exact ⟨_, rfl, rfl, rfl, rfl, rfl⟩
  case is =>
    simp only [hargs, h.keyType]
    cases args with
    | nil => exact ⟨_, rfl, rfl⟩
    | cons k l =>
      rw [if_neg (by simp)]
      simp only [List.drop_zero, Plan.needing, isKeys, checkKeys_ok (ks := k :: l) (by simp) hn]
      exact ⟨_, rfl, rfl, rfl, rfl, rfl⟩
  all_goals
    simp only [hkey (by decide)]
    cases args with
    | nil => exact ⟨_, rfl, rfl⟩
    | cons k l => exact ⟨_, rfl, rfl, rfl, rfl, rfl⟩

/-- Polling a line whose request asks for one call. -/
theorem pollLine_send (env : Env) (std : Std) (asMemory : ε → Option Client.Error) (B : Backend σ ε) (line : Text) (req : Request)
    (q : ClientRequest B.State) (a : Api) (hr : Cli.parse env.mode std line = .ok req) (hq : plan B.State req = .send q)
    (hfr : Fresh q a none) (hp : ∀ g, a.fits g = true → printed env std req.commandId g = written env std a g) (n : Nat) (w : σ)
    (hf : ∀ g, .ready (.ok g) ∈ (watch B none n (some (B.start a)) w).1 → a.fits g = true) :
    pollLine env std asMemory B n (.fresh line) w =
      ((watch B none n (some (B.start a)) w).1.map (relayed env std asMemory a), (watch B none n (some (B.start a)) w).2) := by
  cases n with
  | zero => rfl
  | succ n =>
    have hpoll : q.poll B w = ((B.poll (B.start a) w).1, { emptied q with fut := some (inFlight B none
          (onward (B.poll (B.start a) w).1 (B.poll (B.start a) w).2.1)) }, (B.poll (B.start a) w).2.2) := by
      unfold ClientRequest.poll
      rw [hfr.fut]
      simp only [hfr.backend, if_true, hfr.asks, hfr.typed, Block.poll_running, judged_none]
    simp only [watch, judged_none] at hf ⊢
    simp only [pollLine, Processing.poll, hr, hq]
    rw [awaitRequest_eq env std asMemory B _ a hp q w (fun g hg => hf g (by rw [hpoll] at hg; exact hg ▸ List.mem_cons_self))]
    rw [hpoll]
    dsimp only
    revert hf
    generalize B.poll (B.start a) w = x
    obtain ⟨p, s', w'⟩ := x
    intro hf
    cases p with
    | pending =>
      simp only [lineAfter, onward, List.map_cons]
      rw [pollLine_waiting env std asMemory B _ a hp n s' { emptied q with fut := some (inFlight B none (some s')) } w' rfl
        (fun g hg => hf g (List.mem_cons_of_mem _ hg))]
    | panic => simp only [lineAfter, onward, pollLine_over, watch_over, List.map_cons, List.map_replicate, relayed]
    | ready x => simp only [lineAfter, onward, pollLine_over, watch_over, List.map_cons, List.map_replicate, relayed]

/-- A line that is answered without the backend. -/
theorem pollLine_first (env : Env) (std : Std) (asMemory : ε → Option Client.Error) (B : Backend σ ε) (line : Text)
    (x : Poll (Except (ProcessError ε) Text)) (h : ∀ w, (Processing.fresh line).poll env std asMemory B w = (x, .over, w)) (n : Nat)
    (w : σ) : pollLine env std asMemory B n (.fresh line) w = (atFirst x n, w) := by
  cases n with
  | zero => rfl
  | succ n => simp only [pollLine, h, pollLine_over, atFirst]

/-- **C115.** Whatever the backend: polling a line that spells a command, any number of times, is polling the one call of
the backend it stands for. The line waits while the call waits, results are written out, errors of the in-memory
backend explained, other errors handed on as they are, and the backend's world changes as the call changes it. Lines that
stand for no call never touch it. -/
theorem C115_line (env : Env) (std : Std) (asMemory : ε → Option Client.Error) (B : Backend σ ε) (c : CommandId) (t : KeyType)
    (w : Text) (words : List Text) (args : List Bytes) (hh : Head c t w) (hw : ∀ x ∈ words, x ≠ [] ∧ ' ' ∉ x)
    (ha : Arguments std c t words args) (hn : args.length ≤ 255) (n : Nat) (world : σ)
    (hf : ∀ a g, meaning c t args = .call a → .ready (.ok g) ∈ (watch B none n (some (B.start a)) world).1 → a.fits g = true) :
    pollLine env std asMemory B n (.fresh (lineOf w words)) world =
      carriedOut env std asMemory B n world (meaning c t args) := by
  by_cases hs : c = .stats
  · subst hs
    have hne := arguments_ne_nil ha (fun x hx => (hw x hx).1)
    have hp := parse_arguments env.mode std hh (fun x hx => (hw x hx).2) ha
    obtain ⟨h1, h2, h3, h4⟩ := (Holds.new .stats (some t)).bytesAll env.mode args (by omega)
    have hm : meaning .stats t args = .call .stats := by cases args <;> rfl
    cases hb : (Builder.newWithKeyType .stats (some t)).bytesAll env.mode args with
    | mk o b =>
      rw [hb] at hp h1 h2 h3
      cases o with
      | ok u =>
        cases u
        have hc : b.intoRequest.commandId = .stats := (bytesAll_keeps hb).1
        rw [hm]
        exact pollLine_send env std asMemory B _ b.intoRequest Client.Futures.stats .stats hp
          (by unfold plan; rw [hc]) ⟨rfl, rfl, rfl, rfl⟩
          (fun g hg => by rw [hc]; exact printed_written env std (c := .stats) (t := t) hm g hg) n world
          (fun g hg => hf .stats g hm hg)
      | err e => exact absurd rfl (hne [] (h2 e rfl).2)
      | panic => have := h1 rfl; omega
      | stuck => exact absurd rfl h3
  · obtain ⟨r, hr, hv⟩ := C45_parsed_partial env.mode std c t w words args hh hw ha hn (.inl hs)
    have hpl := plan_views B.State hv hn
    cases hm : meaning c t args with
    | call a =>
      rw [hm] at hpl
      obtain ⟨q, hq, hfr⟩ := hpl
      exact pollLine_send env std asMemory B _ r q a hr hq hfr
        (fun g hg => by rw [hv.command]; exact printed_written env std hm g hg) n world (fun g hg => hf a g hm hg)
    | message s =>
      rw [hm] at hpl
      obtain ⟨f, hq, hmsg⟩ := hpl
      exact pollLine_first env std asMemory B _ _ (fun w => by simp only [Processing.poll, hr, hq, hmsg]) n world
    | blank =>
      rw [hm] at hpl
      exact pollLine_first env std asMemory B _ _ (fun w => by simp only [Processing.poll, hr]; rw [hpl]) n world
    | unsupported =>
      rw [hm] at hpl
      exact pollLine_first env std asMemory B _ _ (fun w => by simp only [Processing.poll, hr]; rw [hpl]) n world

/-- C115: a line that cannot be parsed is refused at the first poll, and the backend is not asked anything. -/
theorem C115_refused (env : Env) (std : Std) (asMemory : ε → Option Client.Error) (B : Backend σ ε) (line : Text) (e : ParseError)
    (he : Cli.parse env.mode std line = .err e) (n : Nat) (w : σ) :
    pollLine env std asMemory B n (.fresh line) w = (atFirst (.ready (.error (.parsingInput e))) n, w) :=
  pollLine_first env std asMemory B _ _ (fun w => by simp only [Processing.poll, he]) n w

theorem memory_send (env : Env) (std : Std) {α : Type} (c : CommandId) (q : ClientRequest (memory env).State) (a : Api)
    (hq : Fresh q a none) (F : α → Got) (p : Client.Job α) (f : α → Option Text) (hs : a.start env = wrap F p)
    (hp : ∀ x, printed env std c (F x) = f x) (db : Db) :
    (awaitRequest env std some (memory env) c q db).1 = endedAs (((awaiting p f).andThen finished).run db).1 ∧
    (awaitRequest env std some (memory env) c q db).2.2 = (((awaiting p f).andThen finished).run db).2 := by
  have hpoll : ∃ r', q.poll (memory env) db = (((memory env).poll ((memory env).start a) db).1, r',
      ((memory env).poll ((memory env).start a) db).2.2) := by
    refine ⟨{ emptied q with fut := some (inFlight (memory env) none (onward ((memory env).poll ((memory env).start a) db).1
      ((memory env).poll ((memory env).start a) db).2.1)) }, ?_⟩
    unfold ClientRequest.poll
    rw [hq.fut]
    simp only [hq.backend, if_true, hq.asks, hq.typed, Block.poll_running, judged_none]
  obtain ⟨r', hr'⟩ := hpoll
  have hm : ((memory env).poll ((memory env).start a) db).1 = atOnce ((a.start env).run db).1 ∧
      ((memory env).poll ((memory env).start a) db).2.2 = ((a.start env).run db).2 := by
    simp only [memory]
    generalize (a.start env).run db = x
    obtain ⟨o, db'⟩ := x
    cases o <;> exact ⟨rfl, rfl⟩
  unfold awaitRequest
  rw [hr', hm.1, hm.2, hs]
  unfold wrap Client.bind awaiting
  rw [run_andThen, run_andThen, run_andThen]
  generalize p.run db = x
  obtain ⟨o, db'⟩ := x
  rcases o with (e | x) | e | _ | _
  · exact ⟨rfl, rfl⟩
  · simp only [Client.ret, Prog.run, atOnce, hp]
    cases f x <;> exact ⟨rfl, rfl⟩
  all_goals exact ⟨rfl, rfl⟩

/-- C115: with the in-memory backend the first poll of a line, whatever it says, does what `process` run alone does, so the
claims about that (C72 to C74) are claims about this. -/
theorem C115_memory (env : Env) (std : Std) (line : Text) (db : Db) :
    ((Processing.fresh line).poll env std some (memory env) db).1 = endedAs ((Cli.process env std line).run db).1 ∧
    ((Processing.fresh line).poll env std some (memory env) db).2.2 = ((Cli.process env std line).run db).2 := by
  cases hp : Cli.parse env.mode std line with
  | err e => simp only [Processing.poll, Cli.process, hp]; exact ⟨rfl, rfl⟩
  | panic => simp only [Processing.poll, Cli.process, hp]; exact ⟨rfl, rfl⟩
  | stuck => simp only [Processing.poll, Cli.process, hp]; exact ⟨rfl, rfl⟩
  | ok r =>
    rw [process_eq env std line r hp]
    simp only [Processing.poll, hp]
    unfold plan processInner
    cases hc : r.commandId
    case append | decrementBy | incrementBy | length | set => exact ⟨rfl, rfl⟩
    case decrement =>
      cases hk : r.key with
      | none => exact ⟨rfl, rfl⟩
      | some k =>
        exact memory_send env std .decrement _ (.decrement k none) ⟨rfl, rfl, rfl, rfl⟩ .value _ _ rfl (fun _ => rfl) db
    case increment =>
      cases hk : r.key with
      | none => exact ⟨rfl, rfl⟩
      | some k =>
        exact memory_send env std .increment _ (.increment k none) ⟨rfl, rfl, rfl, rfl⟩ .value _ _ rfl (fun _ => rfl) db
    case get =>
      cases hk : r.key with
      | none => exact ⟨rfl, rfl⟩
      | some k => exact memory_send env std .get _ (.get k) ⟨rfl, rfl, rfl, rfl⟩ .value _ _ rfl (fun _ => rfl) db
    case delete =>
      cases hk : r.key with
      | none => exact ⟨rfl, rfl⟩
      | some k => exact memory_send env std .delete _ (.delete k) ⟨rfl, rfl, rfl, rfl⟩ .bytes _ _ rfl (fun _ => rfl) db
    case type =>
      cases hk : r.key with
      | none => exact ⟨rfl, rfl⟩
      | some k => exact memory_send env std .type _ (.keyType k) ⟨rfl, rfl, rfl, rfl⟩ .kind _ _ rfl (fun _ => rfl) db
    case keys =>
      cases hk : r.key with
      | none => exact ⟨rfl, rfl⟩
      | some k => exact memory_send env std .keys _ (.keys k) ⟨rfl, rfl, rfl, rfl⟩ .list _ _ rfl (fun _ => rfl) db
    case stats => exact memory_send env std .stats _ .stats ⟨rfl, rfl, rfl, rfl⟩ .stats _ _ rfl (fun _ => rfl) db
    case rename =>
      cases hk : r.key with
      | none => exact ⟨rfl, rfl⟩
      | some k =>
        cases ha : r.arg 1 with
        | none => simp only [ha]; exact ⟨rfl, rfl⟩
        | some k' =>
          simp only [ha]
          exact memory_send env std .rename _ (.rename k k') ⟨rfl, rfl, rfl, rfl⟩ .bytes _ _ rfl (fun _ => rfl) db
    case echo =>
      cases ha : r.argsFrom 0 with
      | none => exact ⟨rfl, rfl⟩
      | some args => exact memory_send env std .echo _ (.echo (joinWith 32 args)) ⟨rfl, rfl, rfl, rfl⟩ .list _ _ rfl (fun _ => rfl) db
    case «exists» =>
      cases ha : r.argsFrom 0 with
      | none => exact ⟨rfl, rfl⟩
      | some args =>
        simp only [Plan.needing, needing, existsKeys]
        cases hk : Client.checkKeys args with
        | error e => cases e <;> exact ⟨rfl, rfl⟩
        | ok ks => exact memory_send env std .exists _ (.exists ks) ⟨rfl, rfl, rfl, rfl⟩ .bool _ _ rfl (fun _ => rfl) db
    case is =>
      cases ht : r.keyType with
      | none => exact ⟨rfl, rfl⟩
      | some t =>
        cases ha : r.argsFrom 0 with
        | none => simp only [ha]; exact ⟨rfl, rfl⟩
        | some args =>
          simp only [ha, Plan.needing, needing, isKeys]
          cases hk : Client.checkKeys args with
          | error e => cases e <;> exact ⟨rfl, rfl⟩
          | ok ks => exact memory_send env std .is _ (.is t ks) ⟨rfl, rfl, rfl, rfl⟩ .bool _ _ rfl (fun _ => rfl) db

/-- A backend that counts the calls made, keeps every caller waiting once, and then fails with the error `7`. -/
private def slow : Backend Nat Nat where
  State := Bool
  start := fun _ => false
  poll
    | false, n => (.pending, true, n + 1)
    | true, n => (.ready (.error 7), true, n)

/-- Not vacuous: `get k` on that backend asks it once, waits once and hands the error on. -/
example : pollLine (sampleEnv .debug) plainStd (fun _ => none) slow 3 (.fresh (lineOf "get".toList ["k".toList])) 0 =
    ([.pending, .ready (.error (.backend 7)), .panic], 1) := by
  rw [C115_line (sampleEnv .debug) plainStd (fun _ => none) slow .get .bytes "get".toList ["k".toList] [[107]]
    (.inl ⟨rfl, rfl⟩) (by decide) (.inr ⟨["k".toList], [], [], rfl, rfl, .nil, fun _ => rfl, by decide⟩) (by decide) 3 0
    (fun a g _ hg => by
      simp only [watch, slow, judged_none, onward, List.mem_cons, List.not_mem_nil, or_false] at hg
      rcases hg with hg | hg | hg <;> cases hg)]
  rfl

/-! ## A further concrete case -/

/-- A line that is no command reaches no backend. -/
example : pollLine (sampleEnv .debug) plainStd (fun _ => none) slow 2 (.fresh "gte k".toList) 0 =
    (atFirst (.ready (.error (.parsingInput (.invalidCommandType "gte".toList)))) 2, 0) :=
  C115_refused (sampleEnv .debug) plainStd (fun _ => none) slow "gte k".toList _ (by decide +kernel) 2 0

end Hop
