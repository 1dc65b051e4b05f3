import Verif.Spec.Server
import Verif.Lemmas.Dispatch
import Verif.Lemmas.Footprint
import Verif.Lemmas.Concurrent
import Verif.Lemmas.Lists
import Verif.Props.RequestParser

/-! # C10, C63: the server -/

namespace Hop

open Spec Prog

/-! ## Lemmas -/

/-- Whatever the program reads, counters being within `ok`, it ends with an outcome in `P`. -/
def Leaves {α} (ok : Metric → Option Nat → Prop) (P : Outcome DispatchError α → Prop) : Prog α → Prop
  | .done r => P r
  | .onKey _ _ next => ∀ o, Leaves ok P (next o)
  | .onCtr m _ next => ∀ o, ok m o → Leaves ok P (next o)

theorem Leaves.andThen {α β} {ok : Metric → Option Nat → Prop} {Q : Outcome DispatchError α → Prop}
    {P : Outcome DispatchError β → Prop} {p : Prog α} {f : Outcome DispatchError α → Prog β} (hp : Leaves ok Q p)
    (hf : ∀ r, Q r → Leaves ok P (f r)) : Leaves ok P (p.andThen f) := by
  induction p with
  | done r => exact hf r hp
  | onKey k upd next ih => exact fun o => ih o (hp o)
  | onCtr m upd next ih => exact fun o ho => ih o (hp o ho)

theorem Leaves.mono {α} {ok : Metric → Option Nat → Prop} {Q P : Outcome DispatchError α → Prop} {p : Prog α}
    (hp : Leaves ok Q p) (hf : ∀ r, Q r → P r) : Leaves ok P p := by
  induction p with
  | done r => exact hf r hp
  | onKey k upd next ih => exact fun o => ih o (hp o)
  | onCtr m upd next ih => exact fun o ho => ih o (hp o ho)

theorem Leaves.step {α} {ok : Metric → Option Nat → Prop} {P : Outcome DispatchError α → Prop} {p : Prog α}
    (hp : Leaves ok P p) {db : Db} (hdb : ∀ m, ok m (db.ctrs m)) : Leaves ok P (p.step db).1 := by
  cases p with
  | done r => exact hp
  | onKey k upd next => exact hp _
  | onCtr m upd next => exact hp _ (hdb m)

theorem Leaves.imp {α} {ok ok' : Metric → Option Nat → Prop} {P : Outcome DispatchError α → Prop} {p : Prog α}
    (hp : Leaves ok P p) (hf : ∀ m o, ok' m o → ok m o) : Leaves ok' P p := by
  induction p with
  | done r => exact hp
  | onKey k upd next ih => exact fun o => ih o (hp o)
  | onCtr m upd next ih => exact fun o ho => ih o (hp o (hf m o ho))

/-- The program increments counters at most `n` times, by one each. -/
def Incs {α} : Prog α → Nat → Prop
  | .done _, _ => True
  | .onKey _ _ next, n => ∀ o, Incs (next o) n
  | .onCtr _ upd next, n => (∀ o, upd o = o ∧ Incs (next o) n) ∨
      ∃ k, n = k + 1 ∧ ∀ o, (upd o).getD 0 ≤ o.getD 0 + 1 ∧ Incs (next o) k

theorem Incs.andThen {α β} {p : Prog α} (hp : CtrQuiet p) {f : Outcome DispatchError α → Prog β} {n : Nat}
    (hf : ∀ r, Incs (f r) n) : Incs (p.andThen f) n := by
  induction p with
  | done r => exact hf r
  | onKey k upd next ih => exact fun o => ih o (hp o)
  | onCtr m upd next ih => exact Or.inl fun o => ⟨hp.1 o, ih o (hp.2 o)⟩

theorem andThen_assoc {α β γ} (p : Prog α) (f : Outcome DispatchError α → Prog β) (g : Outcome DispatchError β → Prog γ) :
    (p.andThen f).andThen g = p.andThen fun r => (f r).andThen g := by
  induction p with
  | done r => rfl
  | onKey k upd next ih => simp only [Prog.andThen]; congr 1; funext o; exact ih o
  | onCtr m upd next ih => simp only [Prog.andThen]; congr 1; funext o; exact ih o

theorem Incs.mono {α} {p : Prog α} {n k : Nat} (h : Incs p n) (hk : n ≤ k) : Incs p k := by
  induction p generalizing n k with
  | done r => trivial
  | onKey k upd next ih => exact fun o => ih o (h o) hk
  | onCtr m upd next ih =>
    rcases h with h | ⟨j, rfl, h⟩
    · exact Or.inl fun o => ⟨(h o).1, ih o (h o).2 hk⟩
    · exact Or.inr ⟨k - 1, by omega, fun o => ⟨(h o).1, ih o (h o).2 (by omega)⟩⟩

theorem Incs.countOutcome {β} (env : Env) (r : Outcome DispatchError Bytes) {f : Outcome DispatchError Bytes → Prog β}
    {n : Nat} (hf : ∀ r, Incs (f r) n) : Incs ((countOutcome env r).andThen f) (n + 1) := by
  cases r <;> simp only [Hop.countOutcome, incrementMetric]
  case panic => exact (hf _).mono (by omega)
  case stuck => exact (hf _).mono (by omega)
  all_goals
    refine Or.inr ⟨n, rfl, ?_⟩
    intro o
    refine ⟨by simpa using addU_le, ?_⟩
    dsimp only
    split <;> exact hf _

theorem Incs.dispatch {β} (env : Env) (r : Request) (resp : Bytes) {f : Outcome DispatchError Bytes → Prog β} {n : Nat}
    (hf : ∀ r, Incs (f r) n) : Incs ((dispatch env r resp).andThen f) (n + 1) := by
  unfold Hop.dispatch
  rw [andThen_assoc]
  exact Incs.andThen (quiet_command env r resp) fun _ => Incs.countOutcome env _ hf

theorem incs_loop (env : Env) (pieces : List Bytes) (ctx : ReqParser.Ctx) (input sent : Bytes) :
    Incs (Server.loop env ctx input sent pieces) pieces.length := by
  induction pieces generalizing ctx input sent with
  | nil => trivial
  | cons piece pieces ih =>
    rw [Server.loop]
    split
    · refine Incs.dispatch env _ _ fun r => ?_
      cases r <;> first | trivial | exact ih _ _ _
    · exact (ih _ _ _).mono (by simp)
    · exact (ih _ _ _).mono (by simp)
    · trivial
    · trivial

/-- Room for all increments to come, and one more. -/
def Funded {α} (p : Pool α) : Prop :=
  ∃ ns : List Nat, ns.length = p.threads.length ∧
    (∀ (i : Nat) (t : Prog α) (n : Nat), p.threads[i]? = some t → ns[i]? = some n → Incs t n) ∧
    Roomy (1 + ns.sum) p.db.ctrs

theorem sum_set {l : List Nat} {i a : Nat} (h : l[i]? = some (a + 1)) : (l.set i a).sum + 1 = l.sum := by
  induction l generalizing i with
  | nil => simp at h
  | cons x xs ih =>
    cases i with
    | zero => simp at h; subst h; simp; omega
    | succ i => simp at h; have := ih h; simp; omega

theorem Funded.step {α} {p : Pool α} (h : Funded p) (i : Nat) : Funded (p.stepAt i) := by
  cases ht : p.threads[i]? with
  | none => rw [Pool.stepAt_none ht]; exact h
  | some t =>
    obtain ⟨ns, hl, hi, hr⟩ := h
    obtain ⟨h1, h2⟩ := List.getElem?_eq_some_iff.mp ht
    obtain ⟨n, hn⟩ : ∃ n, ns[i]? = some n := ⟨_, List.getElem?_eq_getElem (by omega)⟩
    have hit := hi i t n ht hn
    have keep : ∀ (t' : Prog α) (db : Db), Incs t' n → Roomy (1 + ns.sum) db.ctrs →
        Funded { threads := p.threads.set i t', db := db } := by
      intro t' db h3 h4
      refine ⟨ns, by simpa using hl, ?_, h4⟩
      intro j u k hj hk
      by_cases e : i = j
      · subst e
        simp [h1] at hj; subst hj
        rw [hn] at hk; cases hk; exact h3
      · simp only [List.getElem?_set_ne e] at hj
        exact hi j u k hj hk
    rw [Pool.stepAt_some ht]
    cases t with
    | done r => exact keep _ _ trivial hr
    | onKey k upd next => exact keep _ _ (hit _) (by intro m; exact hr m)
    | onCtr m upd next =>
      simp only [Prog.step]
      rcases hit with hq | ⟨k, rfl, hq⟩
      · refine keep _ _ (hq _).2 ?_
        intro m'
        simp only [Db.setCtr, (hq _).1]
        split
        · subst_vars; exact hr _
        · exact hr m'
      · refine ⟨ns.set i k, by simpa using hl, ?_, ?_⟩
        · intro j u k' hj hk
          by_cases e : i = j
          · subst e
            simp [h1] at hj; subst hj
            rw [List.getElem?_set_self (by omega)] at hk; cases hk
            exact (hq _).2
          · simp only [List.getElem?_set_ne e] at hj hk
            exact hi j u k' hj hk
        · intro m'
          have hs := sum_set hn
          have h3 := hr m'
          have h4 := hr m
          have h5 := (hq (p.db.ctrs m)).1
          simp only [Db.setCtr]
          split
          · subst_vars; omega
          · omega

theorem Funded.exec {α} {p : Pool α} (h : Funded p) (s : List Nat) : Funded (p.exec s) := by
  induction s using snoc_induction with
  | h0 => exact h
  | h1 s i ih => rw [Pool.exec_snoc]; exact ih.step i

theorem Funded.room {α} {p : Pool α} (h : Funded p) (m : Metric) : (p.db.ctrs m).getD 0 + 1 < 2 ^ 64 := by
  obtain ⟨ns, -, -, hr⟩ := h
  have := hr m
  omega

theorem Funded.serve (env : Env) (streams : List Bytes) (db : Db) (h : Roomy (1 + pieceCount streams) db.ctrs) :
    Funded (Server.serve env streams db) := by
  refine ⟨streams.map fun s => (Server.lines s).length, by simp [Server.serve], ?_, h⟩
  intro i t n ht hn
  simp only [Server.serve, List.getElem?_map, Option.map_eq_some_iff] at ht hn
  obtain ⟨s, hs, rfl⟩ := ht
  obtain ⟨s', hs', rfl⟩ := hn
  rw [hs] at hs'; cases hs'
  exact incs_loop env _ _ _ _

/-- A counter that can be incremented once more. -/
def Room (_ : Metric) (o : Option Nat) : Prop := o.getD 0 + 1 < 2 ^ 64

/-- The request the parser makes of a buffer. -/
def bare (buf : Bytes) (c : CommandId) : Request := { buf := buf, commandId := c, keyType := none, positions := [] }

theorem statsLoop_cons {α} (next : BMap → Prog α) (c : Metric) (cs : List Metric) (m : BMap) :
    statsLoop next (c :: cs) m = readCtr c fun o => statsLoop next cs (match o with
      | some n => if n < 2 ^ 63 then m.insert (ascii c.name) (i64Bytes (Int64.ofNat n)) else m
      | none => m) := by
  rw [statsLoop]
  congr 1
  funext o
  cases o with
  | none => rfl
  | some n => dsimp only; split <;> rfl

theorem reported_length {ctrs : Metric → Option Nat} {m : Metric} {v : Bytes} (h : reported ctrs m = some v) :
    v.length = 8 := by
  unfold reported at h
  split at h
  · split at h
    · cases h; exact beBytes_length _ _
    · cases h
  · cases h

theorem statistics_small (ctrs : Metric → Option Nat) : ((statistics ctrs).flatMap mapItem).length ≤ 200 := by
  have l1 : (ascii "commands_errored").length = 16 := by decide +kernel
  have l2 : (ascii "commands_successful").length = 19 := by decide +kernel
  have l3 : (ascii "sessions_started").length = 16 := by decide +kernel
  have key : ∀ m s, (ascii s).length ≤ 19 → 
      ((((reported ctrs m).map fun n => (ascii s, n)).toList).flatMap mapItem).length ≤ 32 := by
    intro m s hs
    cases h : reported ctrs m with
    | none => simp
    | some v => have := reported_length h; simp [mapItem_length]; omega
  have e : statistics ctrs = (((reported ctrs .commandsErrored).map fun n => (ascii "commands_errored", n)).toList) ++
      ((((reported ctrs .commandsSuccessful).map fun n => (ascii "commands_successful", n)).toList) ++
      (((reported ctrs .sessionsStarted).map fun n => (ascii "sessions_started", n)).toList)) := by
    unfold statistics
    simp only [List.filterMap_cons, List.filterMap_nil]
    cases reported ctrs .commandsErrored <;> cases reported ctrs .commandsSuccessful <;>
      cases reported ctrs .sessionsStarted <;> rfl
  rw [e, List.flatMap_append, List.flatMap_append, List.length_append, List.length_append]
  have := key .commandsErrored "commands_errored" (by omega)
  have := key .commandsSuccessful "commands_successful" (by omega)
  have := key .sessionsStarted "sessions_started" (by omega)
  omega

theorem leaves_stats (env : Env) (buf : Bytes) (ok : Metric → Option Nat → Prop) :
    Leaves ok (fun o => ∃ r, Answers ok .stats r ∧ o = .ok (frame (ordered env r)))
      (command env (bare buf .stats) []) := by
  simp only [command, bare, dispatchStats, Option.isSome_none, Bool.false_eq_true, if_false, statsCounters,
    statsLoop_cons]
  intro o1 h1 o2 h2 o3 h3
  let ctrs : Metric → Option Nat := fun
    | .commandsErrored => o1
    | .commandsSuccessful => o2
    | .sessionsStarted => o3
    | .sessionsEnded => none
  have hs := statistics_eq ctrs
  simp only [statsCounters, List.foldl_cons, List.foldl_nil, ctrs] at hs
  refine ⟨_, ⟨ctrs, ?_, rfl⟩, (congrArg (fun m => Outcome.ofOption (Response.writeMap env [] m)) hs).trans ?_⟩
  · intro m hm
    simp only [List.mem_cons, List.not_mem_nil, or_false] at hm
    rcases hm with rfl | rfl | rfl <;> assumption
  have hd : Deliverable env.mode (.value (.map (statistics ctrs))) := by
    refine ⟨?_, fun _ l e => by cases e⟩
    have := statistics_small ctrs
    simp only [body, payload, List.length_cons, List.length_append, beBytes_length]
    omega
  have hw := writeValue_deliverable hd []
  simp only [Response.writeValue, List.nil_append] at hw
  exact congrArg Outcome.ofOption hw

/-- Every dispatch of a request as the parser delivers it. -/
theorem leaves_dispatch (env : Env) (buf : Bytes) (c : CommandId) (ok : Metric → Option Nat → Prop)
    (hok : ∀ m o, ok m o → Room m o) :
    Leaves ok (fun o => ∃ r, Answers ok c r ∧
        (((∃ v, r = .value v) ∧ o = .ok (frame (ordered env r))) ∨ ∃ e, r = .dispatchError e ∧ o = .err e))
      (dispatch env (bare buf c) []) := by
  have count : ∀ o : Outcome DispatchError Bytes, o ≠ .panic → o ≠ .stuck →
      Leaves ok (fun o' => o' = o) (countOutcome env o) := by
    intro o h1 h2
    cases o with
    | ok a =>
      intro x hx
      have hx := hok _ _ hx
      unfold Room at hx
      simp only [addU, if_pos hx]
      rfl
    | err e =>
      intro x hx
      have hx := hok _ _ hx
      unfold Room at hx
      simp only [addU, if_pos hx]
      rfl
    | panic => exact absurd rfl h1
    | stuck => exact absurd rfl h2
  have refuse : ∀ e, command env (bare buf c) [] = .done (.err e) → Answers ok c (.dispatchError e) →
      Leaves ok (fun o => ∃ r, Answers ok c r ∧
        (((∃ v, r = .value v) ∧ o = .ok (frame (ordered env r))) ∨ ∃ e, r = .dispatchError e ∧ o = .err e)) (dispatch env (bare buf c) []) := by
    intro e h1 h2
    unfold dispatch
    rw [h1]
    refine (count (.err e) (by simp) (by simp)).mono ?_
    rintro o rfl
    exact ⟨_, h2, .inr ⟨e, rfl, rfl⟩⟩
  cases c with
  | stats =>
    refine (leaves_stats env buf ok).andThen ?_
    rintro o ⟨r, hr, rfl⟩
    refine (count _ (by simp) (by simp)).mono ?_
    rintro o rfl
    exact ⟨r, hr, .inl ⟨by obtain ⟨ctrs, -, rfl⟩ := hr; exact ⟨_, rfl⟩, rfl⟩⟩
  | echo =>
    have : command env (bare buf .echo) [] = .done (.ok (frame (ordered env (.value (.list []))))) := by
      have hw : Response.writeList env.mode [] [] = some (frame (.value (.list []))) := by
        cases env.mode <;> decide +kernel
      simp [command, bare, dispatchEcho, Request.argsFrom, Request.argCount, hw, ordered, orderedValue, Outcome.ofOption]
    unfold dispatch
    rw [this]
    refine (count _ (by simp) (by simp)).mono ?_
    rintro o rfl
    exact ⟨_, rfl, .inl ⟨⟨_, rfl⟩, rfl⟩⟩
  | «exists» => exact refuse .argumentRetrieval rfl rfl
  | is => exact refuse .keyTypeRequired rfl rfl
  | append => exact refuse .keyUnspecified rfl rfl
  | decrement => exact refuse .keyUnspecified rfl rfl
  | decrementBy => exact refuse .keyUnspecified rfl rfl
  | delete => exact refuse .keyUnspecified rfl rfl
  | get => exact refuse .keyUnspecified rfl rfl
  | increment => exact refuse .keyUnspecified rfl rfl
  | incrementBy => exact refuse .keyUnspecified rfl rfl
  | keys => exact refuse .keyUnspecified rfl rfl
  | length => exact refuse .keyUnspecified rfl rfl
  | rename => exact refuse .keyUnspecified rfl rfl
  | set => exact refuse .keyUnspecified rfl rfl
  | type => exact refuse .keyUnspecified rfl rfl

theorem frame_dispatchError (env : Env) (e : DispatchError) :
    Response.writeDispatchError [] e = frame (ordered env (.dispatchError e)) := by
  cases e <;> rfl

theorem frame_parseError (env : Env) (e : ReqParseError) :
    Response.writeParseError [] e = frame (ordered env (.parseError e)) := by
  cases e <;> rfl

/-- What the parser makes of the bytes collected since the last answer. -/
theorem feed_understood {sofar : Bytes} {ctx : ReqParser.Ctx} (h : Waiting sofar ctx) (piece : Bytes) :
    match ReqParser.feed ctx (sofar ++ piece) with
    | (.request r, c') => c' = ReqParser.Ctx.new ∧ r = bare (sofar ++ piece) r.commandId ∧ Asks (sofar ++ piece) r.commandId
    | (.error e, c') => c' = ReqParser.Ctx.new ∧ Unreadable (sofar ++ piece) e
    | (.more, c') => Waiting (sofar ++ piece) c' ∧ (∀ h, ¬ Understood (sofar ++ piece) h) ∧ ¬ Overfull (sofar ++ piece)
    | (.panic, _) => Overfull (sofar ++ piece)
    | (.stuck, _) => False := by
  have hw := C06_waiting h piece
  have hp := C09_panic_iff sofar piece ctx h
  cases hf : ReqParser.feed ctx (sofar ++ piece) with
  | mk o c' =>
    have hn := hf
    rw [hw] at hn
    cases o with
    | request r =>
      obtain ⟨h1, h2⟩ := (C49_accepted _ _ _).mp hn
      refine ⟨h1, ?_⟩
      rcases h2 with ⟨rest, h2, rfl⟩ | ⟨cmd, n, k, h2, h3, h4, rfl⟩
      · exact ⟨rfl, .inl ⟨rfl, rest, h2⟩⟩
      · exact ⟨rfl, .inr ⟨h2, n, k, h3, h4⟩⟩
    | error e =>
      obtain ⟨-, h1, h2⟩ := (C09_error_iff _ _ _ _ Reachable.new).mp hn
      exact ⟨h1, h2⟩
    | more =>
      refine ⟨.more h hf, ?_, ?_⟩
      · intro x hx
        cases x with
        | command c =>
          rcases hx with ⟨rfl, rest, h2⟩ | ⟨h2, n, k, h3, h4⟩
          · have := (C49_accepted (sofar ++ piece) _ _).mpr ⟨rfl, .inl ⟨rest, h2, rfl⟩⟩
            rw [hn] at this; simp at this
          · have := (C49_accepted (sofar ++ piece) _ _).mpr ⟨rfl, .inr ⟨c, n, k, h2, h3, h4, rfl⟩⟩
            rw [hn] at this; simp at this
        | garbage e =>
          have := (C09_error_iff _ _ (sofar ++ piece) e Reachable.new).mpr ⟨rfl, rfl, hx⟩
          rw [hn] at this; simp at this
      · intro ho
        have := hp.mpr ho
        rw [hf] at this; simp at this
    | panic => exact hp.mp (by rw [hf])
    | stuck => exact (C09_terminates ctx (sofar ++ piece)).1 (by rw [hf])

theorem leaves_loop (env : Env) (ok : Metric → Option Nat → Prop) (hok : ∀ m o, ok m o → Room m o) (pieces : List Bytes) :
    ∀ (sofar sent : Bytes) (ctx : ReqParser.Ctx), Waiting sofar ctx →
      Leaves ok (fun o => ∃ hs e rs, Hears sofar pieces hs e ∧ All2 (Responds ok) hs rs ∧
        o = .ok (e, sent ++ wire env rs)) (Server.loop env ctx sofar sent pieces) := by
  induction pieces with
  | nil =>
    intro sofar sent ctx _
    exact ⟨[], _, [], .close, .nil, by simp [wire]⟩
  | cons piece pieces ih =>
    intro sofar sent ctx hw
    have hu := feed_understood hw piece
    rw [Server.loop]
    cases hf : ReqParser.feed ctx (sofar ++ piece) with
    | mk o c' =>
    rw [hf] at hu
    cases o with
    | request r =>
      obtain ⟨rfl, hr, ha⟩ := hu
      dsimp only
      rw [hr]
      refine (leaves_dispatch env _ _ ok hok).andThen ?_
      rintro o ⟨a, h1, h2⟩
      have next : ∀ out, out = frame (ordered env a) → Leaves ok (fun o => ∃ hs e rs,
          Hears sofar (piece :: pieces) hs e ∧ All2 (Responds ok) hs rs ∧ o = .ok (e, sent ++ wire env rs))
          (Server.loop env ReqParser.Ctx.new [] (sent ++ out) pieces) := by
        rintro out rfl
        refine (ih [] _ _ .start).mono ?_
        rintro o ⟨hs, e, rs, h3, h4, rfl⟩
        refine ⟨.command r.commandId :: hs, e, a :: rs, .hear ha h3, .cons h1 h4, ?_⟩
        simp [wire]
      rcases h2 with ⟨-, rfl⟩ | ⟨e, rfl, rfl⟩
      · exact next _ rfl
      · exact next _ (frame_dispatchError env e)
    | error e =>
      obtain ⟨rfl, hu⟩ := hu
      refine (ih [] _ _ .start).mono ?_
      rintro o ⟨hs, e', rs, h3, h4, rfl⟩
      refine ⟨.garbage e :: hs, e', .parseError e :: rs, .hear hu h3, .cons rfl h4, ?_⟩
      simp [wire, frame_parseError env]
    | more =>
      obtain ⟨h1, h2, h3⟩ := hu
      refine (ih _ _ _ h1).mono ?_
      rintro o ⟨hs, e', rs, h4, h5, rfl⟩
      exact ⟨hs, e', rs, .wait h2 h3 h4, h5, rfl⟩
    | panic => exact ⟨[], _, [], .crash hu, .nil, by simp [wire]⟩
    | stuck => exact hu.elim

/-- Leaves in a pool. -/
theorem Leaves.exec {α} {p : Pool α} {i : Nat} {P : Outcome DispatchError α → Prop} {t : Prog α} (sched : List Nat)
    (h0 : p.threads[i]? = some t) (hl : Leaves (SeenDuring p sched) P t) :
    ∃ t', (p.exec sched).threads[i]? = some t' ∧ Leaves (SeenDuring p sched) P t' := by
  suffices H : ∀ s u, sched = s ++ u → ∃ t', (p.exec s).threads[i]? = some t' ∧ Leaves (SeenDuring p sched) P t' from
    H sched [] (by simp)
  intro s
  induction s using snoc_induction with
  | h0 => exact fun _ _ => ⟨t, h0, hl⟩
  | h1 s j ih =>
    intro u hu
    obtain ⟨t', h1, h2⟩ := ih (j :: u) (by simp [hu])
    rw [Pool.exec_snoc]
    by_cases e : i = j
    · subst e
      exact ⟨_, (Pool.stepAt_self h1).1, h2.step fun m => ⟨s, i :: u, by simp [hu], rfl⟩⟩
    · exact ⟨t', by rw [Pool.stepAt_other _ e]; exact h1, h2⟩

theorem writes_loop (env : Env) (pieces : List Bytes) :
    ∀ (sofar sent : Bytes) (ctx : ReqParser.Ctx), Waiting sofar ctx →
      Writes (fun _ => False) (Server.loop env ctx sofar sent pieces) := by
  induction pieces with
  | nil => intro _ _ _ _; trivial
  | cons piece pieces ih =>
    intro sofar sent ctx hw
    have hu := feed_understood hw piece
    rw [Server.loop]
    cases hf : ReqParser.feed ctx (sofar ++ piece) with
    | mk o c' =>
    rw [hf] at hu
    cases o with
    | request r =>
      obtain ⟨rfl, hr, -⟩ := hu
      dsimp only
      have ha : ∀ i, r.arg i = none := fun i => by rw [hr]; rfl
      refine Writes.andThen (writes_dispatch (fun _ k hk => by rw [ha] at hk; cases hk)
        (fun _ k hk => by rw [ha] at hk; cases hk)) fun o => ?_
      cases o <;> first | trivial | exact ih _ _ _ .start
    | error e => obtain ⟨rfl, -⟩ := hu; exact ih _ _ _ .start
    | more => exact ih _ _ _ hu.1
    | panic => trivial
    | stuck => trivial

/-! ## C63 What a TCP client can obtain and change: nothing -/

/-- C63, as far as stored data goes: whatever bytes any number of clients send, at every moment of every
interleaving the stored keys are what they were. No hypothesis whatsoever. -/
theorem C63_no_key_changes (env : Env) (streams : List Bytes) (db : Db) (sched : List Nat) :
    ((Server.serve env streams db).exec sched).db.keys = db.keys := by
  suffices H : (∀ t ∈ ((Server.serve env streams db).exec sched).threads, Writes (fun _ => False) t) ∧
      ((Server.serve env streams db).exec sched).db.keys = db.keys from H.2
  induction sched using snoc_induction with
  | h0 =>
    refine ⟨?_, rfl⟩
    intro t ht
    simp only [Pool.exec_nil, Server.serve, List.mem_map] at ht
    obtain ⟨s, -, rfl⟩ := ht
    exact writes_loop env _ _ _ _ .start
  | h1 s i ih =>
    rw [Pool.exec_snoc]
    generalize (Server.serve env streams db).exec s = p at ih
    cases ht : p.threads[i]? with
    | none => rw [Pool.stepAt_none ht]; exact ih
    | some t =>
      have hw := Writes.step (ih.1 t (List.mem_of_getElem? ht)) p.db
      rw [Pool.stepAt_some ht]
      refine ⟨?_, ?_⟩
      · intro t' ht'
        rcases List.mem_or_eq_of_mem_set ht' with h | rfl
        · exact ih.1 t' h
        · exact hw.1
      · rw [← ih.2]; funext k; exact hw.2 k (by simp)

/-- C63, the replies. When a connection has ended, it has received exactly one response frame, in order,
for each command or piece of garbage heard in its stream, and nothing else. The only commands that are not
refused are Stats, which shows counter values of the time, and Echo, which answers an empty list. The
connection breaks down exactly if the client sends an overfull request. -/
theorem C63_replies (env : Env) (streams : List Bytes) (db : Db)
    (hr : Roomy (1 + pieceCount streams) db.ctrs) (sched : List Nat) (i : Nat) (stream : Bytes)
    (hi : streams[i]? = some stream) (o : Outcome DispatchError (Server.End × Bytes))
    (ho : ((Server.serve env streams db).exec sched).threads[i]? = some (.done o)) :
    ∃ hs e rs, Hears [] (Server.lines stream) hs e ∧
      All2 (Responds (SeenDuring (Server.serve env streams db) sched)) hs rs ∧ o = .ok (e, wire env rs) := by
  have hok : ∀ m x, SeenDuring (Server.serve env streams db) sched m x → Room m x := by
    rintro m _ ⟨s, t, -, rfl⟩
    exact ((Funded.serve env streams db hr).exec s).room m
  obtain ⟨t', h1, h2⟩ := Leaves.exec (p := Server.serve env streams db) (i := i) sched
    (by simp [Server.serve, hi]; rfl) (leaves_loop env _ hok (Server.lines stream) [] [] _ .start)
  rw [ho] at h1
  cases h1
  obtain ⟨hs, e, rs, h3, h4, h5⟩ := h2
  exact ⟨hs, e, rs, h3, h4, by simpa using h5⟩

/-! What is heard depends on the bytes alone, not on how the parser came to see them. -/

theorem CommandId.toByte_inj {c d : CommandId} (h : c.toByte = d.toByte) : c = d := by
  cases c <;> cases d <;> first | rfl | exact absurd h (by decide)

theorem Asks.unique {buf : Bytes} {c d : CommandId} (h : Asks buf c) (h' : Asks buf d) : c = d := by
  have hd : ∀ c, Asks buf c → ∃ rest, buf = c.toByte :: rest := by
    intro c h
    rcases h with ⟨rfl, rest, h⟩ | ⟨-, n, k, -, l, t, h, -⟩
    · exact ⟨rest, h⟩
    · exact ⟨_, h⟩
  obtain ⟨r, h1⟩ := hd c h
  obtain ⟨r', h2⟩ := hd d h'
  rw [h1] at h2
  exact CommandId.toByte_inj (List.cons.inj h2).1

theorem Asks.readable {buf : Bytes} {c : CommandId} {e : ReqParseError} (h : Asks buf c) : ¬ Unreadable buf e := by
  rintro ⟨b, rest, rfl, hb, -⟩
  rcases h with ⟨rfl, rest, h⟩ | ⟨-, n, k, -, l, t, h, -⟩ <;> exact hb _ (List.cons.inj h).1.symm

theorem Asks.not_overfull {buf : Bytes} {c : CommandId} (h : Asks buf c) : ¬ Overfull buf := by
  rintro ⟨d, hd, l, t, hb, -⟩
  rcases h with ⟨rfl, rest, h⟩ | ⟨-, n, k, hn, l, t, h, -⟩
  · rw [hb] at h
    exact hd (CommandId.toByte_inj (List.cons.inj h).1)
  · rw [hb] at h
    obtain ⟨-, h⟩ := List.cons.inj h
    obtain ⟨rfl, -⟩ := List.cons.inj h
    simp at hn

theorem Understood.unique {buf : Bytes} {h h' : Heard} (hu : Understood buf h) (hu' : Understood buf h') : h = h' := by
  cases h <;> cases h'
  · rw [Asks.unique hu hu']
  · exact (Asks.readable hu hu').elim
  · exact (Asks.readable hu' hu).elim
  · obtain ⟨b, r, rfl, -, rfl⟩ := hu
    obtain ⟨b', r', h, -, rfl⟩ := hu'
    cases h; rfl

theorem Understood.not_overfull {buf : Bytes} {h : Heard} (hu : Understood buf h) : ¬ Overfull buf := by
  cases h with
  | command c => exact Asks.not_overfull hu
  | garbage e =>
    obtain ⟨b, r, rfl, hb, -⟩ := hu
    rintro ⟨d, -, l, t, h, -⟩
    exact hb d (List.cons.inj h).1.symm

/-- C63. What is heard in a stream, and whether it breaks the connection, is determined by the stream. -/
theorem C63_heard_unique {sofar : Bytes} {pieces : List Bytes} {hs hs' : List Heard} {e e' : Server.End}
    (h : Hears sofar pieces hs e) (h' : Hears sofar pieces hs' e') : hs = hs' ∧ e = e' := by
  induction h generalizing hs' e' with
  | close => cases h'; exact ⟨rfl, rfl⟩
  | wait h1 h2 _ ih =>
    cases h' with
    | wait _ _ h3 => exact ih h3
    | hear h3 _ => exact (h1 _ h3).elim
    | crash h3 => exact (h2 h3).elim
  | hear h1 _ ih =>
    cases h' with
    | wait h2 _ _ => exact (h2 _ h1).elim
    | hear h2 h3 => obtain ⟨rfl, rfl⟩ := ih h3; rw [Understood.unique h1 h2]; exact ⟨rfl, rfl⟩
    | crash h3 => exact (Understood.not_overfull h1 h3).elim
  | crash h1 =>
    cases h' with
    | wait _ h2 _ => exact (h2 h1).elim
    | hear h2 _ => exact (Understood.not_overfull h2 h1).elim
    | crash _ => exact ⟨rfl, rfl⟩

/-- C63. The server looks at the stream in pieces: every byte once, in order, cut after newlines only. -/
theorem C63_pieces (stream : Bytes) :
    (Server.lines stream).flatten = stream ∧
    (∀ piece ∈ Server.lines stream, piece ≠ [] ∧ (10 : UInt8) ∉ piece.dropLast) ∧
    ∀ (i : Nat) piece, i + 1 < (Server.lines stream).length → (Server.lines stream)[i]? = some piece →
      piece.getLast? = some (10 : UInt8) := by
  induction stream with
  | nil => simp [Server.lines]
  | cons b rest ih =>
    obtain ⟨h1, h2, h3⟩ := ih
    rw [Server.lines]
    split
    · rename_i hb
      subst hb
      refine ⟨by simp [h1], ?_, ?_⟩
      · intro piece hp
        rcases List.mem_cons.mp hp with rfl | hp
        · simp
        · exact h2 piece hp
      · intro i piece hi hp
        cases i with
        | zero => simp at hp; subst hp; rfl
        | succ i => exact h3 i piece (by simpa using hi) (by simpa using hp)
    · rename_i hb
      cases hl : Server.lines rest with
      | nil =>
        rw [hl] at h1
        simp at h1
        subst h1
        simp
      | cons l ls =>
        rw [hl] at h1 h2 h3
        refine ⟨by simpa using h1, ?_, ?_⟩
        · intro piece hp
          rcases List.mem_cons.mp hp with rfl | hp
          · have := h2 l (by simp)
            refine ⟨by simp, ?_⟩
            rw [List.dropLast_cons_of_ne_nil this.1]
            simp [this.2, Ne.symm hb]
          · exact h2 piece (List.mem_cons_of_mem _ hp)
        · intro i piece hi hp
          cases i with
          | zero =>
            simp at hp; subst hp
            have := h3 0 l (by simpa using hi) rfl
            rw [List.getLast?_cons_of_ne_nil (h2 l (by simp)).1]
            exact this
          | succ i => exact h3 (i + 1) piece (by simpa using hi) (by simpa using hp)

/-! ## C10 -/

/-- C10, the full claim about writes, for the simplest of them: after a client has sent a Set request with
a key and bytes and the connection has ended, the key holds them. -/
def C10_Statement : Prop :=
  ∀ (env : Env) (db : Db) (k v : Bytes) (b : Builder) (sched : List Nat),
    k ≠ [] → v ≠ [] → (Builder.newWithKeyType .set none).bytesAll env.mode [k, v] = (.ok (), b) →
    (∀ t ∈ ((Server.serve env [b.intoRequest.buf] db).exec sched).threads, Ended t) →
    ((Server.serve env [b.intoRequest.buf] db).exec sched).db.keys k = some (.bytes v)

theorem C10_false : ¬ C10_Statement := by
  intro h
  obtain ⟨b, hb, he⟩ := C02_layout .debug .set none [[107], [118]] (by simp) (by simp) (by simp)
  have := h (sampleEnv .debug) (sampleDb []) [107] [118] b [0, 0] (by simp) (by simp) hb (by
    rw [he]
    have : ((Server.serve (sampleEnv .debug) [encode .set none [[107], [118]]] (sampleDb [])).exec [0, 0]).threads.all
        (fun t => !live t) = true := by decide +kernel
    intro t ht
    have := List.all_eq_true.mp this t ht
    cases t <;> first | trivial | simp [live] at this)
  rw [C63_no_key_changes] at this
  simp [sampleDb] at this

/-- What is left of C10: the replies are well-formed response frames, one for each frame heard (missing:
the writes take effect; false, `C10_false`). -/
theorem C10_replies_partial (env : Env) (streams : List Bytes) (db : Db)
    (hr : Roomy (1 + pieceCount streams) db.ctrs) (sched : List Nat) (i : Nat) (stream : Bytes)
    (hi : streams[i]? = some stream) (o : Outcome DispatchError (Server.End × Bytes))
    (ho : ((Server.serve env streams db).exec sched).threads[i]? = some (.done o)) :
    ∃ hs e rs, Hears [] (Server.lines stream) hs e ∧ rs.length = hs.length ∧ o = .ok (e, wire env rs) := by
  obtain ⟨hs, e, rs, h1, h2, h3⟩ := C63_replies env streams db hr sched i stream hi o ho
  refine ⟨hs, e, rs, h1, ?_, h3⟩
  clear h1 h3 ho
  induction h2 with
  | nil => rfl
  | cons _ _ ih => simp [ih]

/-- What a connection received, if it has ended. -/
def received (p : Pool (Server.End × Bytes)) (i : Nat) : Option (Server.End × Bytes) :=
  match p.threads[i]? with
  | some (.done (.ok r)) => some r
  | _ => none

/-- Two clients at once. The first sends an Append request in two pieces and an invalid command, the second
a Stats request, which counts the failure of the other's Append, and an Echo. -/
example : let streams : List Bytes :=
      [[20, 2, 0, 0, 0, 1, 107, 0, 0, 0, 6, 10, 2, 3, 4, 5, 10, 99, 10], [101, 10, 100, 1, 0, 0, 0, 1, 107]]
    let p := (Server.serve (sampleEnv .debug) streams (sampleDb [([107], .integer 1)])).exec [0, 1, 1, 1, 1, 1]
    (received p 0, received p 1) =
      (some (.closed, wire (sampleEnv .debug) [.dispatchError .keyUnspecified, .parseError .commandIdInvalid]),
       some (.closed, wire (sampleEnv .debug) [.value (.map [(ascii "commands_errored", beBytes 8 1)]), .value (.list [])])) ∧
    Roomy (1 + pieceCount streams) (sampleDb [([107], .integer 1)]).ctrs ∧
    Server.lines streams[0] = [[20, 2, 0, 0, 0, 1, 107, 0, 0, 0, 6, 10], [2, 3, 4, 5, 10], [99, 10]] := by
  refine ⟨by decide +kernel, ?_, by decide +kernel⟩
  intro m
  cases m <;> decide +kernel

/-! ## Further concrete cases -/

/-- Two connections: whatever the schedule, the first, when it has ended, has got answers to what the server heard. -/
example (sched : List Nat) (o : Outcome DispatchError (Server.End × Bytes))
    (ho : ((Server.serve (sampleEnv .debug) [[20, 2, 0, 0, 0, 1, 107, 0, 0, 0, 1, 7, 10], [99, 10]] (sampleDb [([107], .integer 1)])).exec
      sched).threads[0]? = some (.done o)) :
    ∃ hs e rs, Hears [] (Server.lines [20, 2, 0, 0, 0, 1, 107, 0, 0, 0, 1, 7, 10]) hs e ∧ rs.length = hs.length ∧ o = .ok (e, wire (sampleEnv .debug) rs) :=
  C10_replies_partial (sampleEnv .debug) _ _ (by intro m; cases m <;> decide +kernel) sched 0 _ rfl o ho

example (sched : List Nat) (o : Outcome DispatchError (Server.End × Bytes))
    (ho : ((Server.serve (sampleEnv .debug) [[20, 2, 0, 0, 0, 1, 107, 0, 0, 0, 1, 7, 10], [99, 10]] (sampleDb [([107], .integer 1)])).exec
      sched).threads[1]? = some (.done o)) :
    ∃ hs e rs, Hears [] (Server.lines [99, 10]) hs e ∧
      All2 (Responds (SeenDuring (Server.serve (sampleEnv .debug) [[20, 2, 0, 0, 0, 1, 107, 0, 0, 0, 1, 7, 10], [99, 10]]
        (sampleDb [([107], .integer 1)])) sched)) hs rs ∧ o = .ok (e, wire (sampleEnv .debug) rs) :=
  C63_replies (sampleEnv .debug) _ _ (by intro m; cases m <;> decide +kernel) sched 1 _ rfl o ho

end Hop
