import Verif.Spec.Hop
import Verif.Props.Queries
import Verif.Props.Sessions
import Verif.Props.PubSub

/-! # C76 to C79: configuration, and the parts of an engine together -/

namespace Hop

open Spec Prog

/-! ## The builder -/

theorem builder_snoc (ops : List BuilderOp) (o : BuilderOp) :
    (ops ++ [o]).foldl BuilderOp.apply .new = o.apply (ops.foldl BuilderOp.apply .new) := by
  simp

/-- **C77, what the configuration reports.** The last value given for an option, or its default: publish/
subscribe on, 2^64 - 1 sessions. -/
theorem C77_reports (ops : List BuilderOp) :
    (built ops).config.pubsubEnabled = (lastPubsub ops).getD true ∧
    (built ops).config.sessionsActiveMax.toNat = ((lastMax ops).map UInt64.toNat).getD (2 ^ 64 - 1) := by
  induction ops using snoc_ind with
  | h0 => exact ⟨rfl, rfl⟩
  | h1 ops o ih =>
    obtain ⟨i1, i2⟩ := ih
    simp only [built, HopEngine.build, builder_snoc] at i1 i2 ⊢
    cases o with
    | pubsub on =>
      refine ⟨by simp [BuilderOp.apply, HopBuilder.pubsubEnabled, lastPubsub], ?_⟩
      rw [show lastMax (ops ++ [.pubsub on]) = lastMax ops by simp [lastMax]]
      exact i2
    | sessionsMax n =>
      refine ⟨?_, by simp [BuilderOp.apply, HopBuilder.sessionsActiveMax, lastMax]⟩
      rw [show lastPubsub (ops ++ [.sessionsMax n]) = lastPubsub ops by simp [lastPubsub]]
      exact i1

example : (built [.pubsub true, .sessionsMax 150, .pubsub false]).config = ⟨false, 150⟩ := by decide

/-- The same engine with another configuration. -/
def HopEngine.reconfigured (e : HopEngine) (c : HopConfig) : HopEngine := { e with config := c }

theorem apply_reconfigured (env : Env) (e : HopEngine) (c : HopConfig) (o : HopOp) :
    o.apply env (e.reconfigured c) = ((o.apply env e).1, (o.apply env e).2.reconfigured c) := by
  cases o with
  | dispatch r resp => rfl
  | session o => cases o <;> rfl
  | sub o => cases o <;> rfl

theorem applyAll_reconfigured (env : Env) (e : HopEngine) (c : HopConfig) (h : List HopOp) :
    applyAll env (e.reconfigured c) h = ((applyAll env e h).1, (applyAll env e h).2.reconfigured c) := by
  induction h generalizing e with
  | nil => rfl
  | cons o h ih => simp only [applyAll, apply_reconfigured, ih]

/-- **C77, what it does.** Nothing: an engine gives the same answers to everything, and the configuration
stays what it was. -/
theorem C77_no_effect (env : Env) (ops : List BuilderOp) (h : List HopOp) :
    (applyAll env (built ops) h).1 = (applyAll env HopEngine.new h).1 ∧
    (applyAll env (built ops) h).2.config = (built ops).config ∧
    (∀ m, (applyAll env (built ops) h).2.readMetric m = (applyAll env HopEngine.new h).2.readMetric m) := by
  have hb : built ops = HopEngine.new.reconfigured (built ops).config := rfl
  rw [hb, applyAll_reconfigured]
  exact ⟨rfl, rfl, fun _ => rfl⟩

example : (applyAll (sampleEnv .debug) (built [.pubsub false, .sessionsMax 0])
    [.session (.add [1]), .sub (.subscribe [2] 0), .dispatch (call .echo none [[3]]) []]).1 =
    [.added (some (0, ⟨[1], 0⟩)), .subscribed (some 0), .dispatched (.ok [0, 0, 0, 8, 4, 0, 1, 0, 0, 0, 1, 3])] := by
  decide +kernel

/-- **C76 as documented:** an engine never has more active sessions than it was configured to allow, and
with publish/subscribe disabled no subscription can be made. -/
def C76_Statement : Prop :=
  ∀ (env : Env) (ops : List BuilderOp) (h : List HopOp),
    let e := (applyAll env (built ops) h).2
    AtMostActive e e.config.sessionsActiveMax.toNat ∧
    (e.config.pubsubEnabled = false → ∀ k s, (e.subscribe k s).1 = none)

/-- With no sessions allowed, a session is added all the same. -/
theorem C76_sessions (env : Env) (t : Bytes) :
    let e := (applyAll env (built [.sessionsMax 0]) [.session (.add t)]).2
    e.config.sessionsActiveMax = 0 ∧ e.sessions 0 = some ⟨t, 0⟩ := by
  refine ⟨?_, ?_⟩
  · simp [applyAll, HopOp.apply, built, HopEngine.build, HopEngine.addSession, HopEngine.setMgr, BuilderOp.apply,
      HopBuilder.sessionsActiveMax]
  · cases env.mode <;>
    simp [applyAll, HopOp.apply, built, HopEngine.build, HopEngine.addSession, HopEngine.setMgr, BuilderOp.apply,
      HopBuilder.sessionsActiveMax, SessionMgr.add, HopEngine.mgr, MetricCell.increment, Db.empty, addU]

/-- With publish/subscribe disabled, a subscription is made all the same. -/
theorem C76_pubsub (env : Env) (k : Bytes) (s : UInt32) :
    let e := (applyAll env (built [.pubsub false]) []).2
    e.config.pubsubEnabled = false ∧ (e.subscribe k s).1 = some 0 := ⟨rfl, rfl⟩

theorem C76_false : ¬ C76_Statement := by
  intro h
  have := (h (sampleEnv .debug) [.pubsub false] []).2 rfl [] 0
  simp [C76_pubsub] at this

theorem length_le_of_nodup {l : List Nat} {n : Nat} (hd : l.Nodup) (h : ∀ i ∈ l, i < n) : l.length ≤ n := by
  induction n generalizing l with
  | zero =>
    cases l with
    | nil => simp
    | cons a l => exact absurd (h a (by simp)) (by omega)
  | succ n ih =>
    have h1 := ih (l := l.filter (· != n)) (hd.filter _) (by
      intro i hi
      rw [List.mem_filter] at hi
      have := h i hi.1
      have h2 : i ≠ n := by simpa using hi.2
      omega)
    have h2 : l.countP (· == n) ≤ 1 := by
      have := List.nodup_iff_count.mp hd n
      simpa [List.count] using this
    have h3 := List.length_eq_countP_add_countP (· == n) (l := l)
    rw [← List.countP_eq_length_filter] at h1
    have h4 : l.countP (fun a => decide ¬ (a == n) = true) = l.countP (· != n) := by
      apply List.countP_congr
      intro a _
      simp
    omega

/-- **C76, what does hold.** With at least 2^32 sessions allowed (as by default), no more are ever active,
since there are no more identifiers. Missing from the documented claim: smaller limits and disabling
publish/subscribe (false). -/
theorem C76_default_partial (env : Env) (ops : List BuilderOp) (h : List HopOp)
    (hm : 2 ^ 32 ≤ (built ops).config.sessionsActiveMax.toNat) :
    let e := (applyAll env (built ops) h).2
    AtMostActive e e.config.sessionsActiveMax.toNat := by
  intro e ids hd _
  have hc : e.config = (built ops).config := (C77_no_effect env ops h).2.1
  rw [hc]
  have h1 : (ids.map UInt32.toNat).Nodup := by
    rw [List.nodup_iff_pairwise_ne, List.pairwise_map]
    exact hd.imp (fun hne he => hne (UInt32.toNat_inj.mp he))
  have h2 := length_le_of_nodup (n := 2 ^ 32) h1 (by
    intro i hi
    rw [List.mem_map] at hi
    obtain ⟨a, _, rfl⟩ := hi
    exact a.toNat_lt)
  rw [List.length_map] at h2
  omega

example : 2 ^ 32 ≤ (built [.pubsub false]).config.sessionsActiveMax.toNat := by decide

/-! ## The parts together -/

/-- A program that looks at no counter does the same whatever the counters are. -/
theorem CounterFree.run_eq {α : Type} {p : Prog α} (hp : CounterFree p) (a b : Db) (h : a.keys = b.keys) :
    (p.run a).1 = (p.run b).1 ∧ (p.run a).2.keys = (p.run b).2.keys := by
  induction p generalizing a b with
  | done r => exact ⟨rfl, h⟩
  | onKey k upd next ih =>
    simp only [Prog.run]
    rw [h]
    exact ih _ (hp _) _ _ (by simp [Db.setKey, h])
  | onCtr m upd next ih => exact absurd hp (by simp [CounterFree])

theorem run_stats (env : Env) (r : Request) (resp : Bytes) (db : Db) :
    (dispatchStats env r resp).run db = if r.keyType.isSome then (.err .keyTypeUnexpected, db)
      else (.ok (resp ++ frame (ordered env (.value (.map (statistics db.ctrs))))), db) := by
  unfold dispatchStats
  split
  · rfl
  · rw [run_statsLoop, statistics_eq]
    have : Response.writeMap env resp (statistics db.ctrs) = _ :=
      writeValue_deliverable (env := env) (deliverable_statistics env.mode db.ctrs) resp
    rw [this]
    rfl

/-- What a command does to the keys does not depend on the counters; nor does its answer, except that of
Stats. -/
theorem command_blind (env : Env) (r : Request) (resp : Bytes) (a b : Db) (h : a.keys = b.keys) :
    ((command env r resp).run a).2.keys = ((command env r resp).run b).2.keys ∧
    isOk ((command env r resp).run a).1 = isOk ((command env r resp).run b).1 ∧
    isErr ((command env r resp).run a).1 = isErr ((command env r resp).run b).1 ∧
    (r.commandId ≠ .stats → ((command env r resp).run a).1 = ((command env r resp).run b).1) := by
  by_cases hs : r.commandId = .stats
  · have hcmd : command env r resp = dispatchStats env r resp := by unfold command; rw [hs]
    rw [hcmd, run_stats, run_stats]
    split
    · exact ⟨h, rfl, rfl, fun hn => absurd hs hn⟩
    · exact ⟨h, rfl, rfl, fun hn => absurd hs hn⟩
  · obtain ⟨h1, h2⟩ := (counterFree_command (env := env) (resp := resp) hs).run_eq a b h
    exact ⟨h2, by rw [h1], by rw [h1], fun _ => h1⟩

/-- Dispatch counts successes and errors. -/
theorem dispatch_counts (env : Env) (r : Request) (resp : Bytes) (db : Db) (hc : Roomy 1 db.ctrs) :
    ((dispatch env r resp).run db).2.ctrs =
      (if isOk ((dispatch env r resp).run db).1 then counted db.ctrs .commandsSuccessful
       else if isErr ((dispatch env r resp).run db).1 then counted db.ctrs .commandsErrored
       else db.ctrs) := by
  rw [(dispatch_ctrs env r resp db hc).2.2]
  cases ((dispatch env r resp).run db).1 <;> rfl

theorem serveAll_snoc (env : Env) (h : List (Request × Bytes)) (r : Request) (resp : Bytes) (db : Db) :
    (serveAll env (h ++ [(r, resp)]) db).2 = ((dispatch env r resp).run (serveAll env h db).2).2 := by
  induction h generalizing db with
  | nil => rfl
  | cons x h ih => obtain ⟨r', resp'⟩ := x; exact ih _

theorem applyAll_snoc (env : Env) (e : HopEngine) (h : List HopOp) (o : HopOp) :
    applyAll env e (h ++ [o]) = ((applyAll env e h).1 ++ [(o.apply env (applyAll env e h).2).1],
      (o.apply env (applyAll env e h).2).2) := by
  induction h generalizing e with
  | nil => rfl
  | cons x h ih => simp [applyAll, ih]

/-- How an engine relates to its parts, each used alone. -/
structure Together (env : Env) (h : List HopOp) (e : HopEngine) : Prop where
  pubsub : e.pubsub = subsAfter (subOpsOf h)
  nextId : e.nextId = (sessionsAfter env.mode (sessionOpsOf h)).nextId
  sessions : e.sessions = (sessionsAfter env.mode (sessionOpsOf h)).sessions
  keys : e.db.keys = (serveAll env (requestsOf h) Db.empty).2.keys
  started : (sessionsAfter env.mode (sessionOpsOf h)).metrics.live.map (fun m => m.counters .sessionsStarted) =
    some (e.db.ctrs .sessionsStarted)
  ctrs : ∀ m, m ≠ .sessionsStarted → e.db.ctrs m = (serveAll env (requestsOf h) Db.empty).2.ctrs m
  noStart : (serveAll env (requestsOf h) Db.empty).2.ctrs .sessionsStarted = none
  bound : ∀ m, (e.db.ctrs m).getD 0 ≤ h.length

theorem Together.roomy {env : Env} {h : List HopOp} {e : HopEngine} (t : Together env h e)
    (hl : h.length + 1 < 2 ^ 63) :
    Roomy 1 e.db.ctrs ∧ Roomy 1 (serveAll env (requestsOf h) Db.empty).2.ctrs := by
  constructor
  · intro m; have := t.bound m; omega
  · intro m
    by_cases hm : m = .sessionsStarted
    · rw [hm, t.noStart]; simp
    · rw [← t.ctrs m hm]; have := t.bound m; omega

theorem sessionsAfter_snoc (mode : Mode) (h : List SessionOp) (o : SessionOp) :
    sessionsAfter mode (h ++ [o]) = o.apply mode (sessionsAfter mode h) := by simp [sessionsAfter]

theorem together (env : Env) (ops : List BuilderOp) (h : List HopOp) (hl : h.length < 2 ^ 63) :
    Together env h (applyAll env (built ops) h).2 := by
  induction h using snoc_ind with
  | h0 =>
    refine ⟨rfl, rfl, rfl, rfl, rfl, fun _ _ => rfl, rfl, ?_⟩
    intro m
    simp [applyAll, built, HopEngine.build, Db.empty]
  | h1 h o ih =>
    rw [List.length_append, List.length_singleton] at hl
    have ih := ih (by omega)
    rw [applyAll_snoc]
    dsimp only
    generalize (applyAll env (built ops) h).2 = e at ih
    obtain ⟨r1, r2⟩ := ih.roomy hl
    cases o with
    | dispatch r resp =>
      have hq : requestsOf (h ++ [.dispatch r resp]) = requestsOf h ++ [(r, resp)] := by simp [requestsOf]
      have hs : sessionOpsOf (h ++ [.dispatch r resp]) = sessionOpsOf h := by simp [sessionOpsOf]
      have hp : subOpsOf (h ++ [.dispatch r resp]) = subOpsOf h := by simp [subOpsOf]
      have hb := command_blind env r resp e.db (serveAll env (requestsOf h) Db.empty).2 ih.keys
      have d1 := dispatch_ctrs env r resp e.db r1
      have d2 := dispatch_ctrs env r resp _ r2
      have c1 := dispatch_counts env r resp e.db r1
      have c2 := dispatch_counts env r resp _ r2
      rw [d1.1] at c1
      rw [d2.1, ← hb.2.1, ← hb.2.2.1] at c2
      have hdb : (HopOp.apply env e (.dispatch r resp)).2.db = ((Hop.dispatch env r resp).run e.db).2 := rfl
      refine ⟨by rw [hp]; exact ih.pubsub, by rw [hs]; exact ih.nextId, by rw [hs]; exact ih.sessions, ?_, ?_, ?_, ?_, ?_⟩
      · rw [hq, serveAll_snoc, hdb, d1.2.1, d2.2.1]; exact hb.1
      · rw [hs, hdb, c1, ih.started]
        split
        · simp [counted]
        · split <;> simp [counted]
      · intro m hm
        rw [hq, serveAll_snoc, hdb, c1, c2]
        split
        · simp only [counted]; rw [ih.ctrs _ (by simp), ih.ctrs m hm]
        · split
          · simp only [counted]; rw [ih.ctrs _ (by simp), ih.ctrs m hm]
          · exact ih.ctrs m hm
      · rw [hq, serveAll_snoc, c2]
        split
        · simp [counted, ih.noStart]
        · split <;> simp [counted, ih.noStart]
      · intro m
        rw [hdb, c1]
        have := ih.bound m
        have b1 := ih.bound .commandsSuccessful
        have b2 := ih.bound .commandsErrored
        simp only [List.length_append, List.length_singleton]
        split
        · simp only [counted]; split <;> simp <;> omega
        · split
          · simp only [counted]; split <;> simp <;> omega
          · omega
    | session o =>
      have hq : requestsOf (h ++ [.session o]) = requestsOf h := by simp [requestsOf]
      have hs : sessionOpsOf (h ++ [.session o]) = sessionOpsOf h ++ [o] := by simp [sessionOpsOf]
      have hp : subOpsOf (h ++ [.session o]) = subOpsOf h := by simp [subOpsOf]
      have hst := ih.started
      have hni := ih.nextId
      have hse := ih.sessions
      cases o with
      | remove id =>
        refine ⟨by rw [hp]; exact ih.pubsub, ?_, ?_, by rw [hq]; exact ih.keys, ?_, by rw [hq]; exact ih.ctrs,
          by rw [hq]; exact ih.noStart, ?_⟩
        · rw [hs, sessionsAfter_snoc]; exact hni
        · rw [hs, sessionsAfter_snoc]
          simp only [SessionOp.apply, SessionMgr.remove, ← hse]
          rfl
        · rw [hs, sessionsAfter_snoc]; exact hst
        · intro m
          have := ih.bound m
          simp only [List.length_append, List.length_singleton]
          exact Nat.le_trans this (by omega)
      | add t =>
        have hb := ih.bound .sessionsStarted
        obtain ⟨m, hm1, hm2⟩ := Option.map_eq_some_iff.mp hst
        have hadd : addU env.mode 64 ((m.counters .sessionsStarted).getD 0) 1 =
            some ((m.counters .sessionsStarted).getD 0 + 1) := by
          unfold addU; rw [hm2, if_pos (by omega)]
        have hadd' : addU env.mode 64 ((e.db.ctrs .sessionsStarted).getD 0) 1 =
            some ((m.counters .sessionsStarted).getD 0 + 1) := by rw [← hm2]; exact hadd
        cases hfree : e.sessions e.nextId with
        | some x =>
          have a1 : (HopOp.apply env e (.session (.add t))).2 = e := by
            simp [HopOp.apply, HopEngine.addSession, SessionMgr.add, HopEngine.mgr, hfree, HopEngine.setMgr]
          have a2 : (SessionOp.apply env.mode (sessionsAfter env.mode (sessionOpsOf h)) (.add t)) =
              sessionsAfter env.mode (sessionOpsOf h) := by
            rw [hse, hni] at hfree
            simp [SessionOp.apply, SessionMgr.add, hfree]
          rw [a1]
          refine ⟨by rw [hp]; exact ih.pubsub, ?_, ?_, by rw [hq]; exact ih.keys, ?_, by rw [hq]; exact ih.ctrs,
            by rw [hq]; exact ih.noStart, ?_⟩
          · rw [hs, sessionsAfter_snoc, a2]; exact hni
          · rw [hs, sessionsAfter_snoc, a2]; exact hse
          · rw [hs, sessionsAfter_snoc, a2]; exact hst
          · intro m
            have := ih.bound m
            simp only [List.length_append, List.length_singleton]
            omega
        | none =>
          have hfree' : (sessionsAfter env.mode (sessionOpsOf h)).sessions
              (sessionsAfter env.mode (sessionOpsOf h)).nextId = none := by rw [← hse, ← hni]; exact hfree
          have a1 : (HopOp.apply env e (.session (.add t))).2 =
              { e with
                db := { e.db with ctrs := counted e.db.ctrs .sessionsStarted },
                nextId := e.nextId + 1,
                sessions := fun i => if i = e.nextId then some { token := t, id := e.nextId } else e.sessions i } := by
            simp only [HopOp.apply, HopEngine.addSession, SessionMgr.add, HopEngine.mgr, hfree, HopEngine.setMgr,
              MetricCell.increment, hadd']
            rw [hm2]; rfl
          have a2 : (SessionOp.apply env.mode (sessionsAfter env.mode (sessionOpsOf h)) (.add t)) =
              { metrics := { live := some { m with
                  counters := fun t' => if t' = .sessionsStarted then
                    some ((m.counters .sessionsStarted).getD 0 + 1) else m.counters t' } },
                nextId := e.nextId + 1,
                sessions := fun i => if i = e.nextId then some { token := t, id := e.nextId } else e.sessions i } := by
            simp only [SessionOp.apply, SessionMgr.add, hfree', MetricCell.increment, hm1, hadd, hni, hse]
          rw [a1]
          refine ⟨by rw [hp]; exact ih.pubsub, ?_, ?_, by rw [hq]; exact ih.keys, ?_, ?_, by rw [hq]; exact ih.noStart, ?_⟩
          · rw [hs, sessionsAfter_snoc, a2]
          · rw [hs, sessionsAfter_snoc, a2]
          · rw [hs, sessionsAfter_snoc, a2]; simp [counted, hm2]
          · intro m hm
            rw [hq]
            simp only [counted, if_neg hm]
            exact ih.ctrs m hm
          · intro m
            have := ih.bound m
            simp only [List.length_append, List.length_singleton, counted]
            split
            · simp; omega
            · omega
    | sub o =>
      have hq : requestsOf (h ++ [.sub o]) = requestsOf h := by simp [requestsOf]
      have hs : sessionOpsOf (h ++ [.sub o]) = sessionOpsOf h := by simp [sessionOpsOf]
      have hp : subOpsOf (h ++ [.sub o]) = subOpsOf h ++ [o] := by simp [subOpsOf]
      have hsub : subsAfter (subOpsOf h ++ [o]) = o.apply (subsAfter (subOpsOf h)) := by simp [subsAfter]
      have hbd : ∀ m, (e.db.ctrs m).getD 0 ≤ (h ++ [HopOp.sub o]).length := by
        intro m; have := ih.bound m; simp only [List.length_append, List.length_singleton]; omega
      cases o with
      | subscribe k s =>
        refine ⟨?_, by rw [hs]; exact ih.nextId, by rw [hs]; exact ih.sessions, by rw [hq]; exact ih.keys,
          by rw [hs]; exact ih.started, by rw [hq]; exact ih.ctrs, by rw [hq]; exact ih.noStart, hbd⟩
        rw [hp, hsub, ← ih.pubsub]; rfl
      | unsubscribe k s =>
        refine ⟨?_, by rw [hs]; exact ih.nextId, by rw [hs]; exact ih.sessions, by rw [hq]; exact ih.keys,
          by rw [hs]; exact ih.started, by rw [hq]; exact ih.ctrs, by rw [hq]; exact ih.noStart, hbd⟩
        rw [hp, hsub, ← ih.pubsub]; rfl
      | removeSession s =>
        refine ⟨?_, by rw [hs]; exact ih.nextId, by rw [hs]; exact ih.sessions, by rw [hq]; exact ih.keys,
          by rw [hs]; exact ih.started, by rw [hq]; exact ih.ctrs, by rw [hq]; exact ih.noStart, hbd⟩
        rw [hp, hsub, ← ih.pubsub]; rfl

/-- **C78.** After any mixed history of fewer than 2^63 operations on an engine, requests other than Stats
are answered as if there had only been the requests of the history, session operations as if there had
only been its session operations, publish/subscribe operations as if there had only been those, and the
stored keys are those the requests alone leave. -/
theorem C78_independent (env : Env) (ops : List BuilderOp) (h : List HopOp) (hl : h.length + 1 < 2 ^ 63) :
    let e := (applyAll env (built ops) h).2
    let db := (serveAll env (requestsOf h) Db.empty).2
    let sm := sessionsAfter env.mode (sessionOpsOf h)
    let ps := subsAfter (subOpsOf h)
    (∀ r resp, r.commandId ≠ .stats → (e.dispatch env r resp).1 = ((dispatch env r resp).run db).1) ∧
    (∀ k, e.db.keys k = db.keys k) ∧
    (∀ t, (e.addSession env.mode t).1 = (sm.add env.mode t).1) ∧
    (∀ i, (e.removeSession i).1 = (sm.remove i).1) ∧
    (∀ k s, e.pubsub.get k s = ps.get k s ∧ (e.subscribe k s).1 = (ps.subscribe k s).1 ∧
      (e.unsubscribe k s).1 = (ps.unsubscribe k s).1 ∧ (e.dropSubscriber s).1 = (ps.removeSession s).1) := by
  intro e db sm ps
  have t := together env ops h (by omega)
  obtain ⟨r1, r2⟩ := t.roomy hl
  refine ⟨?_, ?_, ?_, ?_, ?_⟩
  · intro r resp hr
    show ((dispatch env r resp).run e.db).1 = _
    rw [(dispatch_ctrs env r resp _ r1).1, (dispatch_ctrs env r resp _ r2).1]
    exact (command_blind env r resp _ _ t.keys).2.2.2 hr
  · intro k; exact congrFun t.keys k
  · intro tok
    have hb := t.bound .sessionsStarted
    obtain ⟨m, hm1, hm2⟩ := Option.map_eq_some_iff.mp t.started
    have hadd : addU env.mode 64 ((m.counters .sessionsStarted).getD 0) 1 =
        some ((m.counters .sessionsStarted).getD 0 + 1) := by
      unfold addU; rw [hm2, if_pos (by omega)]
    have hadd' : addU env.mode 64 ((e.db.ctrs .sessionsStarted).getD 0) 1 =
        some ((m.counters .sessionsStarted).getD 0 + 1) := by rw [← hm2]; exact hadd
    simp only [HopEngine.addSession, SessionMgr.add, HopEngine.mgr]
    have hn : e.nextId = sm.nextId := t.nextId
    have hs : e.sessions = sm.sessions := t.sessions
    have hm1 : sm.metrics.live = some m := hm1
    cases hx : sm.sessions sm.nextId with
    | some x =>
      have hx' : e.sessions e.nextId = some x := by rw [hn, hs]; exact hx
      simp only [hx']
    | none =>
      have hx' : e.sessions sm.nextId = none := by rw [hs]; exact hx
      simp only [MetricCell.increment, hm1, hadd, hadd', hx', hn]
  · intro i
    have hs : e.sessions = sm.sessions := t.sessions
    simp only [HopEngine.removeSession, SessionMgr.remove, HopEngine.mgr, hs]
  · intro k s
    have hp : e.pubsub = ps := t.pubsub
    simp only [HopEngine.subscribe, HopEngine.unsubscribe, HopEngine.dropSubscriber, hp]
    exact ⟨trivial, trivial, trivial, trivial⟩

example : (applyAll (sampleEnv .debug) HopEngine.new
    [.session (.add [1]), .dispatch (call .set (some .bytes) [[7], [8]]) [], .sub (.subscribe [2] 0),
      .session (.remove 0), .session (.add [2]), .dispatch (call .get none [[7]]) []]).1 =
    [.added (some (0, ⟨[1], 0⟩)), .dispatched (.ok [0, 0, 0, 6, 1, 0, 0, 0, 1, 8]), .subscribed (some 0),
      .removed true, .added (some (1, ⟨[2], 1⟩)), .dispatched (.ok [0, 0, 0, 6, 1, 0, 0, 0, 1, 8])] := by
  decide +kernel

/-- How many requests succeeded and failed, and how many sessions were started, by the answers. -/
def dispatchedOk (l : List HopAnswer) : Nat := l.countP fun | .dispatched (.ok _) => true | _ => false
def dispatchedErr (l : List HopAnswer) : Nat := l.countP fun | .dispatched (.err _) => true | _ => false
def startedSessions (l : List HopAnswer) : Nat := l.countP fun | .added (some _) => true | _ => false

/-- The value of a counter that has counted to `n`. -/
def tallied (n : Nat) : Option Nat := if n = 0 then none else some n

theorem tallied_succ (n : Nat) : tallied (n + 1) = some ((tallied n).getD 0 + 1) := by
  unfold tallied
  by_cases h : n = 0 <;> simp [h]

theorem counters_together (env : Env) (ops : List BuilderOp) (h : List HopOp) (hl : h.length < 2 ^ 63) :
    let x := applyAll env (built ops) h
    x.2.db.ctrs = (fun
      | .commandsSuccessful => tallied (dispatchedOk x.1)
      | .commandsErrored => tallied (dispatchedErr x.1)
      | .sessionsStarted => tallied (startedSessions x.1)
      | .sessionsEnded => none) ∧
    x.1.length = h.length := by
  induction h using snoc_ind with
  | h0 =>
    refine ⟨?_, rfl⟩
    funext m; cases m <;> rfl
  | h1 h o ih =>
    rw [List.length_append, List.length_singleton] at hl
    have t := together env ops h (by omega)
    have r1 := (t.roomy hl).1
    have ih := ih (by omega)
    rw [applyAll_snoc]
    dsimp only at ih ⊢
    have hb := t.bound .sessionsStarted
    generalize applyAll env (built ops) h = x at t r1 ih hb ⊢
    obtain ⟨answers, e⟩ := x
    obtain ⟨ih, ihl⟩ := ih
    dsimp only at ih ihl r1 hb ⊢
    refine ⟨?_, by simp [ihl]⟩
    simp only [dispatchedOk, dispatchedErr, startedSessions, List.countP_append, List.countP_singleton] at ih ⊢
    cases o with
    | dispatch r resp =>
      have hdb : (HopOp.apply env e (.dispatch r resp)).2.db = ((Hop.dispatch env r resp).run e.db).2 := rfl
      have hans : (HopOp.apply env e (.dispatch r resp)).1 = .dispatched ((Hop.dispatch env r resp).run e.db).1 := rfl
      rw [hdb, hans, (dispatch_ctrs env r resp e.db r1).2.2]
      funext m
      cases ((Hop.dispatch env r resp).run e.db).1 with
      | ok a => simp only [counted, ih]; cases m <;> simp [tallied_succ]
      | err a => simp only [counted, ih]; cases m <;> simp [tallied_succ]
      | panic => simp only [ih]; cases m <;> simp
      | stuck => simp only [ih]; cases m <;> simp
    | session o =>
      cases o with
      | remove id =>
        have hdb : (HopOp.apply env e (.session (.remove id))).2.db = e.db := rfl
        rw [hdb, ih]
        funext m
        cases m <;> simp [HopOp.apply]
      | add tok =>
        have hadd : addU env.mode 64 ((e.db.ctrs .sessionsStarted).getD 0) 1 =
            some ((e.db.ctrs .sessionsStarted).getD 0 + 1) := by
          unfold addU; rw [if_pos (by omega)]
        cases hfree : e.sessions e.nextId with
        | some x =>
          have a1 : HopOp.apply env e (.session (.add tok)) = (.added none, e) := by
            simp [HopOp.apply, HopEngine.addSession, SessionMgr.add, HopEngine.mgr, hfree, HopEngine.setMgr]
          rw [a1, ih]
          funext m
          cases m <;> simp
        | none =>
          have a1 : (HopOp.apply env e (.session (.add tok))).2.db.ctrs = counted e.db.ctrs .sessionsStarted ∧
              (HopOp.apply env e (.session (.add tok))).1 = .added (some (e.nextId, ⟨tok, e.nextId⟩)) := by
            simp only [HopOp.apply, HopEngine.addSession, SessionMgr.add, HopEngine.mgr, hfree, HopEngine.setMgr,
              MetricCell.increment, hadd]
            exact ⟨rfl, trivial⟩
          rw [a1.1, a1.2]
          funext m
          simp only [counted, ih]
          cases m <;> simp [tallied_succ]
    | sub o =>
      have hdb : (HopOp.apply env e (.sub o)).2.db = e.db := by cases o <;> rfl
      have hans : ∀ a, (HopOp.apply env e (.sub o)).1 ≠ .dispatched a ∧ ∀ b, (HopOp.apply env e (.sub o)).1 ≠ .added b := by
        cases o <;> simp [HopOp.apply]
      rw [hdb, ih]
      funext m
      cases o <;> cases m <;> simp [HopOp.apply]

/-- **C79.** After any mixed history of fewer than 2^63 operations, the metrics show the number of
requests that succeeded, of requests that ended in an error and of sessions that were started, and
nothing for sessions ended; a counter that has counted nothing is missing. A Stats request
answers with a map of exactly those counters that are not missing, as eight big-endian bytes each. -/
theorem C79_statistics (env : Env) (ops : List BuilderOp) (h : List HopOp) (hl : h.length + 1 < 2 ^ 63) :
    let x := applyAll env (built ops) h
    x.2.readMetric .commandsSuccessful = tallied (dispatchedOk x.1) ∧
    x.2.readMetric .commandsErrored = tallied (dispatchedErr x.1) ∧
    x.2.readMetric .sessionsStarted = tallied (startedSessions x.1) ∧
    x.2.readMetric .sessionsEnded = none ∧
    ∀ (r : Request) (resp : Bytes), r.commandId = .stats → r.keyType = none →
      ∃ m : BMap, (x.2.dispatch env r resp).1 = .ok (resp ++ frame (ordered env (.value (.map m)))) ∧
        List.lookup (ascii "commands_successful") m = (tallied (dispatchedOk x.1)).map (beBytes 8) ∧
        List.lookup (ascii "commands_errored") m = (tallied (dispatchedErr x.1)).map (beBytes 8) ∧
        List.lookup (ascii "sessions_started") m = (tallied (startedSessions x.1)).map (beBytes 8) ∧
        (m.map Prod.fst).Nodup ∧
        ∀ k ∈ m.map Prod.fst, k ∈ [ascii "commands_errored", ascii "commands_successful", ascii "sessions_started"] := by
  intro x
  obtain ⟨hc, hlen⟩ := counters_together env ops h (by omega)
  have hc : x.2.db.ctrs = _ := hc
  have t := together env ops h (by omega)
  have r1 : Roomy 1 x.2.db.ctrs := (t.roomy hl).1
  have hbnd : ∀ m, (x.2.db.ctrs m).getD 0 ≤ h.length := t.bound
  refine ⟨by simp only [HopEngine.readMetric, hc]; rfl, by simp only [HopEngine.readMetric, hc]; rfl,
    by simp only [HopEngine.readMetric, hc]; rfl, by simp only [HopEngine.readMetric, hc], ?_⟩
  intro r resp hr hk
  obtain ⟨s1, s2, s3, s4, s5⟩ := statistics_lookup x.2.db.ctrs
  have rep : ∀ m, reported x.2.db.ctrs m = (x.2.db.ctrs m).map (beBytes 8) := by
    intro m
    have := hbnd m
    unfold reported
    cases hm : x.2.db.ctrs m with
    | none => rfl
    | some n =>
      rw [hm] at this
      simp at this
      simp only [if_pos (show n < 2 ^ 63 by omega)]
      rfl
  refine ⟨statistics x.2.db.ctrs, ?_, ?_, ?_, ?_, s4, s5⟩
  · show ((dispatch env r resp).run x.2.db).1 = _
    rw [(dispatch_ctrs env r resp _ r1).1]
    have hcmd : command env r resp = dispatchStats env r resp := by unfold command; rw [hr]
    rw [hcmd, run_stats, hk]
    rfl
  · rw [s1, rep, hc]
  · rw [s2, rep, hc]
  · rw [s3, rep, hc]

example : (applyAll (sampleEnv .debug) HopEngine.new
    [.session (.add [1]), .session (.add [2]), .dispatch (call .get none [[7]]) [], .session (.remove 0)]).2.readMetric
      .sessionsStarted = some 2 := by decide +kernel

/-! ## Further concrete cases -/

/-- The default number of sessions, whatever is done. -/
example (env : Env) (h : List HopOp) : AtMostActive (applyAll env (built [.pubsub false]) h).2 (applyAll env (built [.pubsub false]) h).2.config.sessionsActiveMax.toNat :=
  C76_default_partial env [.pubsub false] h (by decide)

example (i : UInt32) :
    ((applyAll (sampleEnv .debug) (built []) [.session (.add [1]), .dispatch (call .increment none [[107]]) []]).2.removeSession i).1 =
    ((sessionsAfter .debug [.add [1]]).remove i).1 :=
  (C78_independent (sampleEnv .debug) [] [.session (.add [1]), .dispatch (call .increment none [[107]]) []] (by decide)).2.2.2.1 i

example : (applyAll (sampleEnv .debug) (built []) [.session (.add [1]), .dispatch (call .increment none [[107]]) []]).2.readMetric .commandsSuccessful = some 1 :=
  (C79_statistics (sampleEnv .debug) [] [.session (.add [1]), .dispatch (call .increment none [[107]]) []] (by decide)).1.trans (by decide +kernel)

end Hop
