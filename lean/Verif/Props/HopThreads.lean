import Verif.Spec.HopThreads
import Verif.Props.Exclusive
import Verif.Lemmas.RespInv
import Verif.Spec.Sample

/-! # C148, C149: one engine used from several threads at once -/

namespace Hop

open Spec Prog

/-! ## Threads of one kind among all threads -/

theorem filterMap_set_some {α β} {f : α → Option β} (l : List α) (i : Nat) {a a' : α} {b b' : β} (hi : l[i]? = some a)
    (ha : f a = some b) (ha' : f a' = some b') :
    (l.filterMap f)[((l.take i).filterMap f).length]? = some b ∧
    (l.set i a').filterMap f = (l.filterMap f).set ((l.take i).filterMap f).length b' := by
  induction l generalizing i with
  | nil => simp at hi
  | cons x l ih =>
    cases i with
    | zero =>
      simp only [List.getElem?_cons_zero, Option.some.injEq] at hi
      subst hi
      simp [ha, ha']
    | succ i =>
      simp only [List.getElem?_cons_succ] at hi
      have := ih i hi
      simp only [List.take_succ_cons, List.set_cons_succ, List.filterMap_cons]
      cases f x with
      | none => exact this
      | some y => simpa using this

theorem filterMap_set_none {α β} {f : α → Option β} (l : List α) (i : Nat) {a a' : α} (hi : l[i]? = some a)
    (ha : f a = none) (ha' : f a' = none) : (l.set i a').filterMap f = l.filterMap f := by
  induction l generalizing i with
  | nil => simp at hi
  | cons x l ih =>
    cases i with
    | zero =>
      simp only [List.getElem?_cons_zero, Option.some.injEq] at hi
      subst hi
      simp [ha, ha']
    | succ i =>
      simp only [List.getElem?_cons_succ] at hi
      simp only [List.set_cons_succ, List.filterMap_cons]
      rw [ih i hi]

/-- The kind of a thread, which it keeps. -/
def HopThread.kind : HopThread → HopKind
  | .command _ => .command
  | .session _ => .session
  | .pubsub _ => .pubsub
  | .measure _ | .measured _ _ => .metric

theorem HopThread.step_kind (mode : Mode) (f g : UInt32 → Bool) (h : HopEngine) (t : HopThread) :
    (t.step mode f g h).1.kind = t.kind := by
  cases t <;> rfl

/-- Threads are of the kinds of their calls. -/
def KindsOf (calls : List HopCall) (ts : List HopThread) : Prop := ts.map HopThread.kind = calls.map HopCall.kind

theorem KindsOf.start (env : Env) (calls : List HopCall) : KindsOf calls (calls.map (HopCall.thread env)) := by
  unfold KindsOf
  rw [List.map_map]
  congr 1
  funext c
  cases c <;> rfl

theorem map_set_same {α β} (f : α → β) (l : List α) (i : Nat) (a a' : α) (hi : l[i]? = some a) (h : f a' = f a) :
    (l.set i a').map f = l.map f := by
  induction l generalizing i with
  | nil => simp at hi
  | cons x l ih =>
    cases i with
    | zero =>
      simp only [List.getElem?_cons_zero, Option.some.injEq] at hi
      subst hi
      simp [h]
    | succ i =>
      simp only [List.getElem?_cons_succ] at hi
      simp [ih i hi]

theorem KindsOf.set {calls : List HopCall} {ts : List HopThread} (h : KindsOf calls ts) {i : Nat} {t t' : HopThread}
    (hi : ts[i]? = some t) (hk : t'.kind = t.kind) : KindsOf calls (ts.set i t') := by
  unfold KindsOf
  rw [map_set_same _ _ _ t t' hi hk]
  exact h

theorem KindsOf.at {calls : List HopCall} {ts : List HopThread} (h : KindsOf calls ts) (i : Nat) :
    (ts[i]?).map HopThread.kind = (calls[i]?).map HopCall.kind := by
  have := congrArg (·[i]?) h
  simpa using this

theorem filterMap_length_kind {β} {f : HopThread → Option β} {K : HopKind}
    (hf : ∀ t, (f t).isSome = decide (t.kind = K)) (ts : List HopThread) :
    (ts.filterMap f).length = (ts.map HopThread.kind).countP (fun k => k = K) := by
  induction ts with
  | nil => rfl
  | cons t ts ih =>
    have := hf t
    simp only [List.filterMap_cons, List.map_cons, List.countP_cons]
    cases hft : f t with
    | none =>
      rw [hft] at this
      simp only [Option.isSome_none] at this
      simp [← this, ih]
    | some b =>
      rw [hft] at this
      simp only [Option.isSome_some] at this
      simp [← this, ih]

theorem KindsOf.rank {calls : List HopCall} {ts : List HopThread} (h : KindsOf calls ts) {β}
    {f : HopThread → Option β} {K : HopKind} (hf : ∀ t, (f t).isSome = decide (t.kind = K)) (i : Nat) :
    ((ts.take i).filterMap f).length = (calls.take i).countP fun c => c.kind = K := by
  rw [filterMap_length_kind hf, List.map_take, h, ← List.map_take, List.countP_map]
  rfl

theorem turnsOf_snoc (K : HopKind) (calls : List HopCall) (s : List Nat) (i : Nat) :
    turnsOf K calls (s ++ [i]) = turnsOf K calls s ++
      (if (calls[i]?).map HopCall.kind = some K then [(calls.take i).countP fun c => c.kind = K] else []) := by
  unfold turnsOf
  rw [List.filterMap_append]
  congr 1
  simp only [List.filterMap_cons, List.filterMap_nil]
  split <;> simp_all

theorem HopPool.exec_snoc (mode : Mode) (shard : UInt32 → Nat) (p : HopPool) (s : List Nat) (i : Nat) :
    p.exec mode shard (s ++ [i]) = (p.exec mode shard s).stepAt mode shard i := by
  simp [HopPool.exec]

theorem SubPool.exec_snoc' (shard : UInt32 → Nat) (p : SubPool) (s : List Nat) (i : Nat) :
    p.exec shard (s ++ [i]) = (p.exec shard s).stepAt shard i := by
  simp [SubPool.exec]

theorem SessionPool.exec_snoc' (mode : Mode) (p : SessionPool) (s : List Nat) (i : Nat) :
    p.exec mode (s ++ [i]) = (p.exec mode s).stepAt mode i := by
  simp [SessionPool.exec]

theorem kindsOf_exec (env : Env) (mode : Mode) (calls : List HopCall) (h : HopEngine) (shard : UInt32 → Nat)
    (sched : List Nat) : KindsOf calls ((hopPool env calls h).exec mode shard sched).threads := by
  induction sched using snoc_induction with
  | h0 => exact KindsOf.start env calls
  | h1 s i ih =>
    rw [HopPool.exec_snoc]
    generalize (hopPool env calls h).exec mode shard s = p at ih
    unfold HopPool.stepAt
    cases ht : p.threads[i]? with
    | none => exact ih
    | some t => exact ih.set ht (HopThread.step_kind _ _ _ _ _)

/-! ## C148 Publish/subscribe -/

theorem pubsubThreads_some (t : HopThread) :
    (pubsubOf t).isSome = decide (t.kind = .pubsub) := by
  cases t <;> rfl

theorem pubsubFree_eq (shard : UInt32 → Nat) (p : HopPool) :
    p.pubsubFree shard = SubPool.free shard { threads := pubsubThreads p.threads, mgr := p.engine.pubsub } := by
  funext s
  unfold HopPool.pubsubFree SubPool.free pubsubThreads
  dsimp only
  induction p.threads with
  | nil => rfl
  | cons t ts ih => cases t <;> (simp only [List.all_cons, List.filterMap_cons, pubsubOf, ih, Bool.true_and]; try rfl)

/-- C148. What the threads that use the publish/subscribe manager are answered, and what the manager holds, are what
they would be if these threads had the engine to themselves. -/
theorem C148_pubsub (env : Env) (calls : List HopCall) (h : HopEngine) (shard : UInt32 → Nat) (sched : List Nat) :
    let p := (hopPool env calls h).exec env.mode shard sched
    let alone := (pubsubAlone calls h).exec shard (turnsOf .pubsub calls sched)
    pubsubThreads p.threads = alone.threads ∧ p.engine.pubsub = alone.mgr := by
  dsimp only
  induction sched using snoc_induction with
  | h0 =>
    refine ⟨?_, rfl⟩
    show pubsubThreads (calls.map (HopCall.thread env)) = (pubsubCalls calls).map SubCall.thread
    unfold pubsubThreads pubsubCalls
    rw [List.filterMap_map, List.map_filterMap]
    congr 1
    funext c
    cases c <;> rfl
  | h1 s i ih =>
    have hk := kindsOf_exec env env.mode calls h shard s
    rw [HopPool.exec_snoc, turnsOf_snoc]
    generalize (hopPool env calls h).exec env.mode shard s = p at hk ih
    have hat := hk.at i
    unfold HopPool.stepAt
    cases ht : p.threads[i]? with
    | none =>
      rw [ht] at hat
      rw [← hat]
      simpa using ih
    | some t =>
      rw [ht] at hat
      rw [← hat]
      have hr := hk.rank pubsubThreads_some i
      cases t with
      | pubsub t =>
        simp only [Option.map_some, HopThread.kind, if_true]
        rw [SubPool.exec_snoc']
        generalize (pubsubAlone calls h).exec shard (turnsOf .pubsub calls s) = q at ih
        obtain ⟨qt, qm⟩ := q
        obtain ⟨h1, h2⟩ := ih
        dsimp only at h1 h2
        subst h2
        have key := filterMap_set_some (f := pubsubOf) p.threads i (b := t)
          (a' := .pubsub (t.step (p.pubsubFree shard) p.engine.pubsub).1) (b' := (t.step (p.pubsubFree shard) p.engine.pubsub).1)
          ht rfl rfl
        rw [hr] at key
        have h1' : List.filterMap pubsubOf p.threads = qt := h1
        rw [h1'] at key
        unfold SubPool.stepAt
        dsimp only
        rw [key.1]
        dsimp only
        rw [pubsubFree_eq, h1] at key ⊢
        exact ⟨key.2, rfl⟩
      | _ =>
        simp only [Option.map_some, HopThread.kind, reduceCtorEq, Option.some.injEq, if_false, List.append_nil]
        refine ⟨?_, ?_⟩
        · rw [← ih.1]
          exact filterMap_set_none _ i ht rfl rfl
        · rw [← ih.2]
          rfl

/-! ## C148 Sessions -/

theorem sessionThreads_some (t : HopThread) :
    (sessionOf t).isSome = decide (t.kind = .session) := by
  cases t <;> rfl

theorem sessionFree_eq (p : HopPool) (m : SessionMgr) :
    p.sessionFree = SessionPool.free { threads := sessionThreads p.threads, mgr := m } := by
  funext s
  unfold HopPool.sessionFree SessionPool.free sessionThreads
  dsimp only
  induction p.threads with
  | nil => rfl
  | cons t ts ih => cases t <;> simp only [List.all_cons, List.filterMap_cons, sessionOf, ih, Bool.true_and]

/-- Two session managers that differ at most in counters other than that of started sessions. -/
def MgrAlike (a b : SessionMgr) : Prop :=
  a.nextId = b.nextId ∧ a.sessions = b.sessions ∧ ∃ c d : MetricMap Metric, a.metrics.live = some c ∧
    b.metrics.live = some d ∧ c.counters .sessionsStarted = d.counters .sessionsStarted

theorem MgrAlike.step {a b : SessionMgr} (h : MgrAlike a b) (mode : Mode) (free : UInt32 → Bool) (t : SessionThread) :
    (t.step mode free a).1 = (t.step mode free b).1 ∧ MgrAlike (t.step mode free a).2 (t.step mode free b).2 := by
  obtain ⟨⟨am⟩, an, as⟩ := a
  obtain ⟨⟨bm⟩, bn, bs⟩ := b
  obtain ⟨h1, h2, c, d, h3, h4, h5⟩ := h
  dsimp only at h1 h2 h3 h4
  subst h1 h2 h3 h4
  have hsame : MgrAlike ⟨⟨some c⟩, an, as⟩ ⟨⟨some d⟩, an, as⟩ := ⟨rfl, rfl, c, d, rfl, rfl, h5⟩
  cases t with
  | keyed s k =>
    simp only [SessionThread.step]
    split
    · cases as k with
      | some _ => exact ⟨rfl, hsame⟩
      | none => exact ⟨rfl, rfl, rfl, c, d, rfl, rfl, h5⟩
    · exact ⟨rfl, hsame⟩
  | inserted s k =>
    simp only [SessionThread.step, MetricCell.increment, h5]
    cases addU mode 64 ((d.counters .sessionsStarted).getD 0) 1 with
    | none => exact ⟨rfl, rfl, rfl, _, _, rfl, rfl, by simp⟩
    | some n => exact ⟨rfl, rfl, rfl, _, _, rfl, rfl, by simp⟩
  | advancing s k old => exact ⟨rfl, rfl, rfl, c, d, rfl, rfl, h5⟩
  | remove id =>
    simp only [SessionThread.step]
    split
    · exact ⟨rfl, rfl, rfl, c, d, rfl, rfl, h5⟩
    · exact ⟨rfl, hsame⟩
  | _ => exact ⟨rfl, hsame⟩

/-- The session manager of an engine whose session manager's part was replaced. -/
theorem mgr_setMgr_alike (h : HopEngine) {m : SessionMgr} {b : SessionMgr} (hm : MgrAlike m b) :
    MgrAlike (h.setMgr m).mgr b := by
  obtain ⟨⟨live⟩, mn, ms⟩ := m
  obtain ⟨h1, h2, c, d, h3, h4, h5⟩ := hm
  dsimp only at h3
  subst h3
  exact ⟨h1, h2, _, d, rfl, h4, h5⟩

/-- Nothing the program does changes counter `m`. -/
def LeavesCtr (m : Metric) : Prog Bytes → Prop
  | .done _ => True
  | .onKey _ _ next => ∀ o, LeavesCtr m (next o)
  | .onCtr c upd next => (c = m → ∀ o, upd o = o) ∧ ∀ o, LeavesCtr m (next o)

theorem LeavesCtr.andThen {m : Metric} {p : Prog Bytes} (hp : CtrQuiet p) {f : Outcome DispatchError Bytes → Prog Bytes}
    (hf : ∀ r, LeavesCtr m (f r)) : LeavesCtr m (p.andThen f) := by
  induction p with
  | done r => exact hf r
  | onKey k upd next ih => exact fun o => ih o (hp o)
  | onCtr c upd next ih => exact ⟨fun _ => hp.1, fun o => ih o (hp.2 o)⟩

theorem leavesCtr_count (env : Env) (r : Outcome DispatchError Bytes) : LeavesCtr .sessionsStarted (countOutcome env r) := by
  cases r with
  | ok a => exact ⟨fun h => (by cases h), fun o => by dsimp only; split <;> trivial⟩
  | err e => exact ⟨fun h => (by cases h), fun o => by dsimp only; split <;> trivial⟩
  | panic => trivial
  | stuck => trivial

theorem leavesCtr_dispatch (env : Env) (r : Request) (resp : Bytes) : LeavesCtr .sessionsStarted (dispatch env r resp) :=
  LeavesCtr.andThen (quiet_command env r resp) (leavesCtr_count env)

theorem LeavesCtr.step {m : Metric} {p : Prog Bytes} (h : LeavesCtr m p) (db : Db) :
    LeavesCtr m (p.step db).1 ∧ (p.step db).2.ctrs m = db.ctrs m := by
  cases p with
  | done r => exact ⟨trivial, rfl⟩
  | onKey k upd next => exact ⟨h _, rfl⟩
  | onCtr c upd next =>
    refine ⟨h.2 _, ?_⟩
    simp only [Prog.step, Db.setCtr]
    split
    · rename_i e
      subst e
      exact h.1 rfl _
    · rfl

/-- No thread that executes a request changes the counter of started sessions. -/
theorem leavesCtr_exec (env : Env) (calls : List HopCall) (h : HopEngine) (shard : UInt32 → Nat) (sched : List Nat) :
    ∀ q, HopThread.command q ∈ ((hopPool env calls h).exec env.mode shard sched).threads → LeavesCtr .sessionsStarted q := by
  induction sched using snoc_induction with
  | h0 =>
    intro q hq
    obtain ⟨c, -, hc⟩ := List.mem_map.mp hq
    cases c with
    | dispatch r resp =>
      cases hc
      exact leavesCtr_dispatch _ _ _
    | _ => cases hc
  | h1 s i ih =>
    rw [HopPool.exec_snoc]
    generalize (hopPool env calls h).exec env.mode shard s = p at ih
    unfold HopPool.stepAt
    cases ht : p.threads[i]? with
    | none => exact ih
    | some t =>
      intro q hq
      rcases List.mem_or_eq_of_mem_set hq with h' | h'
      · exact ih q h'
      · cases t with
        | command q0 =>
          simp only [HopThread.step, HopThread.command.injEq] at h'
          subst h'
          exact ((ih q0 (List.mem_of_getElem? ht)).step _).1
        | _ => cases h'

/-- C148. What the threads that use the session manager are answered, the sessions there are, the next identifier
and the number of sessions started are what they would be if these threads had the engine to themselves. -/
theorem C148_sessions (env : Env) (calls : List HopCall) (h : HopEngine) (shard : UInt32 → Nat) (sched : List Nat) :
    let p := (hopPool env calls h).exec env.mode shard sched
    let alone := (sessionsAlone calls h).exec env.mode (turnsOf .session calls sched)
    sessionThreads p.threads = alone.threads ∧ p.engine.nextId = alone.mgr.nextId ∧
    p.engine.sessions = alone.mgr.sessions ∧
    p.engine.readMetric .sessionsStarted = alone.mgr.metrics.readCounter .sessionsStarted := by
  dsimp only
  suffices hs : sessionThreads ((hopPool env calls h).exec env.mode shard sched).threads =
      ((sessionsAlone calls h).exec env.mode (turnsOf .session calls sched)).threads ∧
      MgrAlike ((hopPool env calls h).exec env.mode shard sched).engine.mgr
        ((sessionsAlone calls h).exec env.mode (turnsOf .session calls sched)).mgr by
    obtain ⟨h1, h2, h3, c, d, h4, h5, h6⟩ := hs
    refine ⟨h1, h2, h3, ?_⟩
    simp only [HopEngine.mgr, Option.some.injEq] at h4
    unfold MetricCell.readCounter HopEngine.readMetric
    rw [h5, Option.bind_some, ← h6, ← h4]
  induction sched using snoc_induction with
  | h0 =>
    refine ⟨?_, rfl, rfl, _, _, rfl, rfl, rfl⟩
    show sessionThreads (calls.map (HopCall.thread env)) = (sessionCalls calls).map SessionOp.thread
    unfold sessionThreads sessionCalls
    rw [List.filterMap_map, List.map_filterMap]
    congr 1
    funext c
    cases c <;> rfl
  | h1 s i ih =>
    have hk := kindsOf_exec env env.mode calls h shard s
    have hl := leavesCtr_exec env calls h shard s
    rw [HopPool.exec_snoc, turnsOf_snoc]
    generalize (hopPool env calls h).exec env.mode shard s = p at hk hl ih
    have hat := hk.at i
    unfold HopPool.stepAt
    cases ht : p.threads[i]? with
    | none =>
      rw [ht] at hat
      rw [← hat]
      simpa using ih
    | some t =>
      rw [ht] at hat
      rw [← hat]
      have hr := hk.rank sessionThreads_some i
      cases t with
      | session t =>
        simp only [Option.map_some, HopThread.kind, if_true]
        rw [SessionPool.exec_snoc']
        generalize (sessionsAlone calls h).exec env.mode (turnsOf .session calls s) = q at ih
        obtain ⟨qt, qm⟩ := q
        obtain ⟨h1, h2⟩ := ih
        dsimp only at h1 h2
        have key := filterMap_set_some (f := sessionOf) p.threads i (b := t)
          (a' := .session (t.step env.mode p.sessionFree p.engine.mgr).1)
          (b' := (t.step env.mode p.sessionFree p.engine.mgr).1) ht rfl rfl
        rw [hr] at key
        have h1' : List.filterMap sessionOf p.threads = qt := h1
        rw [h1'] at key
        unfold SessionPool.stepAt
        dsimp only
        rw [key.1]
        dsimp only
        rw [sessionFree_eq p qm, h1] at key ⊢
        have hst := h2.step env.mode (SessionPool.free ⟨qt, qm⟩) t
        refine ⟨?_, mgr_setMgr_alike _ hst.2⟩
        rw [← hst.1]
        exact key.2
      | _ =>
        simp only [Option.map_some, HopThread.kind, reduceCtorEq, Option.some.injEq, if_false, List.append_nil]
        refine ⟨?_, ?_⟩
        · rw [← ih.1]
          exact filterMap_set_none _ i ht rfl rfl
        · first
            | exact ih.2
            | (rename_i q
               obtain ⟨h1, h2, c, d, h3, h4, h5⟩ := ih.2
               refine ⟨h1, h2, _, d, rfl, h4, ?_⟩
               simp only [HopEngine.mgr, Option.some.injEq] at h3
               rw [← h5, ← h3]
               exact ((hl q (List.mem_of_getElem? ht)).step p.engine.db).2)

/-! ## C148 Commands -/

/-- Two outcomes of the same kind. -/
def SameKind : Outcome DispatchError Bytes → Outcome DispatchError Bytes → Prop
  | .ok _, .ok _ => True
  | o, o' => o = o'

theorem SameKind.refl (o : Outcome DispatchError Bytes) : SameKind o o := by
  cases o <;> first | trivial | rfl

/-- Two programs that do the same and end in the same way, whatever they find in counter `m`, which they do
not change. -/
def AlikeBut (m : Metric) : Prog Bytes → Prog Bytes → Prop
  | .done o, q => ∃ o', q = .done o' ∧ SameKind o o'
  | .onKey k upd next, q => ∃ next', q = .onKey k upd next' ∧ ∀ o, AlikeBut m (next o) (next' o)
  | .onCtr c upd next, q => ∃ next', q = .onCtr c upd next' ∧
      ((c = m → ∀ o, upd o = o) ∧ ∀ o o', (c = m ∨ o = o') → AlikeBut m (next o) (next' o'))

/-- The program does not look at counter `m`. -/
def Avoids (m : Metric) : Prog Bytes → Prop
  | .done _ => True
  | .onKey _ _ next => ∀ o, Avoids m (next o)
  | .onCtr c _ next => c ≠ m ∧ ∀ o, Avoids m (next o)

theorem Avoids.alike {m : Metric} {p : Prog Bytes} (h : Avoids m p) : AlikeBut m p p := by
  induction p with
  | done r => exact ⟨r, rfl, SameKind.refl r⟩
  | onKey k upd next ih => exact ⟨next, rfl, fun o => ih o (h o)⟩
  | onCtr c upd next ih =>
    refine ⟨next, rfl, fun e => absurd e h.1, fun o o' e => ?_⟩
    rcases e with e | rfl
    · exact absurd e h.1
    · exact ih o (h.2 o)

theorem AlikeBut.andThen {m : Metric} {p q : Prog Bytes} (h : AlikeBut m p q)
    {f : Outcome DispatchError Bytes → Prog Bytes} (hf : ∀ o o', SameKind o o' → AlikeBut m (f o) (f o')) :
    AlikeBut m (p.andThen f) (q.andThen f) := by
  induction p generalizing q with
  | done r =>
    obtain ⟨o', rfl, ho⟩ := h
    exact hf _ _ ho
  | onKey k upd next ih =>
    obtain ⟨next', rfl, hn⟩ := h
    exact ⟨_, rfl, fun o => ih o (hn o)⟩
  | onCtr c upd next ih =>
    obtain ⟨next', rfl, hu, hn⟩ := h
    exact ⟨_, rfl, hu, fun o o' e => ih o (hn o o' e)⟩

theorem alike_count (env : Env) (o o' : Outcome DispatchError Bytes) (h : SameKind o o') :
    AlikeBut .sessionsStarted (countOutcome env o) (countOutcome env o') := by
  cases o with
  | ok a =>
    cases o' with
    | ok a' =>
      refine ⟨_, rfl, fun e => (by cases e), fun o o' e => ?_⟩
      rcases e with e | rfl
      · cases e
      · dsimp only
        split
        · exact ⟨_, rfl, trivial⟩
        · exact ⟨_, rfl, rfl⟩
    | _ => cases h
  | err e =>
    cases h
    refine ⟨_, rfl, fun e => (by cases e), fun o o' e => ?_⟩
    rcases e with e | rfl
    · cases e
    · dsimp only
      split
      · exact ⟨_, rfl, rfl⟩
      · exact ⟨_, rfl, rfl⟩
  | panic => cases h; exact ⟨_, rfl, rfl⟩
  | stuck => cases h; exact ⟨_, rfl, rfl⟩

theorem avoids_count (env : Env) (o : Outcome DispatchError Bytes) : Avoids .sessionsStarted (countOutcome env o) := by
  cases o with
  | ok a => exact ⟨fun h => (by cases h), fun o => by dsimp only; split <;> trivial⟩
  | err e => exact ⟨fun h => (by cases h), fun o => by dsimp only; split <;> trivial⟩
  | panic => trivial
  | stuck => trivial

theorem Avoids.andThen {m : Metric} {p : Prog Bytes} (h : CounterFree p)
    {f : Outcome DispatchError Bytes → Prog Bytes} (hf : ∀ o, Avoids m (f o)) : Avoids m (p.andThen f) := by
  induction p with
  | done r => exact hf r
  | onKey k upd next ih => exact fun o => ih o (h o)
  | onCtr c upd next ih => exact h.elim

theorem avoids_dispatch (env : Env) (r : Request) (resp : Bytes) (h : r.commandId ≠ .stats) :
    Avoids .sessionsStarted (dispatch env r resp) :=
  Avoids.andThen (counterFree_command h) (avoids_count env)

/-- A map as Stats makes it. -/
def SmallMap (n : Nat) (m : BMap) : Prop := m.length ≤ n ∧ ∀ e ∈ m, e.1.length ≤ 30 ∧ e.2.length = 8

theorem SmallMap.insert {n : Nat} {m : BMap} (h : SmallMap n m) (c : Metric) (i : Int64) :
    SmallMap (n + 1) (m.insert (ascii c.name) (i64Bytes i)) := by
  refine ⟨Nat.le_trans (RespParser.BMap.insert_length_le _ _ _) (by have := h.1; omega), fun e he => ?_⟩
  rcases RespParser.BMap.mem_insert he with rfl | he
  · refine ⟨?_, ?_⟩
    · exact (by decide : ∀ c ∈ [Metric.commandsSuccessful, .commandsErrored, .sessionsStarted, .sessionsEnded],
        (ascii c.name).length ≤ 30) c (by cases c <;> decide)
    · simp [i64Bytes]
  · exact h.2 e he

theorem SmallMap.mono {n : Nat} {m : BMap} (h : SmallMap n m) : SmallMap (n + 1) m := ⟨by have := h.1; omega, h.2⟩

theorem small_items (m : BMap) (h : ∀ e ∈ m, e.1.length ≤ 30 ∧ e.2.length = 8) :
    (m.flatMap mapItem).length ≤ 43 * m.length := by
  induction m with
  | nil => simp
  | cons e m ih =>
    have h1 := h e (by simp)
    have h2 := ih fun x hx => h x (by simp [hx])
    simp only [List.flatMap_cons, List.length_append, List.length_cons]
    have : (mapItem e).length = 13 + e.1.length := by simp [mapItem, h1.2]; omega
    omega

theorem SmallMap.written {m : BMap} (h : SmallMap 3 m) (env : Env) (resp : Bytes) :
    ∃ b, (Outcome.ofOption (Response.writeMap env resp m) : Outcome DispatchError Bytes) = .ok b := by
  have hl := (env.mapOrd_perm m).length_eq
  have h' := small_items (env.mapOrd m) fun e he => h.2 e ((env.mapOrd_perm m).mem_iff.mp he)
  have := h.1
  unfold Response.writeMap
  rw [writeMapIter_eq env.mode (env.mapOrd m) resp (by omega)]
  exact ⟨_, rfl⟩

theorem alike_statsLoop (env : Env) (resp : Bytes) (cs : List Metric) (a b : BMap) (n : Nat) (hn : n + cs.length = 3)
    (ha : SmallMap n a) (hb : SmallMap n b) :
    AlikeBut .sessionsStarted (statsLoop (fun m => done (.ofOption (Response.writeMap env resp m))) cs a)
      (statsLoop (fun m => done (.ofOption (Response.writeMap env resp m))) cs b) := by
  induction cs generalizing a b n with
  | nil =>
    simp only [List.length_nil, Nat.add_zero] at hn
    subst hn
    obtain ⟨x, hx⟩ := ha.written env resp
    obtain ⟨y, hy⟩ := hb.written env resp
    refine ⟨_, rfl, ?_⟩
    rw [hx, hy]
    trivial
  | cons c cs ih =>
    simp only [List.length_cons] at hn
    refine ⟨_, rfl, fun _ _ => rfl, fun o o' _ => ?_⟩
    have h1 : ∀ (o : Option Nat) (m : BMap), SmallMap n m → ∃ m', SmallMap (n + 1) m' ∧
        (match o with
          | some k => if k < 2 ^ 63 then
              statsLoop (fun m => done (.ofOption (Response.writeMap env resp m))) cs
                (m.insert (ascii c.name) (i64Bytes (Int64.ofNat k)))
            else statsLoop (fun m => done (.ofOption (Response.writeMap env resp m))) cs m
          | none => statsLoop (fun m => done (.ofOption (Response.writeMap env resp m))) cs m) =
        statsLoop (fun m => done (.ofOption (Response.writeMap env resp m))) cs m' := by
      intro o m hm
      cases o with
      | none => exact ⟨m, hm.mono, rfl⟩
      | some k =>
        dsimp only
        split
        · exact ⟨_, hm.insert c _, rfl⟩
        · exact ⟨m, hm.mono, rfl⟩
    obtain ⟨a', ha', ea⟩ := h1 o a ha
    obtain ⟨b', hb', eb⟩ := h1 o' b hb
    have := ih a' b' (n + 1) (by omega) ha' hb'
    rw [← ea, ← eb] at this
    exact this

theorem alike_dispatch (env : Env) (r : Request) (resp : Bytes) :
    AlikeBut .sessionsStarted (dispatch env r resp) (dispatch env r resp) := by
  by_cases h : r.commandId = .stats
  · refine AlikeBut.andThen ?_ (alike_count env)
    unfold command
    rw [h]
    dsimp only
    unfold dispatchStats
    split
    · exact ⟨_, rfl, rfl⟩
    · exact alike_statsLoop env resp statsCounters [] [] 0 rfl ⟨by simp, by simp⟩ ⟨by simp, by simp⟩
  · exact (avoids_dispatch env r resp h).alike

theorem AlikeBut.sameEnd {m : Metric} {p q : Prog Bytes} (h : AlikeBut m p q) : SameEnd p q := by
  cases p with
  | done o =>
    obtain ⟨o', rfl, ho⟩ := h
    cases o <;> cases o' <;> first | trivial | exact ho
  | onKey k upd next =>
    obtain ⟨next', rfl, -⟩ := h
    trivial
  | onCtr c upd next =>
    obtain ⟨next', rfl, -⟩ := h
    trivial

/-- The same stored values, and the same counters but for `m`. -/
def DbAlike (m : Metric) (a b : Db) : Prop := a.keys = b.keys ∧ ∀ c, c ≠ m → a.ctrs c = b.ctrs c

theorem AlikeBut.step {m : Metric} {p q : Prog Bytes} (h : AlikeBut m p q) {a b : Db} (hd : DbAlike m a b) :
    AlikeBut m (p.step a).1 (q.step b).1 ∧ DbAlike m (p.step a).2 (q.step b).2 := by
  cases p with
  | done o =>
    obtain ⟨o', rfl, ho⟩ := h
    exact ⟨⟨o', rfl, ho⟩, hd⟩
  | onKey k upd next =>
    obtain ⟨next', rfl, hn⟩ := h
    simp only [Prog.step]
    rw [hd.1]
    refine ⟨hn _, ?_, hd.2⟩
    simp only [Db.setKey, hd.1]
  | onCtr c upd next =>
    obtain ⟨next', rfl, hu, hn⟩ := h
    simp only [Prog.step]
    refine ⟨hn _ _ ?_, hd.1, fun c' hc' => ?_⟩
    · by_cases hc : c = m
      · exact Or.inl hc
      · exact Or.inr (hd.2 c hc)
    · simp only [Db.setCtr]
      split
      · rename_i e
        subst e
        rw [hd.2 _ hc']
      · exact hd.2 _ hc'

theorem Avoids.step {m : Metric} {p : Prog Bytes} (h : Avoids m p) {a b : Db} (hd : DbAlike m a b) :
    (p.step a).1 = (p.step b).1 ∧ Avoids m (p.step a).1 := by
  cases p with
  | done o => exact ⟨rfl, trivial⟩
  | onKey k upd next =>
    simp only [Prog.step]
    rw [hd.1]
    exact ⟨rfl, h _⟩
  | onCtr c upd next =>
    simp only [Prog.step]
    rw [hd.2 c h.1]
    exact ⟨rfl, h.2 _⟩

theorem commandThreads_some (t : HopThread) : (commandOf t).isSome = decide (t.kind = .command) := by
  cases t <;> rfl

/-- Threads executing these requests, step by step as far as the threads executing them alone. -/
def Paired (rs : List (Request × Bytes)) (ts us : List (Prog Bytes)) : Prop :=
  ts.length = us.length ∧ ∀ (j : Nat) t u, ts[j]? = some t → us[j]? = some u → AlikeBut .sessionsStarted t u ∧
    ∀ r : Request × Bytes, rs[j]? = some r → r.1.commandId ≠ .stats → t = u ∧ Avoids .sessionsStarted t

theorem Paired.set {rs : List (Request × Bytes)} {ts us : List (Prog Bytes)} (h : Paired rs ts us) {j : Nat}
    {t u t' u' : Prog Bytes} (ht : ts[j]? = some t) (hu : us[j]? = some u) (ha : AlikeBut .sessionsStarted t' u')
    (he : (t = u ∧ Avoids .sessionsStarted t) → t' = u' ∧ Avoids .sessionsStarted t') :
    Paired rs (ts.set j t') (us.set j u') := by
  refine ⟨by simp [h.1], fun i x y hx hy => ?_⟩
  rw [List.getElem?_set] at hx hy
  by_cases hij : j = i
  · subst hij
    have h1 : j < ts.length := (List.getElem?_eq_some_iff.mp ht).1
    have h2 : j < us.length := (List.getElem?_eq_some_iff.mp hu).1
    simp only [if_true, h1, h2, Option.some.injEq] at hx hy
    subst hx hy
    exact ⟨ha, fun r hr hs => he ((h.2 j t u ht hu).2 r hr hs)⟩
  · rw [if_neg hij] at hx hy
    exact h.2 i x y hx hy

theorem paired_exec (env : Env) (calls : List HopCall) (h : HopEngine) (shard : UInt32 → Nat) (sched : List Nat) :
    Paired (requestCalls calls) (commandThreads ((hopPool env calls h).exec env.mode shard sched).threads)
      ((Pool.start env (requestCalls calls) h.db).exec (turnsOf .command calls sched)).threads ∧
    DbAlike .sessionsStarted ((hopPool env calls h).exec env.mode shard sched).engine.db
      ((Pool.start env (requestCalls calls) h.db).exec (turnsOf .command calls sched)).db := by
  induction sched using snoc_induction with
  | h0 =>
    refine ⟨?_, rfl, fun _ _ => rfl⟩
    have e : commandThreads (calls.map (HopCall.thread env)) =
        (requestCalls calls).map fun r => dispatch env r.1 r.2 := by
      unfold commandThreads requestCalls
      rw [List.filterMap_map, List.map_filterMap]
      congr 1
      funext c
      cases c <;> rfl
    show Paired (requestCalls calls) (commandThreads (calls.map (HopCall.thread env)))
      ((requestCalls calls).map fun r => dispatch env r.1 r.2)
    rw [e]
    refine ⟨rfl, fun j t u ht hu => ?_⟩
    rw [ht, Option.some.injEq] at hu
    subst hu
    rw [List.getElem?_map, Option.map_eq_some_iff] at ht
    obtain ⟨r, hr, rfl⟩ := ht
    refine ⟨alike_dispatch _ _ _, fun r' hr' hs => ?_⟩
    rw [hr, Option.some.injEq] at hr'
    subst hr'
    exact ⟨rfl, avoids_dispatch _ _ _ hs⟩
  | h1 s i ih =>
    have hk := kindsOf_exec env env.mode calls h shard s
    rw [HopPool.exec_snoc, turnsOf_snoc]
    generalize (hopPool env calls h).exec env.mode shard s = p at hk ih
    have hat := hk.at i
    unfold HopPool.stepAt
    cases ht : p.threads[i]? with
    | none =>
      rw [ht] at hat
      rw [← hat]
      simpa using ih
    | some t =>
      rw [ht] at hat
      rw [← hat]
      have hr := hk.rank commandThreads_some i
      cases t with
      | command t =>
        simp only [Option.map_some, HopThread.kind, if_true]
        rw [Pool.exec_snoc]
        generalize (Pool.start env (requestCalls calls) h.db).exec (turnsOf .command calls s) = q at ih
        obtain ⟨qt, qd⟩ := q
        obtain ⟨h1, h2⟩ := ih
        dsimp only at h1 h2
        have key := filterMap_set_some (f := commandOf) p.threads i (b := t)
          (a' := .command (t.step p.engine.db).1) (b' := (t.step p.engine.db).1) ht rfl rfl
        rw [hr] at key
        generalize List.countP (fun c => decide (c.kind = HopKind.command)) (List.take i calls) = j at key
        obtain ⟨key1, key2⟩ := key
        have hj : j < qt.length := by
          rw [← h1.1]
          exact (List.getElem?_eq_some_iff.mp key1).1
        have hu := List.getElem?_eq_getElem hj
        generalize qt[j] = u at hu
        unfold Pool.stepAt
        dsimp only
        rw [hu]
        dsimp only
        have hp := h1.2 j t u key1 hu
        have hst := hp.1.step h2
        refine ⟨?_, hst.2⟩
        show Paired (requestCalls calls) (List.filterMap commandOf (p.threads.set i (.command (t.step p.engine.db).1))) _
        rw [key2]
        refine Paired.set h1 key1 hu hst.1 fun he => ?_
        obtain ⟨rfl, hav⟩ := he
        exact hav.step h2
      | session t =>
        simp only [Option.map_some, HopThread.kind, reduceCtorEq, Option.some.injEq, if_false, List.append_nil]
        have e : commandThreads (p.threads.set i (.session (t.step env.mode p.sessionFree p.engine.mgr).1)) =
          commandThreads p.threads := filterMap_set_none _ i ht rfl rfl
        refine ⟨?_, ih.2.1, fun c hc => ?_⟩
        · rw [← e] at ih
          exact ih.1
        · rw [← ih.2.2 c hc]
          have hm : ∀ (m : SessionMgr) (cs : MetricMap Metric), m.metrics.live = some cs →
              ∃ cs', (t.step env.mode p.sessionFree m).2.metrics.live = some cs' ∧ cs'.counters c = cs.counters c := by
            intro m cs hcs
            cases t with
            | keyed s k =>
              simp only [SessionThread.step]
              split
              · cases m.sessions k <;> exact ⟨cs, hcs, rfl⟩
              · exact ⟨cs, hcs, rfl⟩
            | inserted s k =>
              simp only [SessionThread.step, MetricCell.increment, hcs]
              cases addU env.mode 64 ((cs.counters .sessionsStarted).getD 0) 1 <;> exact ⟨_, rfl, by simp [hc]⟩
            | remove id =>
              simp only [SessionThread.step]
              split <;> exact ⟨cs, hcs, rfl⟩
            | _ => exact ⟨cs, hcs, rfl⟩
          obtain ⟨cs', h1, h2⟩ := hm p.engine.mgr _ rfl
          simp only [HopThread.step, HopEngine.setMgr, h1]
          rw [h2]
      | _ =>
        simp only [Option.map_some, HopThread.kind, reduceCtorEq, Option.some.injEq, if_false, List.append_nil]
        refine ⟨?_, ih.2⟩
        have e : ∀ t', commandOf t' = none → commandThreads (p.threads.set i t') = commandThreads p.threads :=
          fun t' h' => filterMap_set_none _ i ht rfl h'
        rw [show commandThreads _ = _ from e _ rfl]
        exact ih.1

/-- C148. The stored values and all counters but that of started sessions are what they would be if the threads
that execute requests had the engine to themselves. A request other than Stats is as far and has the same
answer; Stats, which shows the number of started sessions, ends at the same step and in the same way. -/
theorem C148_commands (env : Env) (calls : List HopCall) (h : HopEngine) (shard : UInt32 → Nat) (sched : List Nat) :
    let p := (hopPool env calls h).exec env.mode shard sched
    let alone := (Pool.start env (requestCalls calls) h.db).exec (turnsOf .command calls sched)
    p.engine.db.keys = alone.db.keys ∧ (∀ m, m ≠ .sessionsStarted → p.engine.readMetric m = alone.db.ctrs m) ∧
    (commandThreads p.threads).length = alone.threads.length ∧
    ∀ (j : Nat) t u, (commandThreads p.threads)[j]? = some t → alone.threads[j]? = some u → SameEnd t u ∧
      ∀ r : Request × Bytes, (requestCalls calls)[j]? = some r → r.1.commandId ≠ .stats → t = u := by
  dsimp only
  obtain ⟨h1, h2⟩ := paired_exec env calls h shard sched
  exact ⟨h2.1, h2.2, h1.1, fun j t u ht hu => ⟨(h1.2 j t u ht hu).1.sameEnd,
    fun r hr hs => ((h1.2 j t u ht hu).2 r hr hs).1⟩⟩

/-! ## C149 Statistics of an engine used from several threads -/

theorem countP_pointwise {α} (f : α → Bool) (as bs : List α) (hl : as.length = bs.length)
    (h : ∀ (j : Nat) a b, as[j]? = some a → bs[j]? = some b → f a = f b) : as.countP f = bs.countP f := by
  induction as generalizing bs with
  | nil =>
    cases bs with
    | nil => rfl
    | cons b bs => cases hl
  | cons a as ih =>
    cases bs with
    | nil => cases hl
    | cons b bs =>
      have h0 := h 0 a b rfl rfl
      have := ih bs (by simpa using hl) fun j x y hx hy => h (j + 1) x y (by simpa using hx) (by simpa using hy)
      simp only [List.countP_cons, h0, this]

theorem countP_succeeded (ts : List HopThread) : (commandThreads ts).countP succeeded = ts.countP hopSucceeded := by
  unfold commandThreads
  induction ts with
  | nil => rfl
  | cons t ts ih =>
    cases t with
    | command p =>
      simp only [List.filterMap_cons, commandOf, List.countP_cons, ih]
      congr 1
      cases p with
      | done o => cases o <;> rfl
      | _ => rfl
    | _ => simpa [List.filterMap_cons, commandOf, hopSucceeded] using ih

theorem countP_failed (ts : List HopThread) : (commandThreads ts).countP errored = ts.countP hopFailed := by
  unfold commandThreads
  induction ts with
  | nil => rfl
  | cons t ts ih =>
    cases t with
    | command p =>
      simp only [List.filterMap_cons, commandOf, List.countP_cons, ih]
      congr 1
      cases p with
      | done o => cases o <;> rfl
      | _ => rfl
    | _ => simpa [List.filterMap_cons, commandOf, hopFailed] using ih

/-- The thread has counted the session it started. -/
def countingSession : SessionThread → Bool
  | .counted _ _ | .advancing _ _ _ | .added _ _ => true
  | _ => false

theorem countP_started (ts : List HopThread) : (sessionThreads ts).countP countingSession = ts.countP hopStarted := by
  unfold sessionThreads
  induction ts with
  | nil => rfl
  | cons t ts ih =>
    cases t with
    | session t =>
      simp only [List.filterMap_cons, sessionOf, List.countP_cons, ih]
      congr 1
      cases t <;> rfl
    | _ => simpa [List.filterMap_cons, sessionOf, hopStarted] using ih

theorem sameEnd_counted {p q : Prog Bytes} (h : SameEnd p q) : succeeded p = succeeded q ∧ errored p = errored q := by
  cases p with
  | done o =>
    cases q with
    | done o' =>
      cases o <;> cases o' <;> first | exact ⟨rfl, rfl⟩ | cases h
    | _ => cases o <;> cases h
  | _ =>
    cases q with
    | done o' => cases h
    | _ => exact ⟨rfl, rfl⟩

theorem started_exec (mode : Mode) (p : SessionPool) (c0 : MetricMap Metric) (hc : p.mgr.metrics.live = some c0)
    (h0 : p.threads.countP countingSession = 0)
    (hroom : (c0.counters .sessionsStarted).getD 0 + p.threads.length < 2 ^ 64) (sched : List Nat) :
    ∃ c, (p.exec mode sched).mgr.metrics.live = some c ∧ (c.counters .sessionsStarted).getD 0 =
      (c0.counters .sessionsStarted).getD 0 + (p.exec mode sched).threads.countP countingSession ∧
      (p.exec mode sched).threads.length = p.threads.length := by
  induction sched using snoc_induction with
  | h0 => exact ⟨c0, hc, by show _ = _ + p.threads.countP countingSession; rw [h0]; rfl, rfl⟩
  | h1 s i ih =>
    rw [SessionPool.exec_snoc']
    generalize p.exec mode s = q at ih
    obtain ⟨c, h1, h2, h3⟩ := ih
    unfold SessionPool.stepAt
    cases ht : q.threads[i]? with
    | none => exact ⟨c, h1, h2, h3⟩
    | some t =>
      dsimp only
      have hset := fun a => countP_set countingSession q.threads i a t ht
      have hsame : ∀ (t' : SessionThread) (m' : SessionMgr), m'.metrics = q.mgr.metrics → countingSession t' = countingSession t →
          ∃ c, m'.metrics.live = some c ∧ (c.counters .sessionsStarted).getD 0 =
            (c0.counters .sessionsStarted).getD 0 + (q.threads.set i t').countP countingSession ∧
            (q.threads.set i t').length = p.threads.length := by
        intro t' m' hm hcnt
        refine ⟨c, by rw [hm]; exact h1, ?_, by rw [List.length_set]; exact h3⟩
        have := hset t'
        rw [hcnt] at this
        omega
      cases t with
      | keyed s k =>
        simp only [SessionThread.step]
        split
        · cases q.mgr.sessions k <;> exact hsame _ _ rfl rfl
        · exact hsame _ _ rfl rfl
      | inserted s k =>
        have hle : q.threads.countP countingSession + 1 ≤ q.threads.length := by
          have h5 := hset (.counted s k)
          have h6 := List.countP_le_length (p := countingSession) (l := q.threads.set i (.counted s k))
          simp only [countingSession, Bool.false_eq_true, if_false, if_true, List.length_set] at h5 h6
          omega
        have hadd : addU mode 64 ((c.counters .sessionsStarted).getD 0) 1 =
            some ((c.counters .sessionsStarted).getD 0 + 1) := addU_of_lt (by omega)
        simp only [SessionThread.step, MetricCell.increment, h1, hadd]
        refine ⟨_, rfl, ?_, by rw [List.length_set]; exact h3⟩
        have h5 := hset (.counted s k)
        simp only [countingSession, Bool.false_eq_true, if_false, if_true, Option.getD_some] at h5 ⊢
        omega
      | remove id =>
        simp only [SessionThread.step]
        split <;> exact hsame _ _ rfl rfl
      | _ => exact hsame _ _ rfl rfl

/-- C149. At every moment of every execution by threads of all kinds, the counter of successful commands is its
initial value plus the number of requests answered with success so far, that of failed commands its initial value
plus the number of requests answered with an error, and that of started sessions its initial value plus the number
of sessions started; the counter of ended sessions never changes. -/
theorem C149_statistics (env : Env) (calls : List HopCall) (h : HopEngine) (hc : Roomy calls.length h.db.ctrs)
    (shard : UInt32 → Nat) (sched : List Nat) :
    let p := (hopPool env calls h).exec env.mode shard sched
    (p.engine.readMetric .commandsSuccessful).getD 0 =
      (h.readMetric .commandsSuccessful).getD 0 + p.threads.countP hopSucceeded ∧
    (p.engine.readMetric .commandsErrored).getD 0 =
      (h.readMetric .commandsErrored).getD 0 + p.threads.countP hopFailed ∧
    (p.engine.readMetric .sessionsStarted).getD 0 =
      (h.readMetric .sessionsStarted).getD 0 + p.threads.countP hopStarted ∧
    p.engine.readMetric .sessionsEnded = h.readMetric .sessionsEnded := by
  dsimp only
  have hC := C148_commands env calls h shard sched
  have hS := C148_sessions env calls h shard sched
  dsimp only at hC hS
  obtain ⟨-, hm, hlen, hpt⟩ := hC
  have hle1 : (requestCalls calls).length ≤ calls.length := List.length_filterMap_le _ _
  have hle2 : (sessionCalls calls).length ≤ calls.length := List.length_filterMap_le _ _
  obtain ⟨h1, h2, h3⟩ := C60_concurrent_statistics (env := env) (requestCalls calls) h.db
    (fun m => by have := hc m; omega) (turnsOf .command calls sched)
  refine ⟨?_, ?_, ?_, ?_⟩
  · rw [hm _ (by decide), h1, ← countP_succeeded]
    rw [countP_pointwise succeeded _ _ hlen fun j a b ha hb => (sameEnd_counted (hpt j a b ha hb).1).1]
    rfl
  · rw [hm _ (by decide), h2, ← countP_failed]
    rw [countP_pointwise errored _ _ hlen fun j a b ha hb => (sameEnd_counted (hpt j a b ha hb).1).2]
    rfl
  · obtain ⟨c, e1, e2, -⟩ := started_exec env.mode (sessionsAlone calls h) _ rfl
      (by
        refine List.countP_eq_zero.mpr fun t ht => ?_
        obtain ⟨o, -, rfl⟩ := List.mem_map.mp ht
        cases o <;> simp [SessionOp.thread, countingSession])
      (by
        have := hc .sessionsStarted
        simp only [sessionsAlone, List.length_map]
        omega) (turnsOf .session calls sched)
    rw [hS.2.2.2, ← countP_started, hS.1]
    simp only [MetricCell.readCounter, e1, Option.bind_some]
    exact e2
  · rw [hm _ (by decide)]
    exact h3 _ (by decide) (by decide)

theorem measuring_exec (env : Env) (calls : List HopCall) (h : HopEngine) (shard : UInt32 → Nat) (sched : List Nat)
    (i : Nat) (m : Metric) (hi : calls[i]? = some (.metric m)) :
    ((hopPool env calls h).exec env.mode shard sched).threads[i]? = some (.measure m) ∧ i ∉ sched ∨
    ∃ s1 s2, sched = s1 ++ i :: s2 ∧ i ∉ s1 ∧ ((hopPool env calls h).exec env.mode shard sched).threads[i]? =
      some (.measured m (((hopPool env calls h).exec env.mode shard s1).engine.readMetric m)) := by
  induction sched using snoc_induction with
  | h0 =>
    left
    refine ⟨?_, by simp⟩
    show (calls.map (HopCall.thread env))[i]? = _
    rw [List.getElem?_map, hi]
    rfl
  | h1 s j ih =>
    rw [HopPool.exec_snoc]
    by_cases hji : j = i
    · subst hji
      rcases ih with ⟨ht, hn⟩ | ⟨s1, s2, rfl, hn, ht⟩
      · right
        refine ⟨s, [], rfl, hn, ?_⟩
        have hlt := (List.getElem?_eq_some_iff.mp ht).1
        unfold HopPool.stepAt
        simp only [ht, HopThread.step]
        rw [List.getElem?_set_self hlt]
      · right
        refine ⟨s1, s2 ++ [j], by simp, hn, ?_⟩
        have hlt := (List.getElem?_eq_some_iff.mp ht).1
        unfold HopPool.stepAt
        simp only [ht, HopThread.step]
        rw [List.getElem?_set_self hlt]
    · have he : (((hopPool env calls h).exec env.mode shard s).stepAt env.mode shard j).threads[i]? =
          ((hopPool env calls h).exec env.mode shard s).threads[i]? := by
        unfold HopPool.stepAt
        split
        · rfl
        · exact List.getElem?_set_ne hji
      rw [he]
      rcases ih with ⟨ht, hn⟩ | ⟨s1, s2, e, hn, ht⟩
      · exact Or.inl ⟨ht, by simp [hn, Ne.symm hji]⟩
      · exact Or.inr ⟨s1, s2 ++ [j], by simp [e], hn, ht⟩

/-- C149. A thread that reads a counter gets, in one step, the value the counter has at that moment; it never
waits. -/
theorem C149_reading (env : Env) (calls : List HopCall) (h : HopEngine) (shard : UInt32 → Nat) (s1 s2 : List Nat)
    (i : Nat) (m : Metric) (hi : calls[i]? = some (.metric m)) (hn : i ∉ s1) :
    ((hopPool env calls h).exec env.mode shard (s1 ++ i :: s2)).threads[i]? =
      some (.measured m (((hopPool env calls h).exec env.mode shard s1).engine.readMetric m)) := by
  rcases measuring_exec env calls h shard (s1 ++ i :: s2) i m hi with ⟨-, hc⟩ | ⟨t1, t2, e, hn', ht⟩
  · simp at hc
  · have : s1 = t1 := by
      clear ht
      induction s1 generalizing t1 with
      | nil =>
        cases t1 with
        | nil => rfl
        | cons x t1 =>
          simp only [List.nil_append, List.cons_append, List.cons.injEq] at e
          rw [e.1] at hn'
          simp at hn'
      | cons y s1 ih =>
        cases t1 with
        | nil =>
          simp only [List.nil_append, List.cons_append, List.cons.injEq] at e
          rw [e.1] at hn
          simp at hn
        | cons x t1 =>
          simp only [List.cons_append, List.cons.injEq] at e
          simp only [List.mem_cons, not_or] at hn hn'
          rw [e.1, ih hn.2 t1 e.2 hn'.2]
    rw [← this] at ht
    exact ht

/-- Two requests, a session, a subscription and a reader, whose steps are mixed. -/
def mixedCalls : List HopCall :=
  [.dispatch (call .increment none [[107]]) [], .session (.add [1]), .pubsub (.op (.subscribe [9] 5)),
    .dispatch (call .stats none []) [], .metric .sessionsStarted]

/-- The number of sessions started is read between the two requests; Stats shows it as well. -/
def mixedSched : List Nat := [1, 0, 1, 2, 1, 0, 1, 3, 4, 2, 3, 0, 3, 1, 0, 1, 3]

example : turnsOf .command mixedCalls mixedSched = [0, 0, 1, 1, 0, 1, 0, 1] ∧
    turnsOf .session mixedCalls mixedSched = [0, 0, 0, 0, 0, 0] ∧ turnsOf .pubsub mixedCalls mixedSched = [0, 0] := by
  decide

example : Roomy mixedCalls.length HopEngine.new.db.ctrs := fun m => by cases m <;> decide

example : let p := (hopPool (sampleEnv .debug) mixedCalls .new).exec .debug (fun s => s.toNat) mixedSched
    (p.threads.countP hopSucceeded, p.threads.countP hopFailed, p.threads.countP hopStarted) = (2, 0, 1) ∧
    p.engine.readMetric .commandsSuccessful = some 2 ∧ p.engine.readMetric .sessionsStarted = some 1 ∧
    pubsubThreads p.threads = [.subscribed (some 0)] := by
  decide

/-- What reading a statistic answers is what it is at that moment. -/
example (s2 : List Nat) : ((hopPool (sampleEnv .debug) mixedCalls .new).exec .debug (fun s => s.toNat) ([1, 0, 1, 2, 1, 0, 1, 3] ++ 4 :: s2)).threads[4]? =
    some (.measured .sessionsStarted (((hopPool (sampleEnv .debug) mixedCalls .new).exec .debug (fun s => s.toNat)
      [1, 0, 1, 2, 1, 0, 1, 3]).engine.readMetric .sessionsStarted)) :=
  C149_reading (sampleEnv .debug) mixedCalls .new _ [1, 0, 1, 2, 1, 0, 1, 3] s2 4 .sessionsStarted rfl (by decide)

/-- No session ever counts as ended. -/
example (shard : UInt32 → Nat) (sched : List Nat) :
    ((hopPool (sampleEnv .debug) mixedCalls .new).exec .debug shard sched).engine.readMetric .sessionsEnded = none :=
  (C149_statistics (sampleEnv .debug) mixedCalls .new (fun m => by cases m <;> decide) shard sched).2.2.2

end Hop
