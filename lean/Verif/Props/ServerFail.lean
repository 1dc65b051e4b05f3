import Verif.Props.ServerFlow

/-! # C181: connections that fail, or whose clients do not read, leave no command half done -/

namespace Hop

open Server Spec

/-- The task is in `read_until`, or about to be. -/
def isReading : Task → Bool
  | .reading .. => true
  | _ => false

/-- A task that writes, or has met an error, is not in the middle of a command. -/
def Between (c : Flow) : Prop :=
  InOrder c ∧ (c.writing = true → isReading c.live.task = true) ∧ (c.dead = true → isReading c.live.task = true)

theorem look_sends (env : Env) (c : Live) (ctx : ReqParser.Ctx) (input : Bytes) :
    (c.look env ctx input).sent = c.sent ∨ isReading (c.look env ctx input).task = true := by
  unfold Live.look
  split <;> simp [isReading]

theorem step_sends (env : Env) (c : Live) (db : Db) :
    (c.step env db).1.sent = c.sent ∨ isReading (c.step env db).1.task = true := by
  unfold Live.step
  split
  · split
    · split
      · exact look_sends env _ _ _
      · simp
    · split
      · split
        · simp
        · exact look_sends env _ _ _
      · simp
  all_goals simp [isReading]

theorem between_step (env : Env) (b : Nat) (c : Flow) (db : Db) (h : Between c) : Between (c.step env b db).1 := by
  obtain ⟨ho, hw, hd⟩ := h
  refine ⟨inOrder_step env b c db ho, ?_⟩
  unfold Flow.step
  by_cases h1 : c.dead = true
  · rw [if_pos h1]; exact ⟨hw, hd⟩
  rw [if_neg h1]
  by_cases h2 : c.writing = true
  · rw [if_pos h2]
    have hr := hw h2
    dsimp only
    split
    · exact ⟨fun _ => hr, fun _ => hr⟩
    · exact ⟨fun _ => hr, fun _ => hr⟩
  · rw [if_neg h2]
    refine ⟨fun h => ?_, fun h => absurd h h1⟩
    rcases step_sends env c.live db with hs | hs
    · exfalso
      apply h2
      simp only [Flow.writing, hs] at h ⊢
      exact h
    · exact hs

theorem between_exec (env : Env) (a b k : Nat) (db : Db) (es : List FlowEvent) :
    ∀ c ∈ ((FlowNet.start k db).exec env a b es).conns, Between c :=
  flow_conns env a b k db ⟨⟨Nat.le_refl _, Nat.le_refl _⟩, fun _ => rfl, fun _ => rfl⟩ (fun _ _ h _ _ => h) (fun _ h => h)
    (fun _ _ h => ⟨⟨Nat.min_le_left _ _, h.1.2⟩, h.2⟩) (fun c db h => between_step env b c db h)
    (fun c h ha => ⟨h.1, h.2.1, fun _ => by
      unfold Flow.atSocket at ha
      cases hw : c.writing with
      | true => exact h.2.1 hw
      | false =>
        rw [hw, Bool.false_or] at ha
        dsimp only
        unfold isReading
        exact ha⟩) es

/-- A task that has ended because the client closed its side has taken up everything. -/
def Emptied (c : Flow) : Prop := c.live.task = .over .closed → c.live.pending = [] ∧ c.live.closed = true

theorem look_not_closed (env : Env) (c : Live) (ctx : ReqParser.Ctx) (input : Bytes) :
    (c.look env ctx input).task ≠ .over .closed := by
  unfold Live.look
  split <;> simp

theorem emptied_step (env : Env) (b : Nat) (c : Flow) (db : Db) (h : Emptied c) : Emptied (c.step env b db).1 := by
  unfold Flow.step
  split
  · exact h
  split
  · dsimp only
    split <;> exact h
  · unfold Emptied at h ⊢
    obtain ⟨⟨pending, closed, sent, task⟩, wrote, read, dead⟩ := c
    dsimp only at h ⊢
    unfold Live.step
    dsimp only
    split
    · split
      · dsimp only
        split
        · exact fun h' => absurd h' (look_not_closed env _ _ _)
        · intro h'; cases h'
      · dsimp only
        split
        · rename_i hcl
          split
          · exact fun _ => ⟨rfl, hcl⟩
          · exact fun h' => absurd h' (look_not_closed env _ _ _)
        · exact h
    all_goals first
      | exact h
      | (intro h'; cases h')

theorem emptied_exec (env : Env) (a b k : Nat) (db : Db) (es : List FlowEvent) :
    ∀ c ∈ ((FlowNet.start k db).exec env a b es).conns, Emptied c :=
  flow_conns env a b k db (fun h => by cases h) (fun _ _ h h1 _ h2 => by rw [(h h2).2] at h1; cases h1)
    (fun _ h h2 => ⟨(h h2).1, rfl⟩) (fun _ _ h => h) (fun c db h => emptied_step env b c db h) (fun _ h _ => h) es

namespace Spec

/-- What a client has sent and its connection's task has not taken up. -/
def untaken (n : FlowNet) (i : Nat) : Bytes :=
  match n.conns[i]? with
  | some c => c.live.pending
  | none => []

end Spec

/-- If a turn of the server changes nothing, its task is not in the middle of a command. -/
theorem waiting_between {env : Env} {a b : Nat} {n : FlowNet} {i : Nat} {c : Flow} (hc : n.conns[i]? = some c) (hb : Between c)
    (h : n.step env a b (.turn i) = n) :
    oks c.live.task = 0 ∧ errs c.live.task = 0 ∧ ∀ p ctx, c.live.task ≠ .running p ctx := by
  have hr : isReading c.live.task = true → oks c.live.task = 0 ∧ errs c.live.task = 0 ∧ ∀ p ctx, c.live.task ≠ .running p ctx := by
    intro h
    cases ht : c.live.task <;> simp [ht, isReading, oks, errs] at h ⊢
  by_cases h1 : c.dead = true
  · exact hr (hb.2.2 h1)
  by_cases h2 : c.writing = true
  · exact hr (hb.2.1 h2)
  simp only [FlowNet.step, hc] at h
  obtain ⟨h3, h4⟩ := flow_set_eq hc h
  simp only [Flow.step, h1, h2] at h3 h4
  have h5 : c.live.step env n.db = (c.live, n.db) := Prod.ext (congrArg Flow.live h3) h4
  rcases resting h5 with ⟨ctx, input, size, ht, -⟩ | ⟨e, ht⟩ | ht <;> simp [ht, oks, errs]

/-- C181. Whenever the server can do nothing (until something arrives or is read), on any connection, whether because everything
is done, because clients do not read, or because reading and writing have failed: every command that is heard in the whole lines
it has taken up (in all that it has taken up, if the client has hung up or the connection has broken down) has been counted once,
by how it was answered, and no other. -/
theorem C181_counts (env : Env) (inRoom outRoom k : Nat) (db : Db) (events : List FlowEvent)
    (hr : Roomy (1 + events.length) db.ctrs)
    (hrest : ∀ i < k, ((FlowNet.start k db).exec env inRoom outRoom events).step env inRoom outRoom (.turn i) =
      (FlowNet.start k db).exec env inRoom outRoom events) :
    ∃ rss : Nat → List Response,
      (∀ i < k, ∃ part unfinished hs e, accepted env inRoom outRoom i (FlowNet.start k db) events =
          part ++ unfinished ++ untaken ((FlowNet.start k db).exec env inRoom outRoom events) i ∧ (10 : UInt8) ∉ unfinished ∧
        Hears [] (Server.lines part) hs e ∧
        All2 (Responds (FlowSeen env inRoom outRoom (FlowNet.start k db) events)) hs (rss i) ∧
        readBy ((FlowNet.start k db).exec env inRoom outRoom events) i <+: wire env (rss i)) ∧
      let n := (FlowNet.start k db).exec env inRoom outRoom events
      (n.db.ctrs .commandsSuccessful).getD 0 =
        (db.ctrs .commandsSuccessful).getD 0 + ((List.range k).map fun i => (rss i).countP isValue).sum ∧
      (n.db.ctrs .commandsErrored).getD 0 =
        (db.ctrs .commandsErrored).getD 0 + ((List.range k).map fun i => (rss i).countP isFailure).sum ∧
      ∀ m, m ≠ .commandsSuccessful → m ≠ .commandsErrored → n.db.ctrs m = db.ctrs m := by
  have hlp := passAll_length env inRoom outRoom events (FlowNet.start k db)
  have hp := plain_exec env inRoom outRoom events (FlowNet.start k db)
  have hlen := flow_length env inRoom outRoom k db events
  obtain ⟨ss, fs, hs, hf, h, r1, r2, r3⟩ := liveTold_exec env k db (passAll env inRoom outRoom (FlowNet.start k db) events)
    (Roomy.mono hr (by omega)) _ [] (List.append_nil _).symm
  have hdb : ((Net.start k db).exec env (passAll env inRoom outRoom (FlowNet.start k db) events)).db =
      ((FlowNet.start k db).exec env inRoom outRoom events).db := by rw [← plain_start, ← hp]; rfl
  rw [hdb] at r1 r2 r3
  have key : ∀ i, ∃ rs : List Response, i < k →
      (∃ part unfinished hs e, accepted env inRoom outRoom i (FlowNet.start k db) events =
          part ++ unfinished ++ untaken ((FlowNet.start k db).exec env inRoom outRoom events) i ∧ (10 : UInt8) ∉ unfinished ∧
        Hears [] (Server.lines part) hs e ∧
        All2 (Responds (FlowSeen env inRoom outRoom (FlowNet.start k db) events)) hs rs ∧
        readBy ((FlowNet.start k db).exec env inRoom outRoom events) i <+: wire env rs) ∧
      ss.getD i 0 = rs.countP isValue ∧ fs.getD i 0 = rs.countP isFailure := by
    intro i
    by_cases hi : i < k
    · have hc := List.getElem?_eq_getElem
        (show i < ((FlowNet.start k db).exec env inRoom outRoom events).conns.length by omega)
      have hb := between_exec env inRoom outRoom k db events _ (List.mem_of_getElem? hc)
      generalize ((FlowNet.start k db).exec env inRoom outRoom events).conns[i] = c at hc hb
      obtain ⟨ho, he, hnr⟩ := waiting_between hc hb (hrest i hi)
      have hcl : ((Net.start k db).exec env (passAll env inRoom outRoom (FlowNet.start k db) events)).conns[i]? =
          some c.live := by
        rw [← plain_start, ← hp]; simp [plainNet, hc]
      obtain ⟨-, ps, hs, rs, sofar, h1, h2, h3, h4, hcnt, h5⟩ := h i _ hcl
      rw [ho, he] at hcnt
      refine ⟨rs, fun _ => ⟨?_, by simpa using hcnt.1, by simpa using hcnt.2⟩⟩
      have hread : readBy ((FlowNet.start k db).exec env inRoom outRoom events) i <+: wire env rs := by
        rw [← h2]
        simp only [readBy, hc]
        exact List.take_prefix _ _
      rw [passAll_arrived] at h5
      rw [← plain_start] at h1
      have h1' := all2_imp (responds_imp fun m o => passAll_seen env inRoom outRoom _ _) h1
      have hun : untaken ((FlowNet.start k db).exec env inRoom outRoom events) i = c.live.pending := by simp [untaken, hc]
      have hem := emptied_exec env inRoom outRoom k db events c (List.mem_of_getElem? hc)
      rw [hun]
      split at h5
      · obtain ⟨cur, h, h', -⟩ := h5
        exact ⟨ps.flatten, cur, hs, _, h, h', by rw [h4]; exact h3.closed, h1', hread⟩
      · rename_i p ctx ht
        exact absurd ht (hnr p ctx)
      · obtain ⟨piece, h, hl', he, hov⟩ := h5
        exact ⟨ps.flatten ++ piece, [], hs, .panicked, by simpa using h, by simp,
          by rw [hl']; simpa using h3.hears (Hears.crash (pieces := []) hov), h1', hread⟩
      · rename_i ht
        exact ⟨ps.flatten, [], hs, _, by rw [(hem ht).1]; simpa using h5.1, by simp, by rw [h4]; exact h3.closed, h1', hread⟩
      · exact h5.elim
    · exact ⟨[], fun h => absurd h hi⟩
  obtain ⟨rss, hrss⟩ := Classical.axiomOfChoice key
  refine ⟨rss, fun i hi => (hrss i hi).1, ?_, ?_, r3⟩
  · have e1 : ((List.range k).map fun i => (rss i).countP isValue) = (List.range k).map fun i => ss.getD i 0 :=
      List.map_congr_left fun i hi => ((hrss i (by simpa using hi)).2.1).symm
    have z := sum_range_getD ss
    rw [hs] at z
    rw [e1, ← z]
    simpa using r1
  · have e1 : ((List.range k).map fun i => (rss i).countP isFailure) = (List.range k).map fun i => fs.getD i 0 :=
      List.map_congr_left fun i hi => ((hrss i (by simpa using hi)).2.2).symm
    have z := sum_range_getD fs
    rw [hf] at z
    rw [e1, ← z]
    simpa using r2

/-! ## Beside the theorem -/

/-- A test for the server being able to do nothing: the connection has failed, or its client does not read. -/
def halted (b : Nat) (n : FlowNet) (i : Nat) : Bool :=
  match n.conns[i]? with
  | some c => c.dead || (c.writing && !decide (c.wrote < c.read + b))
  | none => false

theorem halted_turn {env : Env} {a b : Nat} {n : FlowNet} {i : Nat} (h : halted b n i = true) :
    n.step env a b (.turn i) = n := by
  unfold halted at h
  cases hc : n.conns[i]? with
  | none => simp [hc] at h
  | some c =>
    have hs : c.step env b n.db = (c, n.db) := by
      simp only [hc, Bool.or_eq_true, Bool.and_eq_true, Bool.not_eq_true', decide_eq_false_iff_not] at h
      unfold Flow.step
      by_cases hd : c.dead = true
      · rw [if_pos hd]
      · obtain ⟨h1, h2⟩ := h.resolve_left hd
        rw [if_neg hd, if_pos h1, if_neg h2]
    simp only [FlowNet.step, hc, hs]
    rw [set_same hc]

/-- Two clients send an Append request. There is room for three bytes of the answers; client 0 reads nothing, and the connection
of client 1 fails when it has read two bytes. The request of client 1 that follows is not heard. -/
def failing : List FlowEvent :=
  [.send 0 [20, 2, 0, 0, 0, 1, 107, 0, 0, 0, 1, 10], .send 1 [20, 2, 0, 0, 0, 1, 107, 0, 0, 0, 1, 10], .fail 3] ++
    (List.replicate 40 [FlowEvent.turn 0, .turn 1]).flatten ++ [.read 1 2, .turn 1, .fail 1, .turn 1, .send 1 [101, 10], .turn 1]

theorem failing_rests : ∀ i < 2, ((FlowNet.start 2 (sampleDb [])).exec (sampleEnv .debug) 40 3 failing).step (sampleEnv .debug) 40 3
    (.turn i) = (FlowNet.start 2 (sampleDb [])).exec (sampleEnv .debug) 40 3 failing := by
  intro i hi
  have : ∀ i < 2, halted 3 ((FlowNet.start 2 (sampleDb [])).exec (sampleEnv .debug) 40 3 failing) i = true := by decide +kernel
  exact halted_turn (this i hi)

example := C181_counts (sampleEnv .debug) 40 3 2 (sampleDb []) failing (sampleDb_roomy _ _ (by decide)) failing_rests

example : let n := (FlowNet.start 2 (sampleDb [])).exec (sampleEnv .debug) 40 3 failing
    n.db.ctrs .commandsErrored = some 2 ∧ readBy n 0 = [] ∧ readBy n 1 = [0, 0] ∧ FlowFailed n 1 ∧
    (n.conns[1]?).map (fun c => c.live.pending) = some [101, 10] := by
  refine ⟨by decide +kernel, by decide +kernel, by decide +kernel, ?_, by decide +kernel⟩
  have h : (((FlowNet.start 2 (sampleDb [])).exec (sampleEnv .debug) 40 3 failing).conns[1]?).map (·.dead) = some true := by
    decide +kernel
  obtain ⟨c, h1, h2⟩ := Option.map_eq_some_iff.mp h
  exact ⟨c, h1, h2⟩

end Hop
