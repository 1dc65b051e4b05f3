import Verif.Spec.ServerFlow
import Verif.Props.ServerLive
import Verif.Lemmas.Fair

/-! # C174, C175, C176: clients that are slow to read -/

namespace Hop

open Server Spec

/-! ## What is left when the room for what is in transit is forgotten -/

/-- The same situation without the room for what is in transit. -/
def plainNet (n : FlowNet) : Net := { conns := n.conns.map (·.live), db := n.db }

/-- What an event is when the room for what is in transit is forgotten. -/
def passes (inRoom : Nat) (n : FlowNet) : FlowEvent → List NetEvent
  | .send i bytes => if canSend inRoom n i bytes = true then [.arrive i bytes] else []
  | .hangup i => [.hangup i]
  | .read _ _ => []
  | .turn i =>
    match n.conns[i]? with
    | none => []
    | some c => if c.dead || c.writing then [] else [.turn i]
  | .fail _ => []

def passAll (env : Env) (inRoom outRoom : Nat) : FlowNet → List FlowEvent → List NetEvent
  | _, [] => []
  | n, e :: es => passes inRoom n e ++ passAll env inRoom outRoom (n.step env inRoom outRoom e) es

theorem map_set_live {l : List Flow} {i : Nat} {c c' : Flow} (h : l[i]? = some c) (he : c'.live = c.live) :
    (l.set i c').map (·.live) = l.map (·.live) := by
  rw [List.map_set, he]
  exact set_same (by simp [h])

theorem plain_step (env : Env) (a b : Nat) (n : FlowNet) (e : FlowEvent) :
    plainNet (n.step env a b e) = (plainNet n).exec env (passes a n e) := by
  cases e with
  | send i bytes =>
    cases hc : n.conns[i]? with
    | none => simp [FlowNet.step, passes, canSend, hc, Net.exec]
    | some c =>
      have hs : canSend a n i bytes = (!c.live.closed && decide (c.live.pending.length + bytes.length ≤ a)) := by
        simp [canSend, hc]
      simp only [FlowNet.step, passes, hs, hc]
      by_cases h1 : c.live.closed = true
      · simp [h1, Net.exec]
      · by_cases h2 : a < c.live.pending.length + bytes.length
        · have : ¬ c.live.pending.length + bytes.length ≤ a := by omega
          simp [h1, h2, this, Net.exec]
        · have : c.live.pending.length + bytes.length ≤ a := by omega
          simp [h1, h2, this, Net.exec, Net.step, plainNet, hc, List.map_set]
  | hangup i =>
    simp only [FlowNet.step, passes]
    cases hc : n.conns[i]? with
    | none => simp [Net.exec, Net.step, plainNet, hc]
    | some c => simp [Net.exec, Net.step, plainNet, hc, List.map_set]
  | read i k =>
    simp only [FlowNet.step, passes, Net.exec, List.foldl_nil]
    cases hc : n.conns[i]? with
    | none => rfl
    | some c => simp only [plainNet]; rw [map_set_live hc (by rfl)]
  | turn i =>
    simp only [FlowNet.step, passes]
    cases hc : n.conns[i]? with
    | none => rfl
    | some c =>
      dsimp only
      by_cases h1 : c.dead = true
      · simp only [Flow.step, h1, Bool.true_or, if_true, Net.exec, List.foldl_nil, set_same hc]
      · by_cases h2 : c.writing = true
        · simp only [Flow.step, h1, h2, Bool.or_true, if_true, Net.exec, List.foldl_nil, plainNet]
          rw [map_set_live hc (by simp only [Bool.false_eq_true, if_false]; split <;> rfl)]
          simp
        · simp [Flow.step, h1, h2, Net.exec, Net.step, plainNet, hc, List.map_set]
  | fail i =>
    simp only [FlowNet.step, passes, Net.exec, List.foldl_nil]
    cases hc : n.conns[i]? with
    | none => rfl
    | some c =>
      dsimp only
      split
      · simp only [plainNet]; rw [map_set_live hc (by rfl)]
      · rfl

theorem plain_exec (env : Env) (a b : Nat) (es : List FlowEvent) (n : FlowNet) :
    plainNet (n.exec env a b es) = (plainNet n).exec env (passAll env a b n es) := by
  induction es generalizing n with
  | nil => rfl
  | cons e es ih =>
    show plainNet ((n.step env a b e).exec env a b es) = _
    rw [ih, plain_step, passAll, net_exec_append]

theorem plain_start (k : Nat) (db : Db) : plainNet (FlowNet.start k db) = Net.start k db := by
  simp [plainNet, FlowNet.start, Net.start]

theorem flow_exec_snoc (env : Env) (a b : Nat) (n : FlowNet) (s : List FlowEvent) (e : FlowEvent) :
    n.exec env a b (s ++ [e]) = (n.exec env a b s).step env a b e := by
  simp [FlowNet.exec, List.foldl_append]

theorem passAll_append (env : Env) (a b : Nat) (s t : List FlowEvent) (n : FlowNet) :
    passAll env a b n (s ++ t) = passAll env a b n s ++ passAll env a b (n.exec env a b s) t := by
  induction s generalizing n with
  | nil => rfl
  | cons e s ih =>
    simp only [List.cons_append, passAll, ih, List.append_assoc]
    rfl

theorem accepted_append (env : Env) (a b i : Nat) (s t : List FlowEvent) (n : FlowNet) :
    accepted env a b i n (s ++ t) = accepted env a b i n s ++ accepted env a b i (n.exec env a b s) t := by
  induction s generalizing n with
  | nil => rfl
  | cons e s ih =>
    simp only [List.cons_append, accepted, ih, List.append_assoc]
    rfl

theorem passes_length (a : Nat) (n : FlowNet) (e : FlowEvent) : (passes a n e).length ≤ 1 := by
  cases e <;> simp only [passes] <;> (repeat' split) <;> simp

theorem passAll_length (env : Env) (a b : Nat) (es : List FlowEvent) (n : FlowNet) :
    (passAll env a b n es).length ≤ es.length := by
  induction es generalizing n with
  | nil => exact Nat.le_refl _
  | cons e es ih =>
    have h1 := passes_length a n e
    have h2 := ih (n.step env a b e)
    simp only [passAll, List.length_append, List.length_cons]
    omega

theorem passAll_hangup (env : Env) (a b i : Nat) (es : List FlowEvent) (n : FlowNet) :
    NetEvent.hangup i ∈ passAll env a b n es ↔ FlowEvent.hangup i ∈ es := by
  induction es generalizing n with
  | nil => simp [passAll]
  | cons e es ih =>
    have : NetEvent.hangup i ∈ passes a n e ↔ FlowEvent.hangup i = e := by
      cases e <;> simp only [passes] <;> (repeat' split) <;> simp
    simp only [passAll, List.mem_append, List.mem_cons, ih, this]

theorem passAll_arrived (env : Env) (a b k : Nat) (db : Db) (i : Nat) (es : List FlowEvent) :
    arrived i (passAll env a b (FlowNet.start k db) es) = accepted env a b i (FlowNet.start k db) es := by
  induction es using snoc_ind with
  | h0 => rfl
  | h1 es e ih =>
    rw [passAll_append, accepted_append, ← ih]
    have key := pending_le env k db (passAll env a b (FlowNet.start k db) es) i
    rw [← plain_start, ← plain_exec] at key
    have hup := passAll_hangup env a b i es (FlowNet.start k db)
    generalize (FlowNet.start k db).exec env a b es = n at key
    have one : passAll env a b n [e] = passes a n e := by simp [passAll]
    rw [one]
    simp only [accepted, sendsAt, List.append_nil]
    generalize passAll env a b (FlowNet.start k db) es = l at key hup
    cases e with
    | send j bytes =>
      simp only [passes]
      by_cases hj : j = i
      · subst hj
        by_cases hs : canSend a n j bytes = true
        · simp only [hs, if_true, and_self]
          rw [arrived_snoc]
          unfold canSend at hs
          cases hc : n.conns[j]? with
          | none => rw [hc] at hs; cases hs
          | some c =>
            rw [hc] at hs
            dsimp only at hs
            have := (key c.live (by simp [plainNet, hc])).1
            have hn : NetEvent.hangup j ∉ l := fun h => by rw [this.mpr h] at hs; simp at hs
            simp [hn, brings]
        · simp [hs]
      · simp only [hj, false_and, if_false, List.append_nil]
        split
        · rw [arrived_snoc]; simp [brings, hj]
        · simp
    | hangup j => simp only [passes]; rw [arrived_snoc]; simp [brings]
    | read j m => simp [passes]
    | turn j =>
      simp only [passes]
      split
      · simp
      · split
        · simp
        · rw [arrived_snoc]; simp [brings]
    | fail j => simp [passes]

theorem passAll_seen (env : Env) (a b : Nat) (n : FlowNet) (es : List FlowEvent) {m : Metric} {o : Option Nat}
    (h : SeenAmid env (plainNet n) (passAll env a b n es) m o) : FlowSeen env a b n es m o := by
  suffices H : ∀ s t, passAll env a b n es = s ++ t → ∃ s' t', es = s' ++ t' ∧ passAll env a b n s' = s by
    obtain ⟨s, t, h1, rfl⟩ := h
    obtain ⟨s', t', h2, h3⟩ := H s t h1
    refine ⟨s', t', h2, ?_⟩
    rw [← h3, ← plain_exec]
    rfl
  clear h
  intro s t h
  induction es using snoc_ind generalizing s t with
  | h0 =>
    simp only [passAll] at h
    obtain ⟨rfl, rfl⟩ := List.append_eq_nil_iff.mp h.symm
    exact ⟨[], [], rfl, rfl⟩
  | h1 es e ih =>
    by_cases ht : t = []
    · subst ht
      exact ⟨es ++ [e], [], by simp, by rw [h]; simp⟩
    · have one : passAll env a b (n.exec env a b es) [e] = passes a (n.exec env a b es) e := by simp [passAll]
      rw [passAll_append, one] at h
      have hl := passes_length a (n.exec env a b es) e
      obtain ⟨t', ht'⟩ : ∃ t', passAll env a b n es = s ++ t' := by
        rcases List.append_eq_append_iff.mp h with ⟨r, h1, h2⟩ | ⟨r, h1, h2⟩
        · have : r = [] := by
            cases r with
            | nil => rfl
            | cons x r =>
              rw [h2] at hl
              simp only [List.cons_append, List.length_cons, List.length_append] at hl
              have : t.length = 0 := by omega
              exact absurd (List.eq_nil_of_length_eq_zero this) ht
          subst this
          exact ⟨[], by simpa using h1.symm⟩
        · exact ⟨r, h1⟩
      obtain ⟨s', u, h1, h2⟩ := ih s t' ht'
      exact ⟨s', u ++ [e], by rw [h1, List.append_assoc], h2⟩

/-! ## Where what was written is -/

theorem look_sent (env : Env) (c : Live) (ctx : ReqParser.Ctx) (input : Bytes) :
    c.sent.length ≤ (c.look env ctx input).sent.length := by
  unfold Live.look
  split <;> simp

theorem step_sent (env : Env) (c : Live) (db : Db) : c.sent.length ≤ (c.step env db).1.sent.length := by
  unfold Live.step
  split
  · split
    · split
      · refine Nat.le_trans ?_ (look_sent env _ _ _)
        exact Nat.le_refl _
      · exact Nat.le_refl _
    · split
      · split
        · exact Nat.le_refl _
        · exact look_sent env _ _ _
      · exact Nat.le_refl _
  all_goals simp

/-- No more is in transit than was written, and no more has been read. -/
def InOrder (c : Flow) : Prop := c.read ≤ c.wrote ∧ c.wrote ≤ c.live.sent.length

theorem flow_conns (env : Env) (a b : Nat) {P : Flow → Prop} (k : Nat) (db : Db)
    (h0 : P { live := { pending := [], closed := false, sent := [], task := .reading ReqParser.Ctx.new [] 0 }
              wrote := 0, read := 0, dead := false })
    (hsend : ∀ c bytes, P c → c.live.closed = false → c.live.pending.length + bytes.length ≤ a →
      P { c with live := { c.live with pending := c.live.pending ++ bytes } })
    (hup : ∀ c, P c → P { c with live := { c.live with closed := true } })
    (hread : ∀ c m, P c → P { c with read := min c.wrote (c.read + m) })
    (hturn : ∀ c db, P c → P (c.step env b db).1)
    (hfail : ∀ c, P c → c.atSocket = true → P { c with dead := true }) (es : List FlowEvent) :
    ∀ c ∈ ((FlowNet.start k db).exec env a b es).conns, P c := by
  induction es using snoc_ind with
  | h0 =>
    intro c hc
    simp only [FlowNet.exec, List.foldl_nil, FlowNet.start, Net.start, List.map_replicate] at hc
    rw [(List.mem_replicate.mp hc).2]
    exact h0
  | h1 es e ih =>
    rw [flow_exec_snoc]
    generalize (FlowNet.start k db).exec env a b es = n at ih
    have put : ∀ {i : Nat} {c' : Flow}, P c' → ∀ c ∈ n.conns.set i c', P c := fun h c hc => by
      rcases List.mem_or_eq_of_mem_set hc with h' | rfl
      · exact ih c h'
      · exact h
    cases e with
    | send i bytes =>
      simp only [FlowNet.step]
      split
      · exact ih
      · rename_i c hc
        split
        · exact ih
        · rename_i hn
          simp only [Bool.or_eq_true, decide_eq_true_eq, not_or, Bool.not_eq_true] at hn
          exact put (hsend c bytes (ih c (List.mem_of_getElem? hc)) hn.1 (by omega))
    | hangup i =>
      simp only [FlowNet.step]
      split
      · exact ih
      · rename_i c hc; exact put (hup c (ih c (List.mem_of_getElem? hc)))
    | read i m =>
      simp only [FlowNet.step]
      split
      · exact ih
      · rename_i c hc; exact put (hread c m (ih c (List.mem_of_getElem? hc)))
    | turn i =>
      simp only [FlowNet.step]
      split
      · exact ih
      · rename_i c hc; exact put (hturn c _ (ih c (List.mem_of_getElem? hc)))
    | fail i =>
      simp only [FlowNet.step]
      split
      · exact ih
      · rename_i c hc
        split
        · rename_i ha; exact put (hfail c (ih c (List.mem_of_getElem? hc)) ha)
        · exact ih

theorem inOrder_step (env : Env) (b : Nat) (c : Flow) (db : Db) (h : InOrder c) : InOrder (c.step env b db).1 := by
  unfold Flow.step
  split
  · exact h
  · split
    · rename_i hw
      have hw := of_decide_eq_true hw
      split
      · exact ⟨Nat.le_succ_of_le h.1, hw⟩
      · exact h
    · exact ⟨h.1, Nat.le_trans h.2 (step_sent env c.live db)⟩

theorem inOrder_exec (env : Env) (a b k : Nat) (db : Db) (es : List FlowEvent) :
    ∀ c ∈ ((FlowNet.start k db).exec env a b es).conns, InOrder c :=
  flow_conns env a b k db ⟨Nat.le_refl _, Nat.le_refl _⟩ (fun _ _ h _ _ => h) (fun _ h => h)
    (fun _ _ h => ⟨Nat.min_le_left _ _, h.2⟩) (fun c db h => inOrder_step env b c db h) (fun _ h _ => h) es

theorem all2_imp {α β : Type} {R S : α → β → Prop} (h : ∀ a b, R a b → S a b) {as : List α} {bs : List β} (hr : All2 R as bs) :
    All2 S as bs := by
  induction hr with
  | nil => exact .nil
  | cons h1 _ ih => exact .cons (h _ _ h1) ih

theorem responds_imp {P Q : Metric → Option Nat → Prop} (h : ∀ m o, P m o → Q m o) (x : Heard) (r : Response) (hr : Responds P x r) :
    Responds Q x r := by
  cases x with
  | garbage e => exact hr
  | command c =>
    cases c <;> try exact hr
    obtain ⟨ctrs, h1, h2⟩ := hr
    exact ⟨ctrs, fun m hm => h m _ (h1 m hm), h2⟩

/-! ## C174 -/

/-- C174: whatever room there is for what is in transit, however slow clients are to read and whatever fails, the server does
what it does, at some pace, if nothing ever waits for room: same bytes taken in, same answers given to `write_all`, same
database. -/
theorem C174_as_unhindered (env : Env) (inRoom outRoom k : Nat) (db : Db) (events : List FlowEvent) :
    ∃ plain : List NetEvent, plain.length ≤ events.length ∧
      (∀ i, arrived i plain = accepted env inRoom outRoom i (FlowNet.start k db) events) ∧
      (∀ i, NetEvent.hangup i ∈ plain ↔ FlowEvent.hangup i ∈ events) ∧
      ((FlowNet.start k db).exec env inRoom outRoom events).db = ((Net.start k db).exec env plain).db ∧
      ∀ i, readBy ((FlowNet.start k db).exec env inRoom outRoom events) i <+: sentTo ((Net.start k db).exec env plain) i := by
  refine ⟨passAll env inRoom outRoom (FlowNet.start k db) events, passAll_length .., fun i => passAll_arrived env inRoom outRoom k db i events,
    fun i => passAll_hangup .., ?_, fun i => ?_⟩
  · rw [← plain_start, ← plain_exec]; rfl
  · rw [← plain_start, ← plain_exec]
    unfold readBy sentTo
    cases hc : ((FlowNet.start k db).exec env inRoom outRoom events).conns[i]? with
    | none => simp
    | some c => simp [plainNet, hc, List.take_prefix]

/-- C174, at every moment: what a client has read is a beginning of the response frames for what is heard in an initial part of
what it has managed to send. -/
theorem C174_read (env : Env) (inRoom outRoom k : Nat) (db : Db) (events : List FlowEvent)
    (hr : Roomy (1 + events.length) db.ctrs) (i : Nat) (hi : i < k) :
    ∃ part rest hs e rs, accepted env inRoom outRoom i (FlowNet.start k db) events = part ++ rest ∧
      Hears [] (Server.lines part) hs e ∧ All2 (Responds (FlowSeen env inRoom outRoom (FlowNet.start k db) events)) hs rs ∧
      readBy ((FlowNet.start k db).exec env inRoom outRoom events) i <+: wire env rs := by
  have hl := passAll_length env inRoom outRoom events (FlowNet.start k db)
  obtain ⟨part, rest, hs, e, rs, h1, h2, h3, h4⟩ :=
    C155_sent env k db (passAll env inRoom outRoom (FlowNet.start k db) events) (Roomy.mono hr (by omega)) i hi
  refine ⟨part, rest, hs, e, rs, by rw [← passAll_arrived, h1], h2, ?_, ?_⟩
  · rw [← plain_start] at h3
    exact all2_imp (responds_imp fun m o => passAll_seen env inRoom outRoom _ _) h3
  · rw [← h4, ← plain_start, ← plain_exec]
    unfold readBy sentTo
    cases hc : ((FlowNet.start k db).exec env inRoom outRoom events).conns[i]? with
    | none => simp
    | some c => simp [plainNet, hc, List.take_prefix]

theorem flow_set_eq {n : FlowNet} {i : Nat} {c c' : Flow} (hc : n.conns[i]? = some c) {db : Db}
    (h : ({ conns := n.conns.set i c', db := db } : FlowNet) = n) : c' = c ∧ db = n.db := by
  have h1 := congrArg FlowNet.conns h
  have h2 := congrArg FlowNet.db h
  refine ⟨?_, h2⟩
  have := congrArg (fun l => l[i]?) h1
  simp only [List.getElem?_set_self (List.getElem?_eq_some_iff.mp hc).1, hc, Option.some.injEq] at this
  exact this

/-- When there is nothing left to do on a connection, everything has been written and read, and the task has nothing to do
either. -/
theorem quiet_done {env : Env} {a b : Nat} (hb : 0 < b) {n : FlowNet} {i : Nat} {c : Flow} (hc : n.conns[i]? = some c)
    (ho : InOrder c) (hq : Quiet env a b n i) (hd : c.dead = false) :
    c.read = c.live.sent.length ∧ c.wrote = c.live.sent.length ∧ c.live.step env n.db = (c.live, n.db) := by
  obtain ⟨h1, h2⟩ := hq
  simp only [FlowNet.step, hc] at h1 h2
  have h1 := flow_set_eq hc h1
  have h2 := (flow_set_eq hc h2).1
  have hr : c.read = c.wrote := by
    have := congrArg Flow.read h2
    dsimp only at this
    have := ho.1
    omega
  have hw : c.wrote = c.live.sent.length := by
    apply Classical.byContradiction
    intro hne
    have hw : c.wrote < c.live.sent.length := Nat.lt_of_le_of_ne ho.2 hne
    have h3 := congrArg Flow.wrote h1.1
    have h4 : c.wrote < c.read + b := by omega
    simp [Flow.step, hd, Flow.writing, hw, h4] at h3
  refine ⟨by omega, hw, ?_⟩
  have hnw : c.writing = false := by simp [Flow.writing, hw]
  simp only [Flow.step, hd, hnw, Bool.false_eq_true, if_false] at h1
  exact Prod.ext (congrArg Flow.live h1.1) h1.2

/-- C174, when there is nothing left to do on a connection, and reading and writing have not failed on it: the client has read
exactly the responses to what is heard in the whole lines it has managed to send (and in the last, unfinished line only if it has
hung up). -/
theorem C174_rest (env : Env) (inRoom outRoom k : Nat) (hroom : 0 < outRoom) (db : Db) (events : List FlowEvent)
    (hr : Roomy (1 + events.length) db.ctrs) (i : Nat) (hi : i < k)
    (hq : Quiet env inRoom outRoom ((FlowNet.start k db).exec env inRoom outRoom events) i)
    (hf : ¬ FlowFailed ((FlowNet.start k db).exec env inRoom outRoom events) i) :
    ∃ rs, FlowSettled env inRoom outRoom (FlowNet.start k db) events i rs := by
  have hl := passAll_length env inRoom outRoom events (FlowNet.start k db)
  have hp := plain_exec env inRoom outRoom events (FlowNet.start k db)
  have hlen := net_length env k db (passAll env inRoom outRoom (FlowNet.start k db) events)
  rw [← plain_start, ← hp] at hlen
  simp only [plainNet, List.length_map] at hlen
  have hc := List.getElem?_eq_getElem
    (show i < ((FlowNet.start k db).exec env inRoom outRoom events).conns.length by omega)
  have ho := inOrder_exec env inRoom outRoom k db events _ (List.mem_of_getElem? hc)
  generalize ((FlowNet.start k db).exec env inRoom outRoom events).conns[i] = c at hc ho
  have hd : c.dead = false := by
    cases h : c.dead with
    | false => rfl
    | true => exact absurd ⟨c, hc, h⟩ hf
  obtain ⟨h1, h2, h3⟩ := quiet_done hroom hc ho hq hd
  obtain ⟨rs, part, hs, e, g1, g2, g3, g4, g5, g6⟩ :=
    C155_rest env k db (passAll env inRoom outRoom (FlowNet.start k db) events) (Roomy.mono hr (by omega)) i hi (by
      rw [← plain_start, ← hp]
      unfold AtRest
      simp only [Net.step, plainNet, List.getElem?_map, hc, Option.map_some, h3]
      rw [set_same (by simp [hc])])
  have hover : ∀ e, IsOver ((Net.start k db).exec env (passAll env inRoom outRoom (FlowNet.start k db) events)) i e ↔
      FlowOver ((FlowNet.start k db).exec env inRoom outRoom events) i e := by
    intro e
    rw [← plain_start, ← hp]
    unfold IsOver FlowOver
    simp [plainNet, hc]
  refine ⟨rs, part, hs, e, ?_, g2, ?_, ?_, by rw [← hover]; exact g5, ?_⟩
  · rw [passAll_arrived] at g1
    simp only [passAll_hangup] at g1
    exact g1
  · rw [← plain_start] at g3
    exact all2_imp (responds_imp fun m o => passAll_seen env inRoom outRoom _ _) g3
  · rw [← g4, ← plain_start, ← hp]
    simp [readBy, sentTo, plainNet, hc, h1]
  · rw [← hover, g6, passAll_hangup]

theorem flow_length (env : Env) (a b k : Nat) (db : Db) (es : List FlowEvent) :
    ((FlowNet.start k db).exec env a b es).conns.length = k := by
  have := net_length env k db (passAll env a b (FlowNet.start k db) es)
  rw [← plain_start, ← plain_exec] at this
  simpa [plainNet] using this

/-- What was given to `write_all` can be written and read byte by byte. -/
theorem flow_flush (env : Env) (a b : Nat) (hb : 0 < b) (i : Nat) : ∀ (d : Nat) (n : FlowNet) (c : Flow), n.conns[i]? = some c →
    c.dead = false → c.read = c.wrote → c.wrote + d = c.live.sent.length →
    ∃ es, (∀ n j, accepted env a b j n es = []) ∧ n.exec env a b es =
      { n with conns := n.conns.set i { c with wrote := c.live.sent.length, read := c.live.sent.length } } := by
  intro d
  induction d with
  | zero =>
    intro n c hc hd hr hw
    refine ⟨[], fun _ _ => rfl, ?_⟩
    have : ({ c with wrote := c.live.sent.length, read := c.live.sent.length } : Flow) = c := by
      obtain ⟨live, wrote, read, dead⟩ := c
      simp only at hr hw ⊢
      simp [← hw, hr]
    rw [this, set_same hc]
    rfl
  | succ d ih =>
    intro n c hc hd hr hw
    have hi := (List.getElem?_eq_some_iff.mp hc).1
    have h1 : n.step env a b (.turn i) = { n with conns := n.conns.set i { c with wrote := c.wrote + 1 } } := by
      have hlt : c.wrote < c.live.sent.length := by omega
      have hlt2 : c.wrote < c.read + b := by omega
      simp [FlowNet.step, hc, Flow.step, hd, Flow.writing, hlt, hlt2]
    have h2 : (n.step env a b (.turn i)).step env a b (.read i 1) =
        { n with conns := n.conns.set i { c with wrote := c.wrote + 1, read := c.wrote + 1 } } := by
      rw [h1]
      simp [FlowNet.step, List.getElem?_set_self hi, hr]
    obtain ⟨es, h4, h3⟩ := ih { n with conns := n.conns.set i { c with wrote := c.wrote + 1, read := c.wrote + 1 } }
      { c with wrote := c.wrote + 1, read := c.wrote + 1 } (List.getElem?_set_self hi) hd rfl (by dsimp only; omega)
    refine ⟨.turn i :: .read i 1 :: es, fun n j => by simp [accepted, sendsAt, h4], ?_⟩
    show ((n.step env a b (.turn i)).step env a b (.read i 1)).exec env a b es = _
    rw [h2, h3]
    simp

/-- C174, the converse: with room for a byte of the answers, and for what arrives, everything the server can do if nothing ever
waits for room can happen, with everything read by the clients. -/
theorem C174_all_possible (env : Env) (inRoom outRoom k : Nat) (hroom : 0 < outRoom) (db : Db) (plain : List NetEvent)
    (hin : ∀ i, (arrived i plain).length ≤ inRoom) :
    ∃ events : List FlowEvent,
      (∀ i, accepted env inRoom outRoom i (FlowNet.start k db) events = arrived i plain ∨ k ≤ i) ∧
      ((FlowNet.start k db).exec env inRoom outRoom events).db = ((Net.start k db).exec env plain).db ∧
      ∀ i, readBy ((FlowNet.start k db).exec env inRoom outRoom events) i = sentTo ((Net.start k db).exec env plain) i := by
  suffices H : ∃ events : List FlowEvent,
      (∀ i, i < k → accepted env inRoom outRoom i (FlowNet.start k db) events = arrived i plain) ∧
      plainNet ((FlowNet.start k db).exec env inRoom outRoom events) = (Net.start k db).exec env plain ∧
      ∀ c ∈ ((FlowNet.start k db).exec env inRoom outRoom events).conns,
        c.dead = false ∧ c.wrote = c.live.sent.length ∧ c.read = c.live.sent.length by
    obtain ⟨events, h1, h2, h3⟩ := H
    refine ⟨events, fun i => ?_, by rw [← h2]; rfl, fun i => ?_⟩
    · by_cases hi : i < k
      · exact .inl (h1 i hi)
      · exact .inr (Nat.le_of_not_lt hi)
    · rw [← h2]
      unfold readBy sentTo
      cases hc : ((FlowNet.start k db).exec env inRoom outRoom events).conns[i]? with
      | none => simp [plainNet, hc]
      | some c => simp [plainNet, hc, (h3 c (List.mem_of_getElem? hc)).2.2]
  induction plain using snoc_ind with
  | h0 =>
    refine ⟨[], fun _ _ => rfl, plain_start k db, fun c hc => ?_⟩
    simp only [FlowNet.exec, List.foldl_nil, FlowNet.start, Net.start, List.map_replicate] at hc
    rw [(List.mem_replicate.mp hc).2]
    exact ⟨rfl, rfl, rfl⟩
  | h1 plain e ih =>
    have hle : ∀ i, (arrived i plain).length ≤ (arrived i (plain ++ [e])).length := fun i => by
      rw [arrived_snoc, List.length_append]; omega
    obtain ⟨events, h1, h2, h3⟩ := ih fun i => Nat.le_trans (hle i) (hin i)
    suffices H : ∃ t, (∀ i, i < k → accepted env inRoom outRoom i ((FlowNet.start k db).exec env inRoom outRoom events) t =
          if .hangup i ∈ plain then [] else brings i e) ∧
        plainNet (((FlowNet.start k db).exec env inRoom outRoom events).exec env inRoom outRoom t) =
          (plainNet ((FlowNet.start k db).exec env inRoom outRoom events)).step env e ∧
        ∀ c ∈ (((FlowNet.start k db).exec env inRoom outRoom events).exec env inRoom outRoom t).conns,
          c.dead = false ∧ c.wrote = c.live.sent.length ∧ c.read = c.live.sent.length by
      obtain ⟨t, g1, g2, g3⟩ := H
      have hex : (FlowNet.start k db).exec env inRoom outRoom (events ++ t) =
          ((FlowNet.start k db).exec env inRoom outRoom events).exec env inRoom outRoom t := by
        simp only [FlowNet.exec, List.foldl_append]
      refine ⟨events ++ t, fun i hi => ?_, ?_, ?_⟩
      · rw [accepted_append, arrived_snoc, h1 i hi, g1 i hi]
      · rw [hex, g2, h2, net_exec_snoc]
      · rw [hex]; exact g3
    have hpend := fun i => pending_le env k db plain i
    have hlen := flow_length env inRoom outRoom k db events
    rw [← h2] at hpend
    have hin := fun i => hin i
    clear h1 h2 hle ih
    generalize (FlowNet.start k db).exec env inRoom outRoom events = n at *
    have put : ∀ {i : Nat} {c' : Flow}, c'.dead = false ∧ c'.wrote = c'.live.sent.length ∧ c'.read = c'.live.sent.length →
        ∀ c ∈ n.conns.set i c', c.dead = false ∧ c.wrote = c.live.sent.length ∧ c.read = c.live.sent.length := fun h c hc => by
      rcases List.mem_or_eq_of_mem_set hc with h' | rfl
      · exact h3 c h'
      · exact h
    cases e with
    | arrive i bytes =>
      cases hc : n.conns[i]? with
      | none =>
        refine ⟨[], fun j hj => ?_, ?_, h3⟩
        · have hne : i ≠ j := fun e => by
            have := List.getElem?_eq_none_iff.mp hc
            omega
          simp [brings, accepted, hne]
        · simp only [FlowNet.exec, List.foldl_nil, Net.step, plainNet, List.getElem?_map, hc, Option.map_none]
      | some c =>
        have hp := hpend i c.live (by simp [plainNet, hc])
        have hroom' := hin i
        rw [arrived_snoc, List.length_append] at hroom'
        cases hcl : c.live.closed with
        | true =>
          have hm := hp.1.mp hcl
          refine ⟨[], fun j hj => ?_, ?_, h3⟩
          · by_cases hne : i = j
            · subst hne; simp [accepted, hm]
            · simp [brings, accepted, hne]
          · simp only [FlowNet.exec, List.foldl_nil, Net.step, plainNet, List.getElem?_map, hc, Option.map_some, hcl, if_true]
        | false =>
          have hm : NetEvent.hangup i ∉ plain := fun h => by
            have := hp.1.mpr h
            rw [hcl] at this
            cases this
          simp only [hm, if_false, brings, if_true] at hroom'
          have hs : c.live.pending.length + bytes.length ≤ inRoom := by have := hp.2; omega
          have hs' : ¬ inRoom < c.live.pending.length + bytes.length := by omega
          have hstep : n.step env inRoom outRoom (.send i bytes) =
              { n with conns := n.conns.set i { c with live := { c.live with pending := c.live.pending ++ bytes } } } := by
            simp only [FlowNet.step, hc, hcl, hs', decide_false, Bool.or_self, Bool.false_eq_true, if_false]
          refine ⟨[.send i bytes], fun j hj => ?_, ?_, ?_⟩
          · by_cases hne : i = j
            · subst hne; simp [accepted, sendsAt, canSend, hc, hcl, hs, hm, brings]
            · simp [brings, accepted, sendsAt, hne]
          · simp only [FlowNet.exec, List.foldl_cons, List.foldl_nil, hstep]
            simp only [Net.step, plainNet, List.getElem?_map, hc, Option.map_some, hcl, List.map_set, Bool.false_eq_true, if_false]
          · simp only [FlowNet.exec, List.foldl_cons, List.foldl_nil, hstep]
            exact put (h3 c (List.mem_of_getElem? hc))
    | hangup i =>
      refine ⟨[.hangup i], fun j hj => by simp [accepted, sendsAt, brings], ?_, ?_⟩
      · simp only [FlowNet.exec, List.foldl_cons, List.foldl_nil, FlowNet.step, Net.step, plainNet, List.getElem?_map]
        cases hc : n.conns[i]? with
        | none => rfl
        | some c => simp only [Option.map_some, List.map_set]
      · simp only [FlowNet.exec, List.foldl_cons, List.foldl_nil, FlowNet.step]
        cases hc : n.conns[i]? with
        | none => exact h3
        | some c => exact put (h3 c (List.mem_of_getElem? hc))
    | turn i =>
      cases hc : n.conns[i]? with
      | none =>
        refine ⟨[], fun j hj => by simp [accepted, brings], ?_, h3⟩
        simp only [FlowNet.exec, List.foldl_nil, Net.step, plainNet, List.getElem?_map, hc, Option.map_none]
      | some c =>
        obtain ⟨hd, hw, hr⟩ := h3 c (List.mem_of_getElem? hc)
        have hi := (List.getElem?_eq_some_iff.mp hc).1
        have hnw : c.writing = false := by simp [Flow.writing, hw]
        have hstep : n.step env inRoom outRoom (.turn i) =
            { conns := n.conns.set i { c with live := (c.live.step env n.db).1 }, db := (c.live.step env n.db).2 } := by
          simp only [FlowNet.step, hc, Flow.step, hd, hnw, Bool.false_eq_true, if_false]
        have hsent := step_sent env c.live n.db
        obtain ⟨es, hquiet, hes⟩ := flow_flush env inRoom outRoom hroom i
          ((c.live.step env n.db).1.sent.length - c.live.sent.length)
          (n.step env inRoom outRoom (.turn i)) { c with live := (c.live.step env n.db).1 }
          (by rw [hstep]; exact List.getElem?_set_self hi) hd (by dsimp only; omega) (by dsimp only; omega)
        refine ⟨.turn i :: es, fun j hj => ?_, ?_, ?_⟩
        · rw [accepted, hquiet]
          simp [sendsAt, brings]
        · show plainNet ((n.step env inRoom outRoom (.turn i)).exec env inRoom outRoom es) = _
          rw [hes, hstep]
          simp only [Net.step, plainNet, List.getElem?_map, hc, Option.map_some, List.map_set, List.set_set]
        · show ∀ c ∈ ((n.step env inRoom outRoom (.turn i)).exec env inRoom outRoom es).conns, _
          rw [hes, hstep]
          simp only [List.set_set]
          exact put ⟨hd, rfl, rfl⟩

/-! ## C175 -/

/-- A task that is given a turn has nothing to do, or comes nearer to its end. -/
theorem rest_or_nearer {c : Live} (env : Env) (ht : Tame c) :
    (∀ db, c.step env db = (c, db)) ∨ ∀ db, ∃ m, RestsBy (c.step env db).1 m ∧ ¬ RestsBy c m := by
  have hex := within_start ht
  generalize 6 * c.pending.length + 12 = n at hex
  induction n with
  | zero => exact .inl fun db => within_zero hex db
  | succ n ih =>
    by_cases h : RestsBy c n
    · exact ih h
    · exact .inr fun db => ⟨n, within_step env ht hex db, h⟩

/-- Nearer to there being nothing left to do. -/
def Nearer (c' c : Flow) : Prop :=
  (∃ m, RestsBy c'.live m ∧ ¬ RestsBy c.live m) ∨
  (c'.live = c.live ∧ 2 * c'.live.sent.length - c'.wrote - c'.read < 2 * c.live.sent.length - c.wrote - c.read)

theorem nearer_acc (c : Flow) (ht : Tame c.live) : Acc Nearer c := by
  have main : ∀ n, ∀ m, ∀ c : Flow, RestsBy c.live n → 2 * c.live.sent.length - c.wrote - c.read ≤ m → Acc Nearer c := by
    intro n
    induction n using Nat.strongRecOn with
    | _ n ihn =>
      intro m
      induction m with
      | zero =>
        intro c hn hm
        refine ⟨_, fun c' h => ?_⟩
        rcases h with ⟨q, h1, h2⟩ | ⟨h1, h2⟩
        · refine ihn q (Nat.lt_of_not_le fun h => h2 (hn.mono h)) _ c' h1 (Nat.le_refl _)
        · omega
      | succ m ihm =>
        intro c hn hm
        refine ⟨_, fun c' h => ?_⟩
        rcases h with ⟨q, h1, h2⟩ | ⟨h1, h2⟩
        · refine ihn q (Nat.lt_of_not_le fun h => h2 (hn.mono h)) _ c' h1 (Nat.le_refl _)
        · exact ihm c' (by rw [h1]; exact hn) (by omega)
  exact main _ _ c (within_start ht) (Nat.le_refl _)

theorem tame_flow (env : Env) (a b k : Nat) (db : Db) (es : List FlowEvent) :
    ∀ c ∈ ((FlowNet.start k db).exec env a b es).conns, Tame c.live := by
  intro c hc
  have := (tame_exec env k db (passAll env a b (FlowNet.start k db) es)).1
  rw [← plain_start, ← plain_exec] at this
  exact this c.live (List.mem_map_of_mem hc)

/-- What an event does to a connection it is not about. -/
theorem flow_step_other (env : Env) (a b : Nat) (n : FlowNet) (i : Nat) (e : FlowEvent)
    (h : (∀ bytes, e ≠ .send i bytes) ∧ e ≠ .hangup i ∧ (∀ m, e ≠ .read i m) ∧ e ≠ .turn i ∧ e ≠ .fail i) :
    (n.step env a b e).conns[i]? = n.conns[i]? := by
  obtain ⟨h1, h2, h3, h4, h5⟩ := h
  cases e with
  | send j bytes =>
    have hj : j ≠ i := fun e => h1 bytes (by rw [e])
    simp only [FlowNet.step]
    split
    · rfl
    · split
      · rfl
      · exact List.getElem?_set_ne hj
  | hangup j =>
    have hj : j ≠ i := fun e => h2 (by rw [e])
    simp only [FlowNet.step]
    split
    · rfl
    · exact List.getElem?_set_ne hj
  | read j m =>
    have hj : j ≠ i := fun e => h3 m (by rw [e])
    simp only [FlowNet.step]
    split
    · rfl
    · exact List.getElem?_set_ne hj
  | turn j =>
    have hj : j ≠ i := fun e => h4 (by rw [e])
    simp only [FlowNet.step]
    split
    · rfl
    · exact List.getElem?_set_ne hj
  | fail j =>
    have hj : j ≠ i := fun e => h5 (by rw [e])
    simp only [FlowNet.step]
    split
    · rfl
    · split
      · exact List.getElem?_set_ne hj
      · rfl

/-- What a turn does to a connection. -/
theorem flow_turn_nearer {env : Env} {b : Nat} {c : Flow} (ht : Tame c.live) (ho : InOrder c) :
    (∀ db, c.step env b db = (c, db)) ∨ ∀ db, Nearer (c.step env b db).1 c := by
  unfold Flow.step
  split
  · exact .inl fun _ => rfl
  · split
    · rename_i hw
      have hw := of_decide_eq_true hw
      split
      · refine .inr fun _ => .inr ⟨rfl, ?_⟩
        have := ho.1
        dsimp only
        omega
      · exact .inl fun _ => rfl
    · rcases rest_or_nearer env ht with h | h
      · exact .inl fun db => by rw [h db]
      · exact .inr fun db => .inl (h db)

/-- C175: a client that keeps reading is answered in full, as long as its own connection does not fail, whatever the other
clients do, even if they never read what they are sent: in every infinite execution in which the server does not pass over
connection `i` for ever and its client goes on reading, once the client has sent its last byte there comes a moment from which on
there is nothing left to do on this connection (which means that everything is answered and read, `C174_rest`). -/
theorem C175_answered (env : Env) (inRoom outRoom k : Nat) (db : Db) (run : Nat → FlowEvent) (i : Nat) (hi : i < k) (T : Nat)
    (hT : ∀ t, T ≤ t → run t ≠ .hangup i ∧ run t ≠ .fail i ∧ ∀ bytes, run t ≠ .send i bytes)
    (hturn : ∀ t, ∃ t', t ≤ t' ∧ run t' = .turn i) (hread : ∀ t, ∃ t', t ≤ t' ∧ ∃ m, 0 < m ∧ run t' = .read i m) :
    ∃ N, ∀ t, N ≤ t → Quiet env inRoom outRoom (afterEvents env inRoom outRoom (FlowNet.start k db) run t) i := by
  have hlen : ∀ t, i < (afterEvents env inRoom outRoom (FlowNet.start k db) run t).conns.length := fun t => by
    unfold afterEvents; rw [flow_length]; exact hi
  have hsucc : ∀ t, afterEvents env inRoom outRoom (FlowNet.start k db) run (t + 1) =
      (afterEvents env inRoom outRoom (FlowNet.start k db) run t).step env inRoom outRoom (run t) := fun t => by
    unfold afterEvents
    rw [List.range_succ, List.map_append]
    exact flow_exec_snoc ..
  have hin : ∀ t c, (afterEvents env inRoom outRoom (FlowNet.start k db) run t).conns[i]? = some c → InOrder c := fun t c hc =>
    inOrder_exec env inRoom outRoom k db _ c (List.mem_of_getElem? hc)
  have htame : ∀ t c, (afterEvents env inRoom outRoom (FlowNet.start k db) run t).conns[i]? = some c → Tame c.live := fun t c hc =>
    tame_flow env inRoom outRoom k db _ c (List.mem_of_getElem? hc)
  generalize afterEvents env inRoom outRoom (FlowNet.start k db) run = at' at *
  let st : Nat → Flow := fun t => (at' (T + t)).conns[i]'(hlen _)
  have hst : ∀ t, (at' (T + t)).conns[i]? = some (st t) := fun t => List.getElem?_eq_getElem (hlen _)
  have hnext : ∀ t, (run (T + t) = .turn i ∧ st (t + 1) = ((st t).step env outRoom (at' (T + t)).db).1) ∨
      (∃ m, run (T + t) = .read i m ∧ st (t + 1) = { st t with read := min (st t).wrote ((st t).read + m) }) ∨
      (run (T + t) ≠ .turn i ∧ st (t + 1) = st t) := by
    intro t
    have h1 := hst (t + 1)
    rw [← Nat.add_assoc, hsucc] at h1
    have h2 := hst t
    by_cases ha : run (T + t) = .turn i
    · rw [ha] at h1
      simp only [FlowNet.step, h2, List.getElem?_set_self (hlen (T + t)), Option.some.injEq] at h1
      exact .inl ⟨ha, h1.symm⟩
    · by_cases hb : ∃ m, run (T + t) = .read i m
      · obtain ⟨m, hb⟩ := hb
        rw [hb] at h1
        simp only [FlowNet.step, h2, List.getElem?_set_self (hlen (T + t)), Option.some.injEq] at h1
        exact .inr (.inl ⟨m, hb, h1.symm⟩)
      · have hT := hT (T + t) (Nat.le_add_right ..)
        rw [flow_step_other env inRoom outRoom _ i _ ⟨hT.2.2, hT.1, fun m h => hb ⟨m, h⟩, ha, hT.2.1⟩, h2] at h1
        exact .inr (.inr ⟨ha, (Option.some.inj h1).symm⟩)
  obtain ⟨N, hN⟩ := settles (r := Nearer) st (nearer_acc _ (htame _ _ (hst 0))) (by
    intro t
    have ho := hin _ _ (hst t)
    rcases hnext t with ⟨-, h⟩ | ⟨m, -, h⟩ | ⟨-, h⟩
    · rcases flow_turn_nearer (env := env) (b := outRoom) (htame _ _ (hst t)) ho with g | g
      · exact .inl (by rw [h, g])
      · exact .inr (by rw [h]; exact g _)
    · rw [h]
      by_cases hr : min (st t).wrote ((st t).read + m) = (st t).read
      · exact .inl (by rw [hr])
      · refine .inr (.inr ⟨rfl, ?_⟩)
        have h1 := ho.1
        have h2 := ho.2
        dsimp only
        omega
    · exact .inl h)
  have hall : (∀ db, (st N).step env outRoom db = (st N, db)) ∧ (st N).read = (st N).wrote := by
    have ho := hin _ _ (hst N)
    constructor
    · obtain ⟨t', h1, h2⟩ := hturn (T + N)
      obtain ⟨d, rfl⟩ : ∃ d, t' = T + d := ⟨t' - T, by omega⟩
      rcases hnext d with ⟨-, h⟩ | ⟨m, h, -⟩ | ⟨h, -⟩
      · rw [hN (d + 1) (by omega), hN d (by omega)] at h
        rcases flow_turn_nearer (env := env) (b := outRoom) (htame _ _ (hst N)) ho with g | g
        · exact g
        · have := g (at' (T + d)).db
          rw [← h] at this
          exact absurd this (acc_irrefl (nearer_acc _ (htame _ _ (hst N))))
      · rw [h2] at h; cases h
      · exact absurd h2 h
    · obtain ⟨t', h1, m, hm, h2⟩ := hread (T + N)
      obtain ⟨d, rfl⟩ : ∃ d, t' = T + d := ⟨t' - T, by omega⟩
      rcases hnext d with ⟨h, -⟩ | ⟨m', h, h'⟩ | ⟨h, h'⟩
      · rw [h2] at h; cases h
      · rw [h2] at h
        cases h
        rw [hN (d + 1) (by omega), hN d (by omega)] at h'
        have := congrArg Flow.read h'
        have := ho.1
        dsimp only at *
        omega
      · have h3 := hst (d + 1)
        rw [← Nat.add_assoc, hsucc, h2] at h3
        simp only [FlowNet.step, hst d, List.getElem?_set_self (hlen (T + d)), Option.some.injEq] at h3
        rw [hN (d + 1) (by omega), hN d (by omega)] at h3
        have := congrArg Flow.read h3
        have := ho.1
        dsimp only at *
        omega
  refine ⟨T + N, fun t ht => ?_⟩
  obtain ⟨d, rfl⟩ : ∃ d, t = T + d := ⟨t - T, by omega⟩
  have hs := hst d
  rw [hN d (by omega)] at hs
  constructor
  · simp only [FlowNet.step, hs, hall.1]
    rw [set_same hs]
  · have : min (st N).wrote ((st N).read + 1) = (st N).read := by rw [hall.2]; omega
    simp only [FlowNet.step, hs, this]
    rw [set_same hs]

theorem rest_zero {env : Env} {c : Live} (ht : Tame c) {db : Db} (h : c.step env db = (c, db)) : RestsBy c 0 := by
  have hex := within_start ht
  generalize 6 * c.pending.length + 12 = n at hex
  induction n with
  | zero => exact hex
  | succ n ih =>
    have := within_step env ht hex db
    rw [h] at this
    exact ih this

/-- C175, going on: when there is nothing left to do on a connection, its client can send again whatever there is room for,
unless it has closed its side, reading or writing has failed, or the connection has broken down. -/
theorem C175_room (env : Env) (inRoom outRoom k : Nat) (hroom : 0 < outRoom) (db : Db) (events : List FlowEvent)
    (hr : Roomy (1 + events.length) db.ctrs) (i : Nat) (hi : i < k)
    (hq : Quiet env inRoom outRoom ((FlowNet.start k db).exec env inRoom outRoom events) i)
    (hf : ¬ FlowFailed ((FlowNet.start k db).exec env inRoom outRoom events) i) (hh : .hangup i ∉ events)
    (ho : ¬ FlowOver ((FlowNet.start k db).exec env inRoom outRoom events) i .panicked) (bytes : Bytes)
    (hb : bytes.length ≤ inRoom) :
    canSend inRoom ((FlowNet.start k db).exec env inRoom outRoom events) i bytes = true := by
  have hl := passAll_length env inRoom outRoom events (FlowNet.start k db)
  have hp := plain_exec env inRoom outRoom events (FlowNet.start k db)
  have hlen := flow_length env inRoom outRoom k db events
  have hc := List.getElem?_eq_getElem
    (show i < ((FlowNet.start k db).exec env inRoom outRoom events).conns.length by omega)
  have hin := inOrder_exec env inRoom outRoom k db events _ (List.mem_of_getElem? hc)
  have ht := tame_flow env inRoom outRoom k db events _ (List.mem_of_getElem? hc)
  generalize ((FlowNet.start k db).exec env inRoom outRoom events).conns[i] = c at hc hin ht
  have hd : c.dead = false := by
    cases h : c.dead with
    | false => rfl
    | true => exact absurd ⟨c, hc, h⟩ hf
  have h0 := rest_zero ht (quiet_done hroom hc hin hq hd).2.2
  have hl' : (plainNet ((FlowNet.start k db).exec env inRoom outRoom events)).conns[i]? = some c.live := by simp [plainNet, hc]
  rw [hp, plain_start] at hl'
  have hcl := (pending_le env k db _ i _ hl').1
  rw [passAll_hangup] at hcl
  have hcl : c.live.closed = false := by
    cases h : c.live.closed with
    | false => rfl
    | true => exact absurd (hcl.mp h) hh
  obtain ⟨ss, fs, -, -, h, -⟩ := liveTold_exec env k db (passAll env inRoom outRoom (FlowNet.start k db) events)
    (Roomy.mono hr (by omega)) _ [] (by rw [List.append_nil])
  obtain ⟨-, ps, hs, rs, sofar, -, -, -, -, -, h5⟩ := h i _ hl'
  have hpend : c.live.pending = [] := by
    cases htask : c.live.task with
    | reading ctx input size =>
      simp only [RestsBy, htask] at h0
      exact List.eq_nil_of_length_eq_zero (by omega)
    | running p ctx =>
      simp only [RestsBy, htask] at h0
      obtain ⟨_, -, h⟩ := h0
      omega
    | over e =>
      cases e with
      | panicked => exact absurd ⟨c, hc, htask⟩ ho
      | closed =>
        rw [htask] at h5
        rw [hcl] at h5
        exact absurd h5.2 (by simp)
    | stuck => rw [htask] at h5; exact h5.elim
  simp only [canSend, hc, hcl, hpend]
  simpa using hb

/-! ## C176 -/

/-- A line that no request begins with is answered. -/
theorem badLine_answer (env : Env) (c : Live) :
    ∃ answer, answer ≠ [] ∧ c.look env ReqParser.Ctx.new [255, 10] =
      { c with sent := c.sent ++ answer, task := .reading ReqParser.Ctx.new [] 0 } := by
  have h : ReqParser.feed ReqParser.Ctx.new [255, 10] = (.error .keyTypeInvalid, ReqParser.Ctx.new) := by decide +kernel
  refine ⟨Response.writeParseError [] .keyTypeInvalid, by decide +kernel, ?_⟩
  simp only [Live.look, h]

theorem badLines_next {m N : Nat} {cur rest : Bytes} {b : UInt8}
    (h : (List.replicate m ([255, 10] : Bytes)).flatten ++ cur ++ b :: rest <+: (List.replicate N [255, 10]).flatten) :
    (cur = [] → b = 255) ∧ (cur = [255] → b = 10) := by
  induction m generalizing N with
  | zero =>
    cases N with
    | zero => simp at h
    | succ N =>
      simp only [List.replicate_zero, List.flatten_nil, List.nil_append, List.replicate_succ, List.flatten_cons] at h
      constructor
      · rintro rfl
        simp only [List.nil_append, List.cons_append, List.cons_prefix_cons] at h
        exact h.1
      · rintro rfl
        simp only [List.nil_append, List.cons_append, List.cons_prefix_cons] at h
        exact h.2.1
  | succ m ih =>
    cases N with
    | zero => simp [List.replicate_succ] at h
    | succ N =>
      simp only [List.replicate_succ, List.flatten_cons, List.cons_append, List.nil_append, List.cons_prefix_cons] at h
      exact ih h.2.2

/-- C176: a client that sends lines and reads nothing meanwhile does not get further than what there is room for. -/
theorem C176_stall (env : Env) (inRoom outRoom k : Nat) (db : Db) (events : List FlowEvent) (i N : Nat)
    (hno : ∀ e ∈ events, (∀ m, e ≠ .read i m) ∧ e ≠ .hangup i)
    (h : accepted env inRoom outRoom i (FlowNet.start k db) events <+: (List.replicate N [255, 10]).flatten) :
    (accepted env inRoom outRoom i (FlowNet.start k db) events).length ≤ inRoom + 2 * (outRoom + 1) := by
  have hacc : ∀ s, (∀ e ∈ s, (∀ m, e ≠ .read i m) ∧ e ≠ .hangup i) →
      accepted env inRoom outRoom i (FlowNet.start k db) s <+: (List.replicate N [255, 10]).flatten →
      (((FlowNet.start k db).exec env inRoom outRoom s).conns[i]? = none ∧
        accepted env inRoom outRoom i (FlowNet.start k db) s = []) ∨
      ∃ c m cur, ((FlowNet.start k db).exec env inRoom outRoom s).conns[i]? = some c ∧
        (cur = [] ∨ cur = [255]) ∧
        accepted env inRoom outRoom i (FlowNet.start k db) s =
          (List.replicate m ([255, 10] : Bytes)).flatten ++ cur ++ c.live.pending ∧
        c.live.closed = false ∧ c.read = 0 ∧ c.wrote ≤ outRoom ∧ m ≤ c.live.sent.length ∧
        c.live.task = .reading ReqParser.Ctx.new cur cur.length ∧ (m ≤ outRoom ∨ (m = outRoom + 1 ∧ cur = [])) ∧
        c.live.pending.length ≤ inRoom := by
    intro s
    induction s using snoc_ind with
    | h0 =>
      intro _ _
      by_cases hi : i < k
      · refine .inr ⟨{ live := { pending := [], closed := false, sent := [], task := .reading ReqParser.Ctx.new [] 0 }
                       wrote := 0, read := 0, dead := false }, 0, [], ?_, .inl rfl, rfl, rfl, rfl,
          Nat.zero_le _, Nat.zero_le _, rfl, .inl (Nat.zero_le _), Nat.zero_le _⟩
        simp [FlowNet.exec, FlowNet.start, Net.start, hi]
      · exact .inl ⟨by simp [FlowNet.exec, FlowNet.start, Net.start]; omega, rfl⟩
    | h1 s e ih =>
      intro hs hpre
      rw [accepted_append] at hpre ⊢
      rw [flow_exec_snoc]
      have he := hs e (by simp)
      have ih := ih (fun e he => hs e (by simp [he])) ((List.prefix_append ..).trans hpre)
      generalize (FlowNet.start k db).exec env inRoom outRoom s = n at ih hpre
      generalize accepted env inRoom outRoom i (FlowNet.start k db) s = acc at ih hpre
      have one : accepted env inRoom outRoom i n [e] = sendsAt inRoom i n e := by simp [accepted]
      rw [one] at hpre ⊢
      by_cases hother : (∀ bytes, e ≠ .send i bytes) ∧ e ≠ .turn i ∧ e ≠ .fail i
      · rw [flow_step_other env inRoom outRoom n i e ⟨hother.1, he.2, he.1, hother.2.1, hother.2.2⟩]
        have : sendsAt inRoom i n e = [] := by
          unfold sendsAt
          split
          · rename_i j bytes
            have : j ≠ i := fun h => hother.1 bytes (by rw [h])
            simp [this]
          · rfl
        rw [this, List.append_nil]
        exact ih
      · rcases ih with ⟨h1, h2⟩ | ⟨c, m, cur, h1, h2, h3, h4, h5, h6, h7, h8, h9, h10⟩
        · left
          cases e with
          | send j bytes =>
            by_cases hj : j = i
            · subst hj; simp [FlowNet.step, h1, canSend, h2, sendsAt]
            · exact absurd ⟨by simp [hj], by simp, by simp⟩ hother
          | turn j =>
            by_cases hj : j = i
            · subst hj; simp [FlowNet.step, h1, h2, sendsAt]
            · exact absurd ⟨by simp, by simp [hj], by simp⟩ hother
          | fail j =>
            by_cases hj : j = i
            · subst hj; simp [FlowNet.step, h1, h2, sendsAt]
            · exact absurd ⟨by simp, by simp, by simp [hj]⟩ hother
          | hangup j => exact absurd ⟨by simp, by simp, by simp⟩ hother
          | read j m => exact absurd ⟨by simp, by simp, by simp⟩ hother
        · right
          have hi := (List.getElem?_eq_some_iff.mp h1).1
          cases e with
          | send j bytes =>
            by_cases hj : j = i
            · subst hj
              by_cases hroom : c.live.pending.length + bytes.length ≤ inRoom
              · have hcs : canSend inRoom n j bytes = true := by simp [canSend, h1, h4, hroom]
                refine ⟨{ c with live := { c.live with pending := c.live.pending ++ bytes } }, m, cur, ?_, h2, ?_, h4, h5, h6, h7,
                  h8, h9, by simpa using hroom⟩
                · have : ¬ inRoom < c.live.pending.length + bytes.length := by omega
                  simp only [FlowNet.step, h1, h4, this, decide_false, Bool.or_self, Bool.false_eq_true, if_false]
                  exact List.getElem?_set_self hi
                · simp [hcs, h3, sendsAt]
              · have hcs : canSend inRoom n j bytes = false := by simp [canSend, h1, h4]; omega
                refine ⟨c, m, cur, ?_, h2, ?_, h4, h5, h6, h7, h8, h9, h10⟩
                · have : inRoom < c.live.pending.length + bytes.length := by omega
                  simp [FlowNet.step, h1, this]
                · simp [hcs, h3, sendsAt]
            · exact absurd ⟨by simp [hj], by simp, by simp⟩ hother
          | turn j =>
            by_cases hj : j = i
            · subst hj
              simp only [sendsAt, List.append_nil] at hpre ⊢
              simp only [FlowNet.step, h1, List.getElem?_set_self hi]
              unfold Flow.step
              by_cases hd : c.dead = true
              · exact ⟨c, m, cur, by simp [hd], h2, h3, h4, h5, h6, h7, h8, h9, h10⟩
              · by_cases hw : c.writing = true
                · by_cases hr : c.wrote < c.read + outRoom
                  · exact ⟨{ c with wrote := c.wrote + 1 }, m, cur, by simp [hd, hw, hr], h2, h3, h4, h5,
                      (by dsimp only; omega), h7, h8, h9, h10⟩
                  · exact ⟨c, m, cur, by simp [hd, hw, hr], h2, h3, h4, h5, h6, h7, h8, h9, h10⟩
                · have hsent : c.live.sent.length ≤ c.wrote := by simpa [Flow.writing] using hw
                  have hm : m ≤ outRoom := by omega
                  refine ⟨{ c with live := (c.live.step env n.db).1 }, ?_⟩
                  cases hpend : c.live.pending with
                  | nil =>
                    have hstep : (c.live.step env n.db).1 = c.live := by simp [Live.step, h8, hpend, h4]
                    rw [hstep]
                    exact ⟨m, cur, by simp [hd, hw], h2, by rw [h3, hpend], h4, h5, h6, h7, h8, h9, h10⟩
                  | cons b rest =>
                    rw [h3, hpend] at hpre
                    obtain ⟨n1, n2⟩ := badLines_next hpre
                    rcases h2 with rfl | rfl
                    · have hb := n1 rfl
                      subst hb
                      have hstep : (c.live.step env n.db).1 =
                          { c.live with pending := rest, task := .reading ReqParser.Ctx.new [255] 1 } := by
                        simp [Live.step, h8, hpend]
                      rw [hpend] at h10 h3
                      refine ⟨m, [255], by simp [hd, hw], .inr rfl, by rw [h3, hstep]; simp, by rw [hstep]; exact h4, h5, h6,
                        by rw [hstep]; exact h7, by rw [hstep]; rfl, .inl hm, by rw [hstep]; simp at h10 ⊢; omega⟩
                    · have hb := n2 rfl
                      subst hb
                      obtain ⟨answer, ha, hlook⟩ := badLine_answer env { c.live with pending := rest }
                      have hstep : (c.live.step env n.db).1 = { c.live with
                          pending := rest, sent := c.live.sent ++ answer, task := .reading ReqParser.Ctx.new [] 0 } := by
                        simp only [Live.step, h8, hpend, if_true, List.cons_append, List.nil_append]
                        exact hlook
                      rw [hpend] at h10 h3
                      have hlen : 0 < answer.length := List.length_pos_iff.mpr ha
                      refine ⟨m + 1, [], by simp [hd, hw], .inl rfl, ?_, by rw [hstep]; exact h4, h5, h6,
                        by rw [hstep]; simp; omega, by rw [hstep]; rfl, ?_, by rw [hstep]; simp at h10 ⊢; omega⟩
                      · rw [h3, hstep, List.replicate_succ']
                        simp
                      · by_cases hlt : m + 1 ≤ outRoom
                        · exact .inl hlt
                        · exact .inr ⟨by omega, rfl⟩
            · exact absurd ⟨by simp, by simp [hj], by simp⟩ hother
          | fail j =>
            by_cases hj : j = i
            · subst hj
              simp only [sendsAt, List.append_nil]
              refine ⟨{ c with dead := true }, m, cur, ?_, h2, h3, h4, h5, h6, h7, h8, h9, h10⟩
              have : c.atSocket = true := by simp [Flow.atSocket, h8]
              simp only [FlowNet.step, h1, this, if_true]
              exact List.getElem?_set_self hi
            · exact absurd ⟨by simp, by simp, by simp [hj]⟩ hother
          | hangup j => exact absurd ⟨by simp, by simp, by simp⟩ hother
          | read j m => exact absurd ⟨by simp, by simp, by simp⟩ hother
  rcases hacc events hno h with ⟨-, h2⟩ | ⟨c, m, cur, -, h2, h3, -, -, -, -, -, h9, h10⟩
  · rw [h2]; exact Nat.zero_le _
  · rw [h3]
    have : (List.replicate m ([255, 10] : Bytes)).flatten.length = 2 * m := by simp; omega
    simp only [List.length_append, this]
    rcases h2 with rfl | rfl
    · simp only [List.length_nil]; omega
    · simp only [List.length_cons, List.length_nil]
      rcases h9 with h9 | ⟨-, h⟩
      · omega
      · cases h

/-- C176: so however much room there is, there are lines that no client can send before it reads, in any execution. -/
theorem C176_never (env : Env) (inRoom outRoom k : Nat) (db : Db) (events : List FlowEvent) (i N : Nat)
    (hno : ∀ e ∈ events, (∀ m, e ≠ .read i m) ∧ e ≠ .hangup i) (hN : inRoom + 2 * (outRoom + 1) < 2 * N) :
    accepted env inRoom outRoom i (FlowNet.start k db) events ≠ (List.replicate N [255, 10]).flatten := by
  intro h
  have := C176_stall env inRoom outRoom k db events i N hno (by rw [h]; exact List.prefix_rfl)
  rw [h] at this
  have : (List.replicate N ([255, 10] : Bytes)).flatten.length = 2 * N := by simp; omega
  omega

/-! ## Beside the theorems -/

/-- A test for there being nothing left to do on a connection that is still open. -/
def idle (n : FlowNet) (i : Nat) : Bool :=
  match n.conns[i]? with
  | some ⟨⟨[], false, sent, .reading _ _ _⟩, wrote, read, false⟩ => wrote == sent.length && read == wrote
  | _ => false

theorem idle_quiet {env : Env} {a b : Nat} {n : FlowNet} {i : Nat} (h : idle n i = true) :
    Quiet env a b n i ∧ ¬ FlowFailed n i := by
  unfold idle at h
  split at h
  · rename_i sent ctx input size wrote read hc
    simp only [Bool.and_eq_true, beq_iff_eq] at h
    obtain ⟨rfl, rfl⟩ := h
    refine ⟨⟨?_, ?_⟩, ?_⟩
    · simp only [FlowNet.step, hc, Flow.step, Flow.writing, Live.step, Bool.false_eq_true, if_false, Nat.lt_irrefl, decide_false]
      rw [set_same hc]
    · simp only [FlowNet.step, hc, Nat.min_eq_left (Nat.le_succ _)]
      rw [set_same hc]
    · rintro ⟨c, h1, h2⟩
      rw [hc] at h1
      cases h1
      cases h2
  · cases h

/-- Client 1 sends two lines and reads nothing; there is room for one byte of the answer only, so its task waits in the middle of
the answer to the first line, and a third line cannot be sent. Client 0 sends a line and reads. -/
def slowReader : List FlowEvent :=
  [.send 0 [255, 10], .send 1 [255, 10, 255, 10]] ++ List.replicate 30 (.turn 1) ++ [.send 1 [255, 10, 255, 10, 255]] ++
    (List.replicate 20 [FlowEvent.turn 0, .turn 1, .read 0 1]).flatten

/-- Beside C174: client 0 is answered in full, and client 1 has been written one byte. -/
example : let n := (FlowNet.start 2 (sampleDb [])).exec (sampleEnv .debug) 4 1 slowReader
    Roomy (1 + slowReader.length) (sampleDb []).ctrs ∧ Quiet (sampleEnv .debug) 4 1 n 0 ∧ ¬ FlowFailed n 0 ∧
    readBy n 0 = frame (.parseError .keyTypeInvalid) ∧ (n.conns[1]?).map (fun c => (c.wrote, c.writing)) = some (1, true) ∧
    accepted (sampleEnv .debug) 4 1 1 (FlowNet.start 2 (sampleDb [])) slowReader = [255, 10, 255, 10] := by
  intro n
  have h : idle n 0 = true := by decide +kernel
  exact ⟨sampleDb_roomy _ _ (by decide), (idle_quiet h).1,
    (idle_quiet (env := sampleEnv .debug) (a := 4) (b := 1) h).2, by decide +kernel, by decide +kernel, by decide +kernel⟩

/-- Beside C174_all_possible: a line arrives and is answered. -/
example : let plain : List NetEvent := [.arrive 0 [255, 10], .turn 0, .turn 0]
    (∀ i, (arrived i plain).length ≤ 2) ∧
    sentTo ((Net.start 1 (sampleDb [])).exec (sampleEnv .debug) plain) 0 = frame (.parseError .keyTypeInvalid) := by
  refine ⟨fun i => ?_, by decide +kernel⟩
  by_cases h : (0 : Nat) = i
  · subst h; decide
  · simp [arrived, h, List.takeWhile]

/-- Beside C175: client 1 never reads, client 0 sends a line and keeps reading. -/
example : let run : Nat → FlowEvent := fun t =>
      if t = 0 then .send 0 [255, 10] else if t = 1 then .send 1 [255, 10, 255, 10]
      else if t % 3 = 0 then .turn 0 else if t % 3 = 1 then .turn 1 else .read 0 1
    ∃ N, ∀ t, N ≤ t → Quiet (sampleEnv .debug) 4 1 (afterEvents (sampleEnv .debug) 4 1 (FlowNet.start 2 (sampleDb [])) run t) 0 := by
  intro run
  refine C175_answered _ _ _ _ _ run 0 (by decide) 2 (fun t ht => ?_) (fun t => ⟨3 * (t + 1), by omega, ?_⟩)
    (fun t => ⟨3 * t + 2, by omega, 1, by decide, ?_⟩)
  · have h0 : t ≠ 0 := by omega
    have h1 : t ≠ 1 := by omega
    simp only [run, h0, h1, if_false]
    split
    · simp
    · split <;> simp
  · have h1 : 3 * (t + 1) ≠ 1 := by omega
    have h2 : 3 * (t + 1) % 3 = 0 := by omega
    simp [run, h1, h2]
  · have h1 : 3 * t + 2 ≠ 1 := by omega
    have h2 : (3 * t + 2) % 3 = 2 := by omega
    simp [run, h1, h2]

/-- Beside C175_room: client 0 can go on. -/
example : canSend 4 ((FlowNet.start 2 (sampleDb [])).exec (sampleEnv .debug) 4 1 slowReader) 0 [255, 10, 255, 10] = true := by
  have h : idle ((FlowNet.start 2 (sampleDb [])).exec (sampleEnv .debug) 4 1 slowReader) 0 = true := by decide +kernel
  refine C175_room _ _ _ _ (by decide) _ _ (sampleDb_roomy _ _ (by decide)) _ (by decide) (idle_quiet h).1
    (idle_quiet (env := sampleEnv .debug) (a := 4) (b := 1) h).2
    (by decide +kernel) ?_ _ (by decide)
  rintro ⟨c, h1, h2⟩
  unfold idle at h
  rw [h1] at h
  obtain ⟨⟨pending, closed, sent, task⟩, wrote, read, dead⟩ := c
  cases h2
  split at h
  · rename_i heq; cases heq
  · cases h

/-- Beside C176: without reading, a client can get as far as `inRoom + 2 * (outRoom + 1)` bytes and no further. -/
example : let es : List FlowEvent := [.send 1 [255, 10, 255, 10]] ++ List.replicate 30 (.turn 1) ++ [.send 1 [255, 10]] ++
      List.replicate 30 (.turn 1) ++ [.send 1 [255, 10], .send 1 [255, 10]]
    (∀ e ∈ es, (∀ m, e ≠ .read 1 m) ∧ e ≠ .hangup 1) ∧
    accepted (sampleEnv .debug) 4 1 1 (FlowNet.start 2 (sampleDb [])) es = (List.replicate 3 [255, 10]).flatten ∧
    (accepted (sampleEnv .debug) 4 1 1 (FlowNet.start 2 (sampleDb [])) es).length ≤ 4 + 2 * (1 + 1) := by
  intro es
  have h1 : ∀ e ∈ es, (∀ m, e ≠ .read 1 m) ∧ e ≠ .hangup 1 := by
    simp only [es, List.mem_append, List.mem_replicate, List.mem_cons, List.not_mem_nil, or_false]
    rintro e ((((rfl | ⟨-, rfl⟩) | rfl) | ⟨-, rfl⟩) | rfl | rfl) <;> simp
  have h2 : accepted (sampleEnv .debug) 4 1 1 (FlowNet.start 2 (sampleDb [])) es = (List.replicate 3 [255, 10]).flatten := by
    decide +kernel
  exact ⟨h1, h2, C176_stall _ _ _ _ _ es 1 3 h1 (by rw [h2]; exact List.prefix_rfl)⟩

end Hop
