import Verif.Props.ServerLive

/-! # C218: how much a connection is sent and how much is kept for it -/

namespace Hop

open Spec Prog
open Server (Net NetEvent Live Task)

/-- The bytes kept for connection `i`: those read of which no request has been made yet, and those not read; nothing once the
connection has come to its end. (A request that is being carried out is not counted.) -/
def Spec.keptFor (n : Net) (i : Nat) : Bytes :=
  match n.conns[i]? with
  | some c =>
    match c.task with
    | .reading _ input _ => input ++ c.pending
    | .over _ => []
    | _ => c.pending
  | none => []

theorem lines_length_le (a : Bytes) : (Server.lines a).length ≤ a.length ∧ (Server.lines a).length ≤ a.count 10 + 1 := by
  induction a with
  | nil => simp [Server.lines]
  | cons b rest ih =>
    rw [Server.lines]
    split
    · rename_i h; subst h; simp; omega
    · rename_i h
      rw [List.count_cons_of_ne (by simpa using h)]
      split
      · simp
      · rename_i l ls h'; rw [h'] at ih; simp at ih ⊢; omega

theorem lines_length_ends {a : Bytes} (h : EndsLine a) : (Server.lines a).length = a.count 10 := by
  induction a with
  | nil => simp [Server.lines]
  | cons b rest ih =>
    have hr : EndsLine rest := by
      rcases h with h | h
      · cases h
      · cases rest with
        | nil => exact .inl rfl
        | cons c r => exact .inr (by simpa using h)
    have ih := ih hr
    rw [Server.lines]
    split
    · rename_i h; subst h; simp [ih]
    · rename_i hb
      rw [List.count_cons_of_ne (by simpa using hb), ← ih]
      split
      · rename_i h'
        have : rest = [] := by
          cases hrest : rest with
          | nil => rfl
          | cons c r => exact absurd h' (lines_ne_nil (by simp [hrest]))
        subst this
        rcases h with h | h
        · cases h
        · simp at h; exact absurd h hb
      · rename_i l ls h'; simp [h']

theorem upto_length {ps : List Bytes} {hs : List Heard} {sofar : Bytes} (h : Upto ps hs sofar) : hs.length ≤ ps.length := by
  induction h <;> simp_all <;> omega

theorem upto_kept {ps : List Bytes} {hs : List Heard} {sofar : Bytes} (h : Upto ps hs sofar) :
    ∃ gone, ps.flatten = gone ++ sofar := by
  induction h with
  | start => exact ⟨[], rfl⟩
  | wait _ _ _ ih => obtain ⟨gone, ih⟩ := ih; exact ⟨gone, by simp [ih]⟩
  | hear _ _ _ => exact ⟨_, (List.append_nil _).symm⟩

theorem statistics_length (ctrs : Metric → Option Nat) : (body (.value (.map (statistics ctrs)))).length ≤ 93 := by
  have hr : ∀ m, reported ctrs m = none ∨ ∃ b, reported ctrs m = some b ∧ b.length = 8 := by
    intro m
    unfold reported
    split
    · split
      · exact .inr ⟨_, rfl, by simp⟩
      · exact .inl rfl
    · exact .inl rfl
  have a1 : (ascii "commands_errored").length = 16 := by decide +kernel
  have a2 : (ascii "commands_successful").length = 19 := by decide +kernel
  have a3 : (ascii "sessions_started").length = 16 := by decide +kernel
  rcases hr .commandsErrored with h1 | ⟨b1, h1, l1⟩ <;> rcases hr .commandsSuccessful with h2 | ⟨b2, h2, l2⟩ <;>
    rcases hr .sessionsStarted with h3 | ⟨b3, h3, l3⟩ <;>
    simp [statistics, body, payload, mapItem, *]

theorem responds_length {ok : Metric → Option Nat → Prop} (env : Env) {h : Heard} {r : Response} (hr : Responds ok h r) :
    (frame (ordered env r)).length ≤ 97 := by
  rw [frame, List.length_append, beBytes_length, body_ordered_length]
  suffices (body r).length ≤ 93 by omega
  cases h with
  | garbage e => rw [show r = _ from hr]; simp [body]
  | command c =>
    cases c <;> first
      | (obtain ⟨ctrs, -, rfl⟩ := hr; exact statistics_length ctrs)
      | (rw [show r = _ from hr]; simp [body, payload])

theorem wire_length {ok : Metric → Option Nat → Prop} (env : Env) {hs : List Heard} {rs : List Response}
    (h : All2 (Responds ok) hs rs) : (wire env rs).length ≤ 97 * hs.length := by
  induction h with
  | nil => simp [wire]
  | cons h _ ih =>
    have := responds_length env h
    simp only [wire, List.flatMap_cons, List.length_append, List.length_cons] at ih ⊢
    omega

theorem told (env : Env) (k : Nat) (db : Db) (events : List NetEvent) (hr : Roomy (1 + events.length) db.ctrs) (i : Nat)
    (hi : i < k) : ∃ c s f, ((Net.start k db).exec env events).conns[i]? = some c ∧
      LiveTold env (SeenAmid env (Net.start k db) events) (arrived i events) (.hangup i ∈ events) s f c := by
  have hl := net_length env k db events
  have hc := List.getElem?_eq_getElem (show i < ((Net.start k db).exec env events).conns.length by omega)
  obtain ⟨ss, fs, -, -, h, -⟩ := liveTold_exec env k db events hr events [] (by simp)
  exact ⟨_, _, _, hc, h i _ hc⟩

/-- The first part of what has arrived is what was answered; it is of whole lines unless the client has hung up. -/
theorem told_answered {env : Env} {ok : Metric → Option Nat → Prop} {got : Bytes} {closed : Prop} {s f : Nat} {c : Live}
    (h : LiveTold env ok got closed s f c) :
    ∃ part rest, got = part ++ rest ∧ (EndsLine part ∨ closed) ∧ c.sent.length ≤ 97 * (Server.lines part).length := by
  obtain ⟨h0, ps, hs, rs, sofar, h1, h2, h3, h4, -, h5⟩ := h
  have hw : c.sent.length ≤ 97 * (Server.lines ps.flatten).length := by
    have a := wire_length env h1
    have b := upto_length h3
    rw [h2, h4]; omega
  have front : ∀ piece : Bytes, Server.lines (ps.flatten ++ piece) = ps ++ [piece] →
      (EndsLine (ps.flatten ++ piece) ∨ c.closed = true ∧ c.pending = []) → 
      (EndsLine (ps.flatten ++ piece) ∨ closed) ∧ c.sent.length ≤ 97 * (Server.lines (ps.flatten ++ piece)).length := by
    intro piece hl he
    refine ⟨he.imp_right fun h => h0.mp h.1, ?_⟩
    rw [hl]; rw [h4] at hw; simp; omega
  split at h5
  · obtain ⟨cur, hg, -, -, -, -, he⟩ := h5
    exact ⟨_, cur ++ c.pending, by rw [hg, List.append_assoc], he.imp_right fun h => h0.mp h.1, hw⟩
  · obtain ⟨piece, cmd, hg, hl, he, -⟩ := h5
    exact ⟨_, c.pending, hg, front piece hl he⟩
  · obtain ⟨piece, hg, hl, he, -⟩ := h5
    exact ⟨_, c.pending, hg, front piece hl he⟩
  · exact ⟨_, [], by simpa using h5.1, .inr (h0.mp h5.2), hw⟩
  · exact h5.elim

/-- **C218.** Whatever clients send to a server and however its tasks take turns: at every moment a connection has been sent
at most 97 bytes for each newline that has arrived on it (and once more if its client has hung up), and never more than 97
bytes for each byte that has arrived. -/
theorem C218_sent (env : Env) (k : Nat) (db : Db) (events : List NetEvent) (hr : Roomy (1 + events.length) db.ctrs) (i : Nat)
    (hi : i < k) :
    (sentTo ((Net.start k db).exec env events) i).length ≤
        97 * ((arrived i events).count 10 + if .hangup i ∈ events then 1 else 0) ∧
      (sentTo ((Net.start k db).exec env events) i).length ≤ 97 * (arrived i events).length := by
  obtain ⟨c, s, f, hc, h⟩ := told env k db events hr i hi
  obtain ⟨part, rest, hg, he, hw⟩ := told_answered h
  have hs : sentTo ((Net.start k db).exec env events) i = c.sent := by simp [sentTo, hc]
  have hl := lines_length_le part
  rw [hs, hg, List.count_append, List.length_append]
  refine ⟨?_, by omega⟩
  split
  · omega
  · rename_i hn
    have := lines_length_ends (he.resolve_right hn)
    omega

/-- **C218.** What is kept for a connection is always the end of what has arrived on it. -/
theorem C218_kept (env : Env) (k : Nat) (db : Db) (events : List NetEvent) (hr : Roomy (1 + events.length) db.ctrs) (i : Nat)
    (hi : i < k) : ∃ gone, arrived i events = gone ++ keptFor ((Net.start k db).exec env events) i := by
  obtain ⟨c, s, f, hc, -, ps, hs, rs, sofar, -, -, h3, -, -, h5⟩ := told env k db events hr i hi
  rw [keptFor, hc]
  split at h5
  · rename_i ctx input size ht
    obtain ⟨cur, hg, -, hin, -⟩ := h5
    obtain ⟨gone, hk⟩ := upto_kept h3
    exact ⟨gone, by simp [ht, hg, hk, hin]⟩
  · rename_i ht; obtain ⟨piece, cmd, hg, -⟩ := h5; exact ⟨_, by simp only [ht]; exact hg⟩
  · rename_i ht; exact ⟨_, by simp only [ht]; exact (List.append_nil _).symm⟩
  · rename_i ht; exact ⟨_, by simp only [ht]; exact (List.append_nil _).symm⟩
  · exact h5.elim

/-- **C218.** There is no limit to what is kept: as long as the client neither sends a newline nor hangs up, everything that
has arrived is kept and nothing is sent. -/
theorem C218_no_limit (env : Env) (k : Nat) (db : Db) (events : List NetEvent) (hr : Roomy (1 + events.length) db.ctrs) (i : Nat)
    (hi : i < k) (hn : (10 : UInt8) ∉ arrived i events) (hh : .hangup i ∉ events) :
    keptFor ((Net.start k db).exec env events) i = arrived i events ∧ sentTo ((Net.start k db).exec env events) i = [] := by
  refine ⟨?_, List.eq_nil_of_length_eq_zero ?_⟩
  · obtain ⟨c, s, f, hc, h0, ps, hs, rs, sofar, -, -, h3, h4, -, h5⟩ := told env k db events hr i hi
    rw [keptFor, hc]
    have hcl : c.closed ≠ true := fun h => hh (h0.mp h)
    have nil : ∀ {a b : Bytes}, arrived i events = a ++ b → EndsLine a → a = [] := by
      intro a b hg he
      refine he.resolve_right fun h => hn ?_
      rw [hg]; exact List.mem_append_left _ (List.mem_of_getLast? h)
    split at h5
    · rename_i ctx input size ht
      obtain ⟨cur, hg, -, hin, -, -, he⟩ := h5
      have hf := nil (by rw [hg, List.append_assoc]) (he.resolve_right fun h => hcl h.1)
      obtain ⟨gone, hk⟩ := upto_kept h3
      rw [hf] at hk
      have hs : sofar = [] := (List.append_eq_nil_iff.mp hk.symm).2
      simp [ht, hg, hf, hin, hs]
    · obtain ⟨piece, cmd, hg, hl, he, -⟩ := h5
      rw [nil hg (he.resolve_right fun h => hcl h.1)] at hl
      simp [Server.lines] at hl
    · obtain ⟨piece, hg, hl, he, -⟩ := h5
      rw [nil hg (he.resolve_right fun h => hcl h.1)] at hl
      simp [Server.lines] at hl
    · exact absurd h5.2 hcl
    · exact h5.elim
  · have := (C218_sent env k db events hr i hi).1
    rw [List.count_eq_zero.mpr hn, if_neg hh] at this
    omega

/-- **C218.** Nor is it only left unread: once the server has nothing more to do for such a connection, it has read everything
that has arrived. -/
theorem C218_read (env : Env) (k : Nat) (db : Db) (events : List NetEvent) (hr : Roomy (1 + events.length) db.ctrs) (i : Nat)
    (hi : i < k) (hn : (10 : UInt8) ∉ arrived i events) (hh : .hangup i ∉ events)
    (hrest : AtRest env ((Net.start k db).exec env events) i) :
    ∃ c ctx size, ((Net.start k db).exec env events).conns[i]? = some c ∧ c.pending = [] ∧
      c.task = .reading ctx (arrived i events) size := by
  have hk := C218_no_limit env k db events hr i hi hn hh
  obtain ⟨c, s, f, hc, h0, ps, hs, rs, sofar, -, -, -, h4, -, h5⟩ := told env k db events hr i hi
  have hcl : c.closed ≠ true := fun h => hh (h0.mp h)
  rcases resting (atRest_step hrest hc) with ⟨ctx, input, size, ht, hp, -⟩ | ⟨e, ht⟩ | ht
  · refine ⟨c, ctx, size, hc, hp, ?_⟩
    have := hk.1
    simp only [keptFor, hc, ht, hp, List.append_nil] at this
    rw [ht, this]
  · rw [ht] at h5
    cases e with
    | closed => exact absurd h5.2 hcl
    | panicked =>
      obtain ⟨piece, hg, hl, he, -⟩ := h5
      have : ps.flatten ++ piece = [] := (he.resolve_right fun h => hcl h.1).resolve_right fun h => hn (by
        rw [hg]; exact List.mem_append_left _ (List.mem_of_getLast? h))
      rw [this] at hl
      simp [Server.lines] at hl
  · rw [ht] at h5; exact h5.elim

/-- Stats asked for twice on a connection while another one sends half a line: 2 · 97 bytes for four, and everything kept. -/
def askTwice : List NetEvent :=
  [.arrive 0 [101, 10, 101], .arrive 1 [0, 1], .turn 1] ++ List.replicate 14 (.turn 0) ++ [.arrive 0 [10], .turn 1] ++
    List.replicate 14 (.turn 0)

/-- All three counters are set. -/
def countedDb : Db := { keys := fun _ => none, ctrs := fun _ => some 1 }

theorem roomy_askTwice : Roomy (1 + askTwice.length) countedDb.ctrs := by
  intro m
  cases m <;> decide +kernel

example := C218_sent (sampleEnv .debug) 2 countedDb askTwice roomy_askTwice 0 (by decide)
example := C218_kept (sampleEnv .debug) 2 countedDb askTwice roomy_askTwice 0 (by decide)

/-- The limit is reached. -/
example : (sentTo ((Net.start 2 countedDb).exec (sampleEnv .debug) askTwice) 0).length = 97 * 2 ∧
    (arrived 0 askTwice).count 10 = 2 := by decide +kernel

/-- One byte and a hang-up are enough for 97 bytes. -/
example : (sentTo ((Net.start 1 countedDb).exec (sampleEnv .debug)
    ([.arrive 0 [101], .hangup 0] ++ List.replicate 16 (.turn 0))) 0).length = 97 := by decide +kernel

example : keptFor ((Net.start 2 countedDb).exec (sampleEnv .debug) askTwice) 1 = [0, 1] ∧
    sentTo ((Net.start 2 countedDb).exec (sampleEnv .debug) askTwice) 1 = [] :=
  C218_no_limit (sampleEnv .debug) 2 countedDb askTwice roomy_askTwice 1 (by decide) (by decide +kernel) (by decide +kernel)

example := C218_read (sampleEnv .debug) 1 countedDb ([.arrive 0 [0, 1]] ++ List.replicate 24 (.turn 0))
  (by intro m; cases m <;> decide +kernel) 0 (by decide) (by decide +kernel) (by decide +kernel)
  (C155_soon _ _ _ _ _ _ (by decide) (fun e he => by rw [(List.mem_replicate.mp he).2]; simp) (by decide +kernel))

/-- Any number of bytes can be made to be kept. -/
example (n : Nat) : keptFor ((Net.start 1 countedDb).exec (sampleEnv .debug) [.arrive 0 (List.replicate n 0), .turn 0]) 0 =
    List.replicate n 0 := by
  have := (C218_no_limit (sampleEnv .debug) 1 countedDb [.arrive 0 (List.replicate n 0), .turn 0]
    (by intro m; simp [countedDb]) 0 (by decide) (by simp [arrived]) (by simp)).1
  simpa [arrived] using this

end Hop
