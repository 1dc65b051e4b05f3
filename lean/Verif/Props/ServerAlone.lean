import Verif.Props.FlowLimits

/-! # C220: what a connection is answered does not depend on the others -/

namespace Hop

open Spec Prog
open Server (Net NetEvent Live Task FlowNet FlowEvent)

/-- The same response, or statistics both times. -/
def Spec.SameButNumbers (r r' : Response) : Prop :=
  r = r' ∨ ∃ ctrs ctrs', r = .value (.map (statistics ctrs)) ∧ r' = .value (.map (statistics ctrs'))

theorem hears_unique {sofar : Bytes} {pieces : List Bytes} {hs hs' : List Heard} {e e' : Server.End}
    (h : Hears sofar pieces hs e) (h' : Hears sofar pieces hs' e') : hs = hs' ∧ e = e' := by
  induction h generalizing hs' e' with
  | close => cases h'; exact ⟨rfl, rfl⟩
  | wait h1 h2 _ ih =>
    cases h' with
    | wait _ _ h3 => exact ih h3
    | hear h3 _ => exact absurd h3 (h1 _)
    | crash h3 => exact absurd h3 h2
  | hear h1 _ ih =>
    cases h' with
    | wait h3 _ _ => exact absurd h1 (h3 _)
    | hear h3 h4 =>
      obtain ⟨rfl, rfl⟩ := ih h4
      exact ⟨by rw [Understood.unique h1 h3], rfl⟩
    | crash h3 => exact absurd h3 (Understood.not_overfull h1)
  | crash h1 =>
    cases h' with
    | wait _ h3 _ => exact absurd h1 h3
    | hear h3 _ => exact absurd h1 (Understood.not_overfull h3)
    | crash _ => exact ⟨rfl, rfl⟩

theorem whole_unique {bytes w w' : Bytes} (h : Whole bytes w) (h' : Whole bytes w') : w = w' := by
  obtain ⟨r, h1, h2, h3⟩ := h
  obtain ⟨r', h1', h2', h3'⟩ := h'
  have key : ∀ {w w' r r' : Bytes}, w ++ r = w' ++ r' → (10 : UInt8) ∉ r → (w' = [] ∨ w'.getLast? = some 10) →
      w'.length ≤ w.length := by
    intro w w' r r' he hr hw
    rcases hw with rfl | hw
    · simp
    · refine Nat.le_of_not_lt fun hlt => hr ?_
      rcases List.append_eq_append_iff.mp he with ⟨t, h1, h2⟩ | ⟨t, h1, h2⟩
      · cases t with
        | nil => simp at h1; rw [h1] at hlt; exact absurd hlt (Nat.lt_irrefl _)
        | cons x t =>
          rw [h1, List.getLast?_append] at hw
          have hw : (x :: t).getLast? = some 10 := by
            cases hx : (x :: t).getLast? with
            | none => simp at hx
            | some y => simpa [hx] using hw
          rw [h2]
          exact List.mem_append_left _ (List.mem_of_getLast? hw)
      · rw [h1] at hlt; simp at hlt; omega
  have he : w ++ r = w' ++ r' := by rw [← h1, ← h1']
  have hl : w.length = w'.length := Nat.le_antisymm (key he.symm h2' h3) (key he h2 h3')
  exact (List.append_inj he hl).1

theorem responds_same {P Q : Metric → Option Nat → Prop} {h : Heard} {r r' : Response} (hr : Responds P h r) (hr' : Responds Q h r') :
    SameButNumbers r r' ∧ (h ≠ .command .stats → r = r' ∧ ∀ env env' : Env, frame (ordered env r) = frame (ordered env' r)) := by
  cases h with
  | garbage e =>
    rw [show r = _ from hr, show r' = _ from hr']
    exact ⟨.inl rfl, fun _ => ⟨rfl, fun _ _ => rfl⟩⟩
  | command c =>
    cases c <;> first
      | (obtain ⟨ctrs, -, rfl⟩ := hr
         obtain ⟨ctrs', -, rfl⟩ := hr'
         exact ⟨.inr ⟨ctrs, ctrs', rfl, rfl⟩, fun h => absurd rfl h⟩)
      | (rw [show r = _ from hr, show r' = _ from hr']
         exact ⟨.inl rfl, fun _ => ⟨rfl, fun _ _ => rfl⟩⟩)

theorem all2_same {P Q : Metric → Option Nat → Prop} {hs : List Heard} {rs rs' : List Response} (h : All2 (Responds P) hs rs)
    (h' : All2 (Responds Q) hs rs') :
    All2 SameButNumbers rs rs' ∧ (.command .stats ∉ hs → ∀ env env' : Env, wire env rs = wire env' rs') := by
  induction h generalizing rs' with
  | nil => cases h'; exact ⟨.nil, fun _ _ _ => rfl⟩
  | cons h1 _ ih =>
    cases h' with
    | cons h2 h3 =>
      obtain ⟨i1, i2⟩ := ih h3
      obtain ⟨s1, s2⟩ := responds_same h1 h2
      refine ⟨.cons s1 i1, fun hn env env' => ?_⟩
      simp only [List.mem_cons, not_or] at hn
      obtain ⟨rfl, s3⟩ := s2 (Ne.symm hn.1)
      simp only [wire, List.flatMap_cons]
      rw [s3 env env']
      exact congrArg _ (i2 hn.2 env env')

/-- **C220.** Two servers with whatever stored, with any number of connections, on which bytes arrive in whatever packets and
tasks take turns in any way. If the same bytes have arrived on a connection of each, their clients have both hung up or neither,
and there is nothing left to do for them, they have been answered the same, but for the numbers in statistics, and have come to
the same end, if any. -/
theorem C220_alone (env env' : Env) (k k' : Nat) (db db' : Db) (events events' : List NetEvent)
    (hr : Roomy (1 + events.length) db.ctrs) (hr' : Roomy (1 + events'.length) db'.ctrs) (i j : Nat) (hi : i < k) (hj : j < k')
    (ha : arrived i events = arrived j events') (hh : .hangup i ∈ events ↔ .hangup j ∈ events')
    (hrest : AtRest env ((Net.start k db).exec env events) i) (hrest' : AtRest env' ((Net.start k' db').exec env' events') j) :
    (∃ rs rs', sentTo ((Net.start k db).exec env events) i = wire env rs ∧
      sentTo ((Net.start k' db').exec env' events') j = wire env' rs' ∧ All2 SameButNumbers rs rs') ∧
      ∀ e, IsOver ((Net.start k db).exec env events) i e ↔ IsOver ((Net.start k' db').exec env' events') j e := by
  obtain ⟨rs, part, hs, e, h1, h2, h3, h4, h5, h6⟩ := C155_rest env k db events hr i hi hrest
  obtain ⟨rs', part', hs', e', h1', h2', h3', h4', h5', h6'⟩ := C155_rest env' k' db' events' hr' j hj hrest'
  have hp : part = part' := by
    by_cases h : NetEvent.hangup i ∈ events
    · rw [if_pos h] at h1; rw [if_pos (hh.mp h)] at h1'; rw [h1, h1', ha]
    · rw [if_neg h] at h1; rw [if_neg (fun h' => h (hh.mpr h'))] at h1'; rw [ha] at h1; exact whole_unique h1 h1'
  subst hp
  obtain ⟨rfl, rfl⟩ := hears_unique h2 h2'
  refine ⟨⟨rs, rs', h4, h4', (all2_same h3 h3').1⟩, fun x => ?_⟩
  cases x with
  | closed => rw [h6, h6', hh]
  | panicked => rw [h5, h5']

theorem hears_stats {sofar : Bytes} {pieces : List Bytes} {hs : List Heard} {e : Server.End} (h : Hears sofar pieces hs e)
    (hn : (101 : UInt8) ∉ sofar ++ pieces.flatten) : .command .stats ∉ hs := by
  induction h with
  | close => simp
  | wait _ _ _ ih => exact ih (by simpa using hn)
  | @hear sofar piece pieces h hs e h1 _ ih =>
    simp only [List.flatten_cons, List.mem_append, not_or] at hn
    simp only [List.mem_cons, not_or]
    refine ⟨?_, ih (by simpa using hn.2.2)⟩
    rintro rfl
    rcases h1 with ⟨-, rest, hb⟩ | ⟨h, -⟩
    · have : (101 : UInt8) ∈ sofar ++ piece := by rw [hb]; exact List.mem_cons_self
      rcases List.mem_append.mp this with h | h
      · exact hn.1 h
      · exact hn.2.1 h
    · simp [takesArguments] at h
  | crash _ => simp

theorem lines_flatten_all (a : Bytes) : (Server.lines a).flatten = a := by
  induction a with
  | nil => rfl
  | cons b rest ih =>
    rw [Server.lines]
    split
    · simp [ih]
    · split
      · rename_i h; rw [h] at ih; simp at ih; simp [← ih]
      · rename_i h; rw [h] at ih; simp at ih; simp [ih]

/-- **C220.** If the byte that asks for statistics is not among them, exactly the same bytes have been sent. -/
theorem C220_same_bytes (env env' : Env) (k k' : Nat) (db db' : Db) (events events' : List NetEvent)
    (hr : Roomy (1 + events.length) db.ctrs) (hr' : Roomy (1 + events'.length) db'.ctrs) (i j : Nat) (hi : i < k) (hj : j < k')
    (ha : arrived i events = arrived j events') (hh : .hangup i ∈ events ↔ .hangup j ∈ events')
    (hrest : AtRest env ((Net.start k db).exec env events) i) (hrest' : AtRest env' ((Net.start k' db').exec env' events') j)
    (hn : (101 : UInt8) ∉ arrived i events) :
    sentTo ((Net.start k db).exec env events) i = sentTo ((Net.start k' db').exec env' events') j := by
  obtain ⟨rs, part, hs, e, h1, h2, h3, h4, -, -⟩ := C155_rest env k db events hr i hi hrest
  obtain ⟨rs', part', hs', e', h1', h2', h3', h4', -, -⟩ := C155_rest env' k' db' events' hr' j hj hrest'
  have hp : part = part' := by
    by_cases h : NetEvent.hangup i ∈ events
    · rw [if_pos h] at h1; rw [if_pos (hh.mp h)] at h1'; rw [h1, h1', ha]
    · rw [if_neg h] at h1; rw [if_neg (fun h' => h (hh.mpr h'))] at h1'; rw [ha] at h1; exact whole_unique h1 h1'
  subst hp
  obtain ⟨rfl, rfl⟩ := hears_unique h2 h2'
  have hpart : (101 : UInt8) ∉ part := by
    split at h1
    · rw [h1]; exact hn
    · obtain ⟨rest, h, -⟩ := h1
      exact fun hm => hn (by rw [h]; exact List.mem_append_left _ hm)
  rw [h4, h4']
  exact (all2_same h3 h3').2 (hears_stats h2 (by simpa [lines_flatten_all] using hpart)) env env'

/-- **C220.** The same when what is in transit takes up room and clients are slow to read, for connections on which reading and
writing have not failed. -/
theorem C220_slow (env env' : Env) (a b a' b' k k' : Nat) (hb : 0 < b) (hb' : 0 < b') (db db' : Db) (events events' : List FlowEvent)
    (hr : Roomy (1 + events.length) db.ctrs) (hr' : Roomy (1 + events'.length) db'.ctrs) (i j : Nat) (hi : i < k) (hj : j < k')
    (ha : accepted env a b i (FlowNet.start k db) events = accepted env' a' b' j (FlowNet.start k' db') events')
    (hh : .hangup i ∈ events ↔ .hangup j ∈ events')
    (hq : Quiet env a b ((FlowNet.start k db).exec env a b events) i)
    (hq' : Quiet env' a' b' ((FlowNet.start k' db').exec env' a' b' events') j)
    (hf : ¬ FlowFailed ((FlowNet.start k db).exec env a b events) i)
    (hf' : ¬ FlowFailed ((FlowNet.start k' db').exec env' a' b' events') j) :
    (∃ rs rs', readBy ((FlowNet.start k db).exec env a b events) i = wire env rs ∧
      readBy ((FlowNet.start k' db').exec env' a' b' events') j = wire env' rs' ∧ All2 SameButNumbers rs rs') ∧
    (∀ e, FlowOver ((FlowNet.start k db).exec env a b events) i e ↔ FlowOver ((FlowNet.start k' db').exec env' a' b' events') j e) ∧
    ((101 : UInt8) ∉ accepted env a b i (FlowNet.start k db) events →
      readBy ((FlowNet.start k db).exec env a b events) i = readBy ((FlowNet.start k' db').exec env' a' b' events') j) := by
  obtain ⟨rs, part, hs, e, h1, h2, h3, h4, h5, h6⟩ := C174_rest env a b k hb db events hr i hi hq hf
  obtain ⟨rs', part', hs', e', h1', h2', h3', h4', h5', h6'⟩ := C174_rest env' a' b' k' hb' db' events' hr' j hj hq' hf'
  have hp : part = part' := by
    by_cases h : FlowEvent.hangup i ∈ events
    · rw [if_pos h] at h1; rw [if_pos (hh.mp h)] at h1'; rw [h1, h1', ha]
    · rw [if_neg h] at h1; rw [if_neg (fun h' => h (hh.mpr h'))] at h1'; rw [ha] at h1; exact whole_unique h1 h1'
  subst hp
  obtain ⟨rfl, rfl⟩ := hears_unique h2 h2'
  refine ⟨⟨rs, rs', h4, h4', (all2_same h3 h3').1⟩, fun x => ?_, fun hn => ?_⟩
  · cases x with
    | closed => rw [h6, h6', hh]
    | panicked => rw [h5, h5']
  · have hpart : (101 : UInt8) ∉ part := by
      split at h1
      · rw [h1]; exact hn
      · obtain ⟨rest, h, -⟩ := h1
        exact fun hm => hn (by rw [h]; exact List.mem_append_left _ hm)
    rw [h4, h4']
    exact (all2_same h3 h3').2 (hears_stats h2 (by simpa [lines_flatten_all] using hpart)) env env'

/-- An unreadable line and an Echo of nothing, alone. -/
def aloneBefore : List NetEvent := [.arrive 0 [255, 10, 100, 1, 0, 0, 0, 0, 10]]

/-- The same in pieces, while another client asks for statistics. -/
def crowdBefore : List NetEvent := [.arrive 0 [101, 10], .arrive 1 [255], .turn 0, .turn 1, .arrive 1 [10, 100], .turn 0,
  .arrive 1 [1, 0, 0, 0, 0, 10]]

theorem alone_rests : AtRest (sampleEnv .debug) ((Net.start 1 (sampleDb [])).exec (sampleEnv .debug)
    (aloneBefore ++ List.replicate 66 (.turn 0))) 0 :=
  C155_soon _ _ _ _ _ _ (by decide) (fun e he => by rw [(List.mem_replicate.mp he).2]; simp) (by decide +kernel)

theorem crowd_rests : AtRest (sampleEnv .release) ((Net.start 2 countedDb).exec (sampleEnv .release)
    (crowdBefore ++ List.replicate 66 (.turn 1))) 1 :=
  C155_soon _ _ _ _ _ _ (by decide) (fun e he => by rw [(List.mem_replicate.mp he).2]; simp) (by decide +kernel)

example := C220_alone (sampleEnv .debug) (sampleEnv .release) 1 2 (sampleDb []) countedDb _ _
  (by intro m; cases m <;> decide +kernel) (by intro m; cases m <;> decide +kernel) 0 1 (by decide) (by decide)
  (by decide +kernel) (by decide +kernel) alone_rests crowd_rests

example := C220_same_bytes (sampleEnv .debug) (sampleEnv .release) 1 2 (sampleDb []) countedDb _ _
  (by intro m; cases m <;> decide +kernel) (by intro m; cases m <;> decide +kernel) 0 1 (by decide) (by decide)
  (by decide +kernel) (by decide +kernel) alone_rests crowd_rests (by decide +kernel)

/-- Something has been sent. -/
example : (sentTo ((Net.start 1 (sampleDb [])).exec (sampleEnv .debug) (aloneBefore ++ List.replicate 66 (.turn 0))) 0).length = 13 := by
  decide +kernel

/-- Beside C220_slow: a client with room for a byte and a neighbour that does not read, and a client alone with ample room. -/
def ampleRoom : List FlowEvent := [.send 0 [255, 10]] ++ List.replicate 10 (.turn 0) ++ [.read 0 100]

example : readBy ((FlowNet.start 2 (sampleDb [])).exec (sampleEnv .debug) 4 1 slowReader) 0 =
    readBy ((FlowNet.start 1 countedDb).exec (sampleEnv .release) 64 64 ampleRoom) 0 := by
  have h : idle ((FlowNet.start 2 (sampleDb [])).exec (sampleEnv .debug) 4 1 slowReader) 0 = true := by decide +kernel
  have h' : idle ((FlowNet.start 1 countedDb).exec (sampleEnv .release) 64 64 ampleRoom) 0 = true := by decide +kernel
  exact (C220_slow (sampleEnv .debug) (sampleEnv .release) 4 1 64 64 2 1 (by decide) (by decide) (sampleDb []) countedDb slowReader
    ampleRoom (sampleDb_roomy _ _ (by decide)) (by intro m; cases m <;> decide +kernel) 0 0 (by decide) (by decide)
    (by decide +kernel) (by decide +kernel) (idle_quiet h).1 (idle_quiet h').1
    (idle_quiet (env := sampleEnv .debug) (a := 4) (b := 1) h).2
    (idle_quiet (env := sampleEnv .release) (a := 64) (b := 64) h').2).2.2 (by decide +kernel)

end Hop
