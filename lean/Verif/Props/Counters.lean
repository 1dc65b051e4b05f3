import Verif.Props.Engine
import Verif.Spec.Counters

/-! # Counters: C24, C25 -/

namespace Hop

open Spec

theorem i64OfBytes_take (n : Int64) (junk : Bytes) :
    8 ≤ (beBytes 8 n.toUInt64.toNat ++ junk).length ∧
    i64OfBytes ((beBytes 8 n.toUInt64.toNat ++ junk).take 8) = n := by
  have hl : (beBytes 8 n.toUInt64.toNat).length = 8 := beBytes_length _ _
  refine ⟨by rw [List.length_append, hl]; omega, ?_⟩
  rw [List.take_append_of_le_length (by omega), List.take_of_length_le (by omega)]
  exact i64OfBytes_i64Bytes n

theorem ofInt_toInt_add (x n : Int) : Int64.ofInt ((Int64.ofInt x).toInt + n) = Int64.ofInt (x + n) := by
  rw [Int64.ofInt_add, Int64.ofInt_toInt, ← Int64.ofInt_add]

theorem toInt_ofInt {x : Int} (h : inRange x) : (Int64.ofInt x).toInt = x := by
  obtain ⟨h1, h2⟩ := h
  rw [Int64.toInt_ofInt_of_le h1 (by simpa using h2)]

/-- A call that spells a counter operation adds its amount. -/
theorem execute_counter {env : Env} {ctrs : Metric → Option Nat} {k : Bytes} {o : CounterOp} {c : Call}
    (h : o.Spells k c) (s : Store) (hm : env.mode = .release ∨ ∀ n, o = .decBy n → n.toInt ≠ -2 ^ 63) :
    execute env ctrs c.cmd c.kt c.args s = addInteger env.mode k o.amount s := by
  obtain ⟨cmd, kt, args⟩ := c
  cases o with
  | inc =>
    obtain ⟨h1, h2, more, h3⟩ := h
    simp only at h1 h2 h3
    subst h1 h3
    simp only [execute, if_neg h2, CounterOp.amount]
  | dec =>
    obtain ⟨h1, h2, more, h3⟩ := h
    simp only at h1 h2 h3
    subst h1 h3
    simp only [execute, if_neg h2, CounterOp.amount]
  | incBy n =>
    obtain ⟨h1, junk, more, h3⟩ := h
    simp only at h1 h3
    subst h1 h3
    obtain ⟨hl, hn⟩ := i64OfBytes_take n junk
    simp only [execute, if_pos hl, hn, CounterOp.amount]
  | decBy n =>
    obtain ⟨h1, junk, more, h3⟩ := h
    simp only at h1 h3
    subst h1 h3
    obtain ⟨hl, hn⟩ := i64OfBytes_take n junk
    have hn' : ¬ (env.mode = .debug ∧ n.toInt = -2 ^ 63) := by
      rintro ⟨hd, hmin⟩
      rcases hm with hm | hm
      · rw [hm] at hd; simp at hd
      · exact hm n rfl hmin
    simp only [execute, if_pos hl, hn, CounterOp.amount, if_neg hn']

theorem performAll_counters {env : Env} {k : Bytes} {os : List CounterOp} {cs : List Call} (h : SpellAll k os cs)
    (hu : ¬ unusable env.mode k) (x : Int) (db : Db) (hx : (db.keys k).getD (.integer 0) = .integer (Int64.ofInt x))
    (hov : env.mode = .release ∨ (inRange x ∧ NoOverflow x os)) :
    (performAll env cs db).1 = (totals x os).map (fun t => .value (.integer (Int64.ofInt t))) ∧
    (performAll env cs db).2.keys =
      (if os = [] then db.keys else Store.put db.keys k (some (.integer (Int64.ofInt (x + total os))))) := by
  induction h generalizing x db with
  | nil => exact ⟨rfl, rfl⟩
  | @cons o c os cs ho hs ih =>
    have hov1 : env.mode = .release ∨ ∀ n, o = .decBy n → n.toInt ≠ -2 ^ 63 :=
      hov.imp id fun h n hn => h.2.2 n (by rw [hn]; simp)
    have hex : execute env db.ctrs c.cmd c.kt c.args db.keys =
        (.value (.integer (Int64.ofInt (x + o.amount))),
          Store.put db.keys k (some (.integer (Int64.ofInt (x + o.amount))))) := by
      rw [execute_counter ho _ hov1, addInteger, if_neg hu, hx]
      dsimp only
      rw [if_pos, ofInt_toInt_add]
      refine hov.symm.imp (fun h => ?_) id
      rw [toInt_ofInt h.1]
      exact h.2.1 _ (by simp [totals])
    simp only [performAll, perform, hex, totals, List.map_cons]
    have hk : ((Store.put db.keys k (some (.integer (Int64.ofInt (x + o.amount))))) k).getD (.integer 0) =
        .integer (Int64.ofInt (x + o.amount)) := by rw [put_apply_self]; rfl
    have hov' : env.mode = .release ∨ (inRange (x + o.amount) ∧ NoOverflow (x + o.amount) os) := by
      refine hov.imp id fun h => ⟨h.2.1 _ (by simp [totals]), ?_, ?_⟩
      · intro t ht; exact h.2.1 t (by simp [totals, ht])
      · intro n hn; exact h.2.2 n (by simp [hn])
    obtain ⟨h1, h2⟩ := ih (x + o.amount)
      { keys := Store.put db.keys k (some (.integer (Int64.ofInt (x + o.amount))))
        ctrs := tally db.ctrs (.value (.integer (Int64.ofInt (x + o.amount)))) } hk hov'
    rw [h1, h2]
    refine ⟨rfl, ?_⟩
    rw [if_neg (c := o :: os = []) (by simp)]
    split
    · subst_vars; simp [total]
    · simp only [put_put, total, List.map_cons, List.sum_cons, Int.add_assoc]

/-! ## C24 Counters count -/

/-- C24. Any sequence (of any length) of Increment, Decrement, IncrementBy and DecrementBy requests on a key
that is missing or holds an integer: every response carries the running total and the key ends with start
plus sum. In a release build always (totals wrapped to 64 bits), in a debug build if nothing overflows. -/
theorem C24_counters_count {env : Env} {k : Bytes} {h : List (Request × Bytes)} {cs : List Call}
    {os : List CounterOp} (hs : Sees h cs) (hsp : SpellAll k os cs) (hu : ¬ unusable env.mode k)
    (start : Int64) (db : Db) (hstart : (db.keys k).getD (.integer 0) = .integer start)
    (hc : Roomy h.length db.ctrs)
    (hov : env.mode = .release ∨ NoOverflow start.toInt os) :
    (serveAll env h db).1 = List.zipWith
      (fun rb t => .ok (rb.2 ++ frame (.value (.integer (Int64.ofInt t))))) h (totals start.toInt os) ∧
    (os ≠ [] → (serveAll env h db).2.keys = fun k' =>
      if k' = k then some (.integer (Int64.ofInt (start.toInt + total os))) else db.keys k') := by
  have hst : (db.keys k).getD (.integer 0) = .integer (Int64.ofInt start.toInt) := by
    rw [hstart, Int64.ofInt_toInt]
  obtain ⟨h1, h2⟩ := performAll_counters hsp hu start.toInt db hst
    (hov.imp id fun h => ⟨⟨Int64.le_toInt _, Int64.toInt_lt _⟩, h⟩)
  have := C48_history env h cs db hs hc (by
    rw [h1]; intro a ha
    simp only [List.mem_map] at ha
    obtain ⟨t, -, rfl⟩ := ha
    exact deliverable_int _ _)
  rw [this]
  refine ⟨?_, fun hne => ?_⟩
  · rw [h1, List.zipWith_map_right]
    rfl
  · rw [h2, if_neg hne]
    rfl

/-- C24, in range: the stored 64-bit number really is the mathematical sum. -/
theorem C24_total_exact (start : Int64) (os : List CounterOp) (h : inRange (start.toInt + total os)) :
    (Int64.ofInt (start.toInt + total os)).toInt = start.toInt + total os := toInt_ofInt h

/-- C24, overflow in a debug build: panic, and nothing changed. -/
theorem C24_overflow_debug {env : Env} {r : Request} {c : Call} {k : Bytes} {o : CounterOp}
    (hv : Views r c.cmd c.kt c.args) (ho : o.Spells k c) (hm : env.mode = .debug) (resp : Bytes) (db : Db)
    (i : Int64) (hk : db.keys k = some (.integer i)) (hov : ¬ inRange (i.toInt + o.amount)) (hc : Roomy 1 db.ctrs) :
    (dispatch env r resp).run db = (.panic, db) := by
  have hcrash : ∀ n : Int, ¬ inRange (i.toInt + n) → addInteger env.mode k n db.keys = (.crash, db.keys) := by
    intro n hn
    by_cases hu : unusable env.mode k
    · rw [addInteger, if_pos hu]
    · rw [addInteger, if_neg hu, hk]
      simp only [Option.getD_some]
      rw [if_neg]
      rintro (h | h)
      · exact hn h
      · rw [hm] at h; simp at h
  have hx : execute env db.ctrs c.cmd c.kt c.args db.keys = (.crash, db.keys) := by
    by_cases hd : ∃ n, o = .decBy n ∧ n.toInt = -2 ^ 63
    · obtain ⟨n, rfl, hn⟩ := hd
      obtain ⟨cmd, kt, args⟩ := c
      obtain ⟨h1, junk, more, h3⟩ := ho
      simp only at h1 h3
      subst h1 h3
      obtain ⟨hl, hn'⟩ := i64OfBytes_take n junk
      simp only [execute, if_pos hl, hn', hm, hn, true_and, if_true]
    · rw [execute_counter ho _ (Or.inr fun n hn hmin => hd ⟨n, hn, hmin⟩)]
      exact hcrash _ hov
  have := dispatch_crash hv resp db hc hx
  rw [this]

/-- The finding beside C24: in a debug build DecrementBy the smallest number panics whatever is stored, even
if the total would be in range. -/
theorem C24_decrement_by_min_panics {env : Env} {r : Request} {kt : Option KeyType} {k : Bytes} {more : List Bytes}
    (hv : Views r .decrementBy kt (k :: [128, 0, 0, 0, 0, 0, 0, 0] :: more)) (hm : env.mode = .debug) (resp : Bytes)
    (db : Db) (hc : Roomy 1 db.ctrs) : (dispatch env r resp).run db = (.panic, db) := by
  have hx : execute env db.ctrs .decrementBy kt (k :: [128, 0, 0, 0, 0, 0, 0, 0] :: more) db.keys = (.crash, db.keys) := by
    have h1 : 8 ≤ ([128, 0, 0, 0, 0, 0, 0, 0] : Bytes).length := by decide
    have h2 : (i64OfBytes (([128, 0, 0, 0, 0, 0, 0, 0] : Bytes).take 8)).toInt = -2 ^ 63 := by decide +kernel
    simp only [execute, if_pos h1, hm, h2, true_and, if_true]
  rw [dispatch_crash hv resp db hc hx]

/-- Beside C24: a missing key, four operations, debug build. -/
example : (serveAll (sampleEnv .debug)
    [(call .increment none [[107]], []), (call .incrementBy (some .integer) [[107], [0, 0, 0, 0, 0, 0, 1, 0]], [1]),
      (call .decrement none [[107]], []), (call .decrementBy none [[107], [0, 0, 0, 0, 0, 0, 0, 6]], [])] (sampleDb [])).2.keys
    [107] = some (.integer 250) := by
  have := (C24_counters_count (env := sampleEnv .debug) (k := [107])
    (.cons (resp := []) (c := ⟨.increment, none, [[107]]⟩) (call_views _ _ _ (by decide) (by decide) (by decide))
      (.cons (resp := [1]) (c := ⟨.incrementBy, some .integer, [[107], [0, 0, 0, 0, 0, 0, 1, 0]]⟩) (call_views _ _ _ (by decide) (by decide) (by decide))
      (.cons (resp := []) (c := ⟨.decrement, none, [[107]]⟩) (call_views _ _ _ (by decide) (by decide) (by decide))
      (.cons (resp := []) (c := ⟨.decrementBy, none, [[107], [0, 0, 0, 0, 0, 0, 0, 6]]⟩) (call_views _ _ _ (by decide) (by decide) (by decide)) .nil))))
    (os := [.inc, .incBy 256, .dec, .decBy 6])
    (.cons ⟨rfl, by decide, [], rfl⟩ (.cons ⟨rfl, [], [], by decide +kernel⟩ (.cons ⟨rfl, by decide, [], rfl⟩
      (.cons ⟨rfl, [], [], by decide +kernel⟩ .nil))))
    (by decide +kernel) 0 (sampleDb []) (by decide +kernel) (sampleDb_roomy _ _ (by decide))
    (Or.inr ⟨by decide +kernel, by
      intro n hn
      simp at hn
      subst hn
      decide +kernel⟩)).2 (by simp)
  rw [this]
  decide +kernel

/-! ## C25 Float counters add floats -/

/-- C25 as stated, in its two parts: amounts of eight bytes are added to / subtracted from a float key;
Increment and Decrement with key type float create a missing key. -/
def C25_Statement : Prop :=
  (∀ (env : Env) (r : Request) (k : Bytes) (kt : Option KeyType) (f g : F64) (resp : Bytes) (db : Db),
    Views r .incrementBy kt [k, beBytes 8 g.bits.toNat] → ¬ unusable env.mode k → db.keys k = some (.float f) →
    Roomy 1 db.ctrs →
    ((dispatch env r resp).run db).2.keys k = some (.float (env.fadd f g))) ∧
  (∀ (env : Env) (r : Request) (k : Bytes) (resp : Bytes) (db : Db),
    Views r .increment (some .float) [k] → ¬ unusable env.mode k → db.keys k = none → Roomy 1 db.ctrs →
    ∃ f out, ((dispatch env r resp).run db).1 = .ok out ∧ ((dispatch env r resp).run db).2.keys k = some (.float f))

/-- C25 is false of the code, in both parts: an amount of eight bytes is always taken as an integer, which a
float key refuses; a missing key is created as an integer, which is then refused as well. -/
theorem C25_false : ¬ C25_Statement ∧
    ¬ (∀ (env : Env) (r : Request) (k : Bytes) (kt : Option KeyType) (f g : F64) (resp : Bytes) (db : Db),
      Views r .incrementBy kt [k, beBytes 8 g.bits.toNat] → ¬ unusable env.mode k → db.keys k = some (.float f) →
      Roomy 1 db.ctrs → ((dispatch env r resp).run db).2.keys k = some (.float (env.fadd f g))) ∧
    ¬ (∀ (env : Env) (r : Request) (k : Bytes) (resp : Bytes) (db : Db),
      Views r .increment (some .float) [k] → ¬ unusable env.mode k → db.keys k = none → Roomy 1 db.ctrs →
      ∃ f out, ((dispatch env r resp).run db).1 = .ok out ∧ ((dispatch env r resp).run db).2.keys k = some (.float f)) := by
  have h1 : ¬ (∀ (env : Env) (r : Request) (k : Bytes) (kt : Option KeyType) (f g : F64) (resp : Bytes) (db : Db),
      Views r .incrementBy kt [k, beBytes 8 g.bits.toNat] → ¬ unusable env.mode k → db.keys k = some (.float f) →
      Roomy 1 db.ctrs → ((dispatch env r resp).run db).2.keys k = some (.float (env.fadd f g))) := by
    intro h
    have := h (sampleEnv .release) (call .incrementBy (some .float) [[107], beBytes 8 1]) [107] (some .float) ⟨2⟩ ⟨1⟩ []
      (sampleDb [([107], .float ⟨2⟩)]) (call_views _ _ _ (by decide) (by decide) (by decide)) (by decide +kernel)
      (by decide +kernel) (sampleDb_roomy _ _ (by decide))
    revert this
    decide +kernel
  refine ⟨fun h => h1 h.1, h1, ?_⟩
  intro h
  obtain ⟨f, out, h2, -⟩ := h (sampleEnv .release) (call .increment (some .float) [[107]]) [107] []
    (sampleDb []) (call_views _ _ _ (by decide) (by decide) (by decide)) (by decide +kernel)
    (by decide +kernel) (sampleDb_roomy _ _ (by decide))
  have h3 : ((dispatch (sampleEnv .release) (call .increment (some .float) [[107]]) []).run (sampleDb [])).1 =
      .err .keyTypeDifferent := by decide +kernel
  rw [h3] at h2
  simp at h2

/-- C25, the part that holds: Increment and Decrement with key type float on an existing float key add 1.0
and -1.0 (float addition is that of the machine, a parameter). -/
theorem C25_increment_float_partial {env : Env} {r : Request} {c : CommandId} {k : Bytes} {more : List Bytes}
    (hcmd : c = .increment ∨ c = .decrement) (hv : Views r c (some .float) (k :: more)) (resp : Bytes) (db : Db)
    (f : F64) (hu : ¬ unusable env.mode k) (hk : db.keys k = some (.float f)) (hc : Roomy 1 db.ctrs) :
    ∃ g, g = env.fadd f (if c = .increment then ⟨0x3FF0000000000000⟩ else ⟨0xBFF0000000000000⟩) ∧
      (dispatch env r resp).run db = (.ok (resp ++ frame (.value (.float g))),
        { keys := fun k' => if k' = k then some (.float g) else db.keys k'
          ctrs := counted db.ctrs .commandsSuccessful }) := by
  refine ⟨_, rfl, ?_⟩
  have hx : execute env db.ctrs c (some .float) (k :: more) db.keys =
      (.value (.float (env.fadd f (if c = .increment then ⟨0x3FF0000000000000⟩ else ⟨0xBFF0000000000000⟩))),
       Store.put db.keys k (some (.float (env.fadd f (if c = .increment then ⟨0x3FF0000000000000⟩ else ⟨0xBFF0000000000000⟩))))) := by
    rcases hcmd with rfl | rfl <;> simp only [execute, if_true, addFloat, if_neg hu, hk] <;> rfl
  exact dispatch_value hv resp db hc hx (writeValue_deliverable (deliverable_float _ _) resp)

/-- C55. What IncrementBy and DecrementBy really do to a key that holds no integer: whatever the amount
and key type, an error, and nothing changes. -/
theorem C55_by_refuses_non_integers {env : Env} {r : Request} {c : CommandId} {kt : Option KeyType} {k a : Bytes}
    {more : List Bytes} (hcmd : c = .incrementBy ∨ c = .decrementBy) (hv : Views r c kt (k :: a :: more))
    (resp : Bytes) (db : Db) (v : Value) (hu : ¬ unusable env.mode k) (hk : db.keys k = some v)
    (hi : v.kind ≠ .integer) (hmin : env.mode = .release ∨ a.take 8 ≠ [128, 0, 0, 0, 0, 0, 0, 0])
    (hc : Roomy 1 db.ctrs) :
    ((dispatch env r resp).run db).1 = .err (if 8 ≤ a.length then .keyTypeDifferent else .argumentRetrieval) ∧
    ((dispatch env r resp).run db).2.keys = db.keys := by
  have hadd : ∀ n, addInteger env.mode k n db.keys = (.error .keyTypeDifferent, db.keys) := by
    intro n
    rw [addInteger, if_neg hu, hk]
    cases v <;> first | rfl | exact absurd rfl hi
  have hm : 8 ≤ a.length → ¬ (env.mode = .debug ∧ (i64OfBytes (a.take 8)).toInt = -2 ^ 63) := by
    rintro hl ⟨hd, hn⟩
    rcases hmin with h | h
    · rw [h] at hd; simp at hd
    · apply h
      have hlen : (a.take 8).length = 8 := by rw [List.length_take]; omega
      have : i64OfBytes (a.take 8) = i64OfBytes [128, 0, 0, 0, 0, 0, 0, 0] := by
        apply Int64.toInt_inj.mp
        rw [hn]; decide +kernel
      have h2 := congrArg i64Bytes this
      rwa [i64Bytes_i64OfBytes _ hlen, i64Bytes_i64OfBytes _ rfl] at h2
  have hx : execute env db.ctrs c kt (k :: a :: more) db.keys =
      (.error (if 8 ≤ a.length then .keyTypeDifferent else .argumentRetrieval), db.keys) := by
    by_cases hl : 8 ≤ a.length
    · rcases hcmd with rfl | rfl
      · simp only [execute, if_pos hl, hadd]
      · simp only [execute, if_pos hl, hadd, if_neg (hm hl)]
    · rcases hcmd with rfl | rfl <;> simp only [execute, if_neg hl]
  rw [dispatch_error hv resp db hc hx]
  exact ⟨rfl, rfl⟩

example : ((dispatch (sampleEnv .debug) (call .decrementBy (some .float) [[107], beBytes 8 7]) []).run
    (sampleDb [([107], .float ⟨2⟩)])).1 = .err .keyTypeDifferent :=
  (C55_by_refuses_non_integers (Or.inr rfl) (call_views _ _ _ (by decide) (by decide) (by decide)) [] _ (.float ⟨2⟩)
    (by decide +kernel) (by decide +kernel) (by decide) (Or.inr (by decide)) (sampleDb_roomy _ _ (by decide))).1

example : ((dispatch (sampleEnv .debug) (call .increment (some .float) [[107]]) []).run
    (sampleDb [([107], .float ⟨2⟩)])).2.keys [107] = some (.float ⟨2 + 0x3FF0000000000000⟩) := by
  obtain ⟨g, hg, h⟩ := C25_increment_float_partial (env := sampleEnv .debug) (Or.inl rfl)
    (call_views .increment (some .float) [[107]] (by decide) (by decide) (by decide)) [] (sampleDb [([107], .float ⟨2⟩)]) ⟨2⟩
    (by decide +kernel) (by decide +kernel) (sampleDb_roomy _ _ (by decide))
  rw [h, hg]; rfl

/-! ## Further concrete cases -/

example (resp : Bytes) : (dispatch (sampleEnv .debug) (call .decrementBy none [[107], [128, 0, 0, 0, 0, 0, 0, 0]]) resp).run (sampleDb [([107], .integer 1)]) =
    (.panic, sampleDb [([107], .integer 1)]) :=
  C24_decrement_by_min_panics (more := []) (call_views _ _ _ (by decide) (by decide) (by decide)) rfl resp _ (by intro m; simp [sampleDb])

/-- One more than the greatest integer. -/
example (resp : Bytes) : (dispatch (sampleEnv .debug) (call .increment none [[107]]) resp).run (sampleDb [([107], .integer (Int64.ofInt (2 ^ 63 - 1)))]) =
    (.panic, sampleDb [([107], .integer (Int64.ofInt (2 ^ 63 - 1)))]) :=
  C24_overflow_debug (c := ⟨.increment, none, [[107]]⟩) (k := [107]) (o := .inc) (call_views _ _ _ (by decide) (by decide) (by decide))
    ⟨rfl, by decide, [], rfl⟩ rfl resp _ _ rfl (by decide) (by intro m; simp [sampleDb])

example : (Int64.ofInt ((5 : Int64).toInt + total [.inc, .decBy 8])).toInt = -2 := C24_total_exact 5 [.inc, .decBy 8] (by decide)

end Hop
