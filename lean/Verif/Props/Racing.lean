import Verif.Props.Exclusive

/-! # C33, C35: races on a key that is missing, or being set -/

namespace Hop

open Spec Prog

/-! ## C33 Concurrent counters on a missing key -/

/-- C33 as stated, for two clients: concurrent Increments of a missing key count both. -/
def C33_Statement : Prop :=
  ∀ (env : Env) (r1 r2 : Request) (resp1 resp2 : Bytes) (k : Bytes) (db : Db) (sched : List Nat),
    Views r1 .increment none [k] → Views r2 .increment none [k] → ¬ unusable env.mode k → db.keys k = none →
    Roomy 2 db.ctrs → ((Pool.start env [(r1, resp1), (r2, resp2)] db).exec sched).finished →
    ((Pool.start env [(r1, resp1), (r2, resp2)] db).exec sched).db.keys k = some (.integer 2)

/-- It is false: both clients find the key missing; the first creates it and increments; the second creates it
again, with zero, and increments. The final value is 1. -/
theorem C33_false : ¬ C33_Statement := by
  intro h
  have h1 := h (sampleEnv .debug) (call .increment none [[1]]) (call .increment none [[1]]) [] [] [1] (sampleDb [])
    [0, 1, 0, 0, 0, 1, 1, 1] (call_views _ _ _ (by decide) (by decide) (by decide))
    (call_views _ _ _ (by decide) (by decide) (by decide)) (by decide) (by decide +kernel) (sampleDb_roomy _ _ (by decide))
    (finished_of_live (by decide +kernel))
  revert h1
  decide +kernel

/-- The sizes of the amounts together stay below the 64-bit limit. -/
def Spec.Small (os : List CounterOp) : Prop := (os.map fun o => o.amount.natAbs).sum < 2 ^ 63

/-- What a client does to the counter: an operation, or nothing (`none`). -/
def Spec.RaceRole (k : Bytes) : Option CounterOp → Call → Prop
  | some o, c => o.Spells k c
  | none, c => Bystander k c

/-- What an integer counter operation does with the value it finds. -/
def countBody (env : Env) (resp : Bytes) (a : Int64) (v : Value) : Value × Outcome DispatchError Bytes :=
  match v with
  | .integer i =>
    match addI64 env.mode i a with
    | some j => (.integer j, .ok (Response.writeInt resp j))
    | none => (.integer i, .panic)
  | v => (v, .err .keyTypeDifferent)

/-- A counter operation with `n` attempts left. -/
def counting (env : Env) (k resp : Bytes) (a : Int64) (n : Nat) : Prog Bytes :=
  (keyOrInsertLoop k (.integer 0) (countBody env resp a) n).andThen (countOutcome env)

/-- A counter operation about to create the key. -/
def creating (env : Env) (k resp : Bytes) (a : Int64) (n : Nat) : Prog Bytes :=
  (insertKey k (.integer 0) (keyOrInsertLoop k (.integer 0) (countBody env resp a) n)).andThen (countOutcome env)

theorem counter_begin {env : Env} {r : Request} {k : Bytes} {c : Call} {o : CounterOp} (hv : Views r c.cmd c.kt c.args)
    (ho : o.Spells k c) (hu : ¬ unusable env.mode k) (hov : env.mode = .release ∨ ∀ n, o = .decBy n → n.toInt ≠ -2 ^ 63)
    (resp : Bytes) : dispatch env r resp = counting env k resp (Int64.ofInt o.amount) (env.spins + 2) := by
  have hint : ∀ a, incrementIntBy env k a resp = keyOrInsertLoop k (.integer 0) (countBody env resp a) (env.spins + 2) := by
    intro a
    unfold incrementIntBy keyOrInsertWith
    rw [if_neg (fun h => hu (Or.inl ((isInternal_iff k).mp h))), if_neg (fun h => hu (Or.inr h))]
    rfl
  obtain ⟨cmd, kt, args⟩ := c
  unfold dispatch command counting
  rw [hv.command]
  cases o with
  | inc =>
    obtain ⟨h1, h2, more, h3⟩ := ho
    simp only at h1 h2 h3 hv
    subst h1 h3
    dsimp only
    unfold dispatchIncrement
    rw [key_eq hv (by simp [CommandId.keyNotation])]
    simp only [List.getElem?_cons_zero, Prog.orErr]
    rw [hv.keyType, if_neg h2, hint]
    rfl
  | dec =>
    obtain ⟨h1, h2, more, h3⟩ := ho
    simp only at h1 h2 h3 hv
    subst h1 h3
    dsimp only
    unfold dispatchDecrement
    rw [key_eq hv (by simp [CommandId.keyNotation])]
    simp only [List.getElem?_cons_zero, Prog.orErr]
    rw [hv.keyType, if_neg h2, hint]
    rfl
  | incBy n =>
    obtain ⟨h1, junk, more, h3⟩ := ho
    simp only at h1 h3 hv
    subst h1 h3
    obtain ⟨hl, hn⟩ := i64OfBytes_take n junk
    dsimp only
    unfold dispatchIncrementBy
    rw [key_eq hv (by simp [CommandId.keyNotation]), hv.arg 1]
    simp only [List.getElem?_cons_zero, List.getElem?_cons_succ, Prog.orErr, Option.bind_some]
    rw [convInt_eq, if_pos hl, hn]
    simp only [hint, CounterOp.amount, Int64.ofInt_toInt]
  | decBy n =>
    obtain ⟨h1, junk, more, h3⟩ := ho
    simp only at h1 h3 hv
    subst h1 h3
    obtain ⟨hl, hn⟩ := i64OfBytes_take n junk
    dsimp only
    unfold dispatchDecrementBy
    rw [key_eq hv (by simp [CommandId.keyNotation]), hv.arg 1]
    simp only [List.getElem?_cons_zero, List.getElem?_cons_succ, Prog.orErr, Option.bind_some]
    rw [convInt_eq, if_pos hl, hn]
    simp only
    rw [negI64_eq, if_neg]
    · simp only [hint, CounterOp.amount]
    · rintro ⟨h1, h2⟩
      rcases hov with h | h
      · rw [h] at h1; cases h1
      · exact h n rfl h2

theorem counting_ne (env : Env) (k resp : Bytes) (a : Int64) (n : Nat) :
    counting env k resp a n ≠ counting env k resp a (n + 1) := by
  unfold counting
  induction n with
  | zero => intro h; simp [keyOrInsertLoop, Prog.andThen, countOutcome] at h
  | succ n ih =>
    intro h
    conv at h => lhs; unfold keyOrInsertLoop
    conv at h => rhs; unfold keyOrInsertLoop
    simp only [Prog.andThen, Prog.onKey.injEq, true_and] at h
    have h := congrFun h none
    simp only [insertKey, Prog.andThen, Prog.onKey.injEq, true_and] at h
    exact ih (congrFun h none)

/-- The operations with the given indices. -/
def opsOf (os : List (Option CounterOp)) (order : List Nat) : List CounterOp := present (pick os order)

theorem opsOf_snoc {os : List (Option CounterOp)} {order : List Nat} {i : Nat} {o : CounterOp} (h : os[i]? = some (some o)) :
    opsOf os (order ++ [i]) = opsOf os order ++ [o] := by
  simp [opsOf, present, pick, h]

theorem opsOf_length {os : List (Option CounterOp)} {order : List Nat} (h : ∀ i ∈ order, ∃ o, os[i]? = some (some o)) :
    (opsOf os order).length = order.length := by
  induction order with
  | nil => rfl
  | cons i order ih =>
    obtain ⟨o, ho⟩ := h i (by simp)
    have e : opsOf os (i :: order) = o :: opsOf os order := by simp [opsOf, present, pick, ho]
    rw [e, List.length_cons, List.length_cons, ih fun j hj => h j (by simp [hj])]

theorem total_append (a b : List CounterOp) : total (a ++ b) = total a + total b := by
  simp [total]

theorem natAbs_total_le (os : List CounterOp) : (total os).natAbs ≤ (os.map fun o => o.amount.natAbs).sum := by
  induction os with
  | nil => simp [total]
  | cons o os ih =>
    simp only [total, List.map_cons, List.sum_cons] at ih ⊢
    omega

theorem sum_perm {l l' : List Nat} (h : l.Perm l') : l.sum = l'.sum := by
  induction h with
  | nil => rfl
  | cons x _ ih => simp [ih]
  | swap x y l => simp; omega
  | trans _ _ ih1 ih2 => rw [ih1, ih2]

/-- Operations of different clients are some of all operations. -/
theorem opsOf_small {os : List (Option CounterOp)} {order : List Nat} (hn : order.Nodup)
    (h : ∀ i ∈ order, ∃ o, os[i]? = some (some o)) :
    ((opsOf os order).map fun o => o.amount.natAbs).sum ≤ ((present os).map fun o => o.amount.natAbs).sum := by
  have hp : (order ++ (List.range os.length).filter (fun i => decide (i ∉ order))).Perm (List.range os.length) := by
    refine (List.perm_ext_iff_of_nodup ?_ List.nodup_range).mpr ?_
    · rw [List.nodup_append]
      refine ⟨hn, List.Pairwise.filter _ List.nodup_range, ?_⟩
      intro a ha b hb e
      simp only [List.mem_filter, decide_eq_true_eq] at hb
      exact hb.2 (e ▸ ha)
    · intro a
      simp only [List.mem_append, List.mem_filter, List.mem_range, decide_eq_true_eq]
      constructor
      · rintro (ha | ha)
        · obtain ⟨o, ho⟩ := h a ha
          exact (List.getElem?_eq_some_iff.mp ho).1
        · exact ha.1
      · intro ha
        by_cases e : a ∈ order
        · exact Or.inl e
        · exact Or.inr ⟨ha, e⟩
  have h1 : (present (pick os (order ++ (List.range os.length).filter (fun i => decide (i ∉ order))))).Perm (present os) :=
    (pick_perm os _ hp).filterMap _
  have h2 := sum_perm (h1.map fun o => o.amount.natAbs)
  rw [← h2]
  simp only [pick, present, opsOf, List.filterMap_append, List.map_append, List.sum_append]
  omega

/-- The state of the race: the operations in `order` have taken effect, those before position `m` have been
overwritten. -/
structure Race (env : Env) (k : Bytes) (os : List (Option CounterOp)) (rs : List (Request × Bytes)) (order : List Nat)
    (m : Nat) (p : Pool Bytes) : Prop where
  nodup : order.Nodup
  role : ∀ i ∈ order, ∃ o, os[i]? = some (some o)
  key : (p.db.keys k = none ∧ order = [] ∧ ∀ (i : Nat) o r resp, os[i]? = some (some o) → rs[i]? = some (r, resp) →
      p.threads[i]? ≠ some (counting env k resp (Int64.ofInt o.amount) (env.spins + 1))) ∨
    (p.db.keys k = some (.integer (Int64.ofInt (total ((opsOf os order).drop m)))) ∧ m ≤ order.length ∧
      (m < order.length ∨ ∃ (i : Nat) (o : CounterOp) (r : Request) (resp : Bytes), os[i]? = some (some o) ∧
        rs[i]? = some (r, resp) ∧ i ∉ order ∧
        p.threads[i]? = some (counting env k resp (Int64.ofInt o.amount) (env.spins + 1))))
  others : ∀ (i : Nat) t, p.threads[i]? = some t → os[i]? = some none → Writes (· ≠ k) t
  waiting : ∀ (i : Nat) t o r resp, p.threads[i]? = some t → os[i]? = some (some o) → rs[i]? = some (r, resp) → i ∉ order →
    t = counting env k resp (Int64.ofInt o.amount) (env.spins + 2) ∨
    t = creating env k resp (Int64.ofInt o.amount) (env.spins + 1) ∨
    t = counting env k resp (Int64.ofInt o.amount) (env.spins + 1)
  fired : ∀ (j i : Nat) r resp, order[j]? = some i → rs[i]? = some (r, resp) → ∃ t m', p.threads[i]? = some t ∧ m' ≤ j ∧
    Ends (.ok (resp ++ frame (.value (.integer (Int64.ofInt (total (((opsOf os order).take (j + 1)).drop m'))))))) t

theorem writeInt_frame (resp : Bytes) (i : Int64) : Response.writeInt resp i = resp ++ frame (.value (.integer i)) := by
  simp [Response.writeInt, frame, body, payload, valueCode]
  exact ⟨rfl, rfl⟩

theorem Race.step {env : Env} {k : Bytes} {os : List (Option CounterOp)} {rs : List (Request × Bytes)} {order : List Nat}
    {m : Nat} {p : Pool Bytes} (h : Race env k os rs order m p) (hb : Budget p) (hl : p.threads.length = rs.length)
    (hlo : os.length = rs.length) (hsmall : env.mode = .release ∨ Small (present os)) (i : Nat) :
    ∃ order' m', Race env k os rs order' m' (p.stepAt i) := by
  cases ht : p.threads[i]? with
  | none => rw [Pool.stepAt_none ht]; exact ⟨_, _, h⟩
  | some t =>
    obtain ⟨hself, hdb⟩ := Pool.stepAt_self ht
    have hoth := fun j (hj : j ≠ i) => Pool.stepAt_other p hj
    have hlt : i < rs.length := by rw [← hl]; exact (List.getElem?_eq_some_iff.mp ht).1
    obtain ⟨⟨r, resp⟩, hri⟩ : ∃ x, rs[i]? = some x := ⟨_, List.getElem?_eq_getElem hlt⟩
    obtain ⟨oo, hoi⟩ : ∃ x, os[i]? = some x := ⟨_, List.getElem?_eq_getElem (by omega)⟩
    -- a step that does not concern the counter
    have hquiet : (p.stepAt i).db.keys k = p.db.keys k → (∀ r' resp' o, os[i]? = some (some o) → rs[i]? = some (r', resp') →
        p.threads[i]? ≠ some (counting env k resp' (Int64.ofInt o.amount) (env.spins + 1)) ∧
        (t.step p.db).1 ≠ counting env k resp' (Int64.ofInt o.amount) (env.spins + 1)) →
        (os[i]? = some none → Writes (· ≠ k) (t.step p.db).1) →
        (∀ o, os[i]? = some (some o) → i ∉ order → (t.step p.db).1 = counting env k resp (Int64.ofInt o.amount) (env.spins + 2) ∨
          (t.step p.db).1 = creating env k resp (Int64.ofInt o.amount) (env.spins + 1) ∨
          (t.step p.db).1 = counting env k resp (Int64.ofInt o.amount) (env.spins + 1)) →
        (i ∈ order → ∀ r, Ends r t → Ends r (t.step p.db).1) →
        Race env k os rs order m (p.stepAt i) := by
      intro h1 h2 h3 h4 h5
      refine ⟨h.nodup, h.role, ?_, ?_, ?_, ?_⟩
      · rw [h1]
        rcases h.key with ⟨hk, ho, hn⟩ | ⟨hk, hm, hn⟩
        · left
          refine ⟨hk, ho, ?_⟩
          intro j o' r' resp' hoj hrj
          by_cases e : j = i
          · subst e
            rw [hself]
            intro e'
            exact (h2 r' resp' o' hoj hrj).2 (Option.some.inj e')
          · rw [hoth j e]; exact hn j o' r' resp' hoj hrj
        · right
          refine ⟨hk, hm, hn.imp id ?_⟩
          rintro ⟨j, o', r', resp', hoj, hrj, hjn, htj⟩
          have e : j ≠ i := by
            rintro rfl
            exact (h2 r' resp' o' hoj hrj).1 htj
          exact ⟨j, o', r', resp', hoj, hrj, hjn, by rw [hoth j e]; exact htj⟩
      · intro j t' htj hoj
        by_cases e : j = i
        · subst e; rw [hself] at htj; cases htj; exact h3 hoj
        · rw [hoth j e] at htj; exact h.others j t' htj hoj
      · intro j t' o' r' resp' htj hoj hrj hjn
        by_cases e : j = i
        · subst e
          rw [hself] at htj
          cases htj
          rw [hri] at hrj
          cases hrj
          exact h4 o' hoj hjn
        · rw [hoth j e] at htj; exact h.waiting j t' o' r' resp' htj hoj hrj hjn
      · intro j i' r' resp' hj hrj
        obtain ⟨t', m', ht', hm', he'⟩ := h.fired j i' r' resp' hj hrj
        by_cases e : i' = i
        · subst e
          rw [ht] at ht'
          cases ht'
          exact ⟨_, m', hself, hm', h5 (List.mem_of_getElem? hj) _ he'⟩
        · exact ⟨t', m', by rw [hoth i' e]; exact ht', hm', he'⟩
    cases oo with
    | none =>
      refine ⟨order, m, hquiet ?_ ?_ ?_ ?_ ?_⟩
      · rw [hdb]; exact (Writes.step (h.others i t ht hoi) p.db).2 k (by simp)
      · intro _ _ o ho; rw [hoi] at ho; cases ho
      · intro _; exact (Writes.step (h.others i t ht hoi) p.db).1
      · intro o ho; rw [hoi] at ho; cases ho
      · intro hi; obtain ⟨o, ho⟩ := h.role i hi; rw [hoi] at ho; cases ho
    | some o =>
      by_cases hi : i ∈ order
      · obtain ⟨j, hj⟩ := List.getElem?_of_mem hi
        obtain ⟨t', m', ht', -, he⟩ := h.fired j i r resp hj hri
        rw [ht] at ht'
        cases ht'
        have hes := Ends.step hb ht he
        have hne : ∀ (t : Prog Bytes) (r : Outcome DispatchError Bytes) resp' a n, Ends r t → t ≠ counting env k resp' a (n + 1) := by
          intro t r resp' a n he e
          subst e
          exact he
        refine ⟨order, m, hquiet ?_ ?_ ?_ ?_ ?_⟩
        · rw [hdb, hes.1]
        · intro r' resp' o' _ _
          rw [ht]
          exact ⟨fun e => hne _ _ _ _ _ he (Option.some.inj e), hne _ _ _ _ _ hes.2⟩
        · intro e; rw [hoi] at e; cases e
        · intro _ _ hn; exact absurd hi hn
        · intro _ r he'; exact (Ends.step hb ht he').2
      · -- taking effect
        have hlen := opsOf_length h.role
        have hrole' : ∀ i' ∈ order ++ [i], ∃ o, os[i']? = some (some o) := by
          intro i' hi'
          simp only [List.mem_append, List.mem_singleton] at hi'
          rcases hi' with hi' | rfl
          · exact h.role i' hi'
          · exact ⟨o, hoi⟩
        have hnodup' : (order ++ [i]).Nodup := by
          rw [List.nodup_append]
          exact ⟨h.nodup, by simp, by intro a ha b hb e; simp at hb; subst hb; exact hi (e ▸ ha)⟩
        have hfire : ∀ n, t = counting env k resp (Int64.ofInt o.amount) (n + 1) →
            p.db.keys k = some (.integer (Int64.ofInt (total ((opsOf os order).drop m)))) → m ≤ order.length →
            Race env k os rs (order ++ [i]) m (p.stepAt i) := by
          intro n htn hk hm
          have hadd : addI64 env.mode (Int64.ofInt (total ((opsOf os order).drop m))) (Int64.ofInt o.amount) =
              some (Int64.ofInt (total ((opsOf os (order ++ [i])).drop m))) := by
            rw [opsOf_snoc hoi, List.drop_append_of_le_length (by omega), total_append]
            rw [addI64_eq]
            have e2 : total [o] = o.amount := by simp [total]
            rw [e2]
            rcases hsmall with hr | hs
            · rw [if_pos (Or.inr hr)]
              congr 1
              rw [Int64.ofInt_add, Int64.ofInt_add, Int64.ofInt_toInt, Int64.ofInt_toInt]
            · have hsum := opsOf_small hnodup' hrole'
              rw [opsOf_snoc hoi] at hsum
              simp only [List.map_append, List.sum_append, List.map_cons, List.map_nil, List.sum_cons, List.sum_nil] at hsum
              have hdrop : ((opsOf os order).map fun o => o.amount.natAbs).sum =
                  (((opsOf os order).take m).map fun o => o.amount.natAbs).sum +
                  (((opsOf os order).drop m).map fun o => o.amount.natAbs).sum := by
                rw [← List.sum_append, ← List.map_append, List.take_append_drop]
              have hle := natAbs_total_le ((opsOf os order).drop m)
              unfold Small at hs
              have hr1 : inRange (total ((opsOf os order).drop m)) := by constructor <;> omega
              have hr2 : inRange o.amount := by constructor <;> omega
              have hr3 : inRange (total ((opsOf os order).drop m) + o.amount) := by constructor <;> omega
              rw [toInt_ofInt hr1, toInt_ofInt hr2, if_pos (Or.inl hr3)]
          have hbody : countBody env resp (Int64.ofInt o.amount) (.integer (Int64.ofInt (total ((opsOf os order).drop m)))) =
              (.integer (Int64.ofInt (total ((opsOf os (order ++ [i])).drop m))),
                .ok (Response.writeInt resp (Int64.ofInt (total ((opsOf os (order ++ [i])).drop m))))) := by
            simp only [countBody, hadd]
          subst htn
          simp only [counting, keyOrInsertLoop, Prog.andThen, Prog.step, hk, Option.map_some, hbody] at hself hdb
          refine ⟨hnodup', hrole', ?_, ?_, ?_, ?_⟩
          · right
            refine ⟨by rw [hdb, Db.setKey_keys_self], by simp; omega, Or.inl (by simp; omega)⟩
          · intro j t' htj hoj
            have e : j ≠ i := by rintro rfl; rw [hoi] at hoj; cases hoj
            rw [hoth j e] at htj
            exact h.others j t' htj hoj
          · intro j t' o' r' resp' htj hoj hrj hjn
            simp only [List.mem_append, List.mem_singleton, not_or] at hjn
            rw [hoth j hjn.2] at htj
            exact h.waiting j t' o' r' resp' htj hoj hrj hjn.1
          · intro j i' r' resp' hj hrj
            by_cases hjl : j < order.length
            · rw [List.getElem?_append_left hjl] at hj
              obtain ⟨t', m', ht', hm', he'⟩ := h.fired j i' r' resp' hj hrj
              have e : i' ≠ i := fun e => hi (e ▸ List.mem_of_getElem? hj)
              refine ⟨t', m', by rw [hoth i' e]; exact ht', hm', ?_⟩
              rw [opsOf_snoc hoi, List.take_append_of_le_length (by omega)]
              exact he'
            · have hj0 : j = order.length := by
                have := (List.getElem?_eq_some_iff.mp hj).1
                simp at this
                omega
              subst hj0
              simp at hj
              subst hj
              rw [hri] at hrj
              cases hrj
              refine ⟨_, m, hself, hm, ?_⟩
              rw [List.take_of_length_le (by rw [opsOf_snoc hoi]; simp; omega), ← writeInt_frame]
              exact ends_count env _
        rcases h.waiting i t o r resp ht hoi hri hi with rfl | rfl | rfl
        · rcases h.key with ⟨hk, ho, hn⟩ | ⟨hk, hm, hn⟩
          · -- found missing
            simp only [counting, keyOrInsertLoop, Prog.andThen, Prog.step, hk, Option.map_none] at hself hdb
            refine ⟨order, m, hquiet ?_ ?_ ?_ ?_ ?_⟩
            · rw [hdb, Db.setKey_keys_self, hk]
            · intro r' resp' o' ho' hr'
              rw [hoi] at ho'
              rw [hri] at hr'
              cases ho'
              cases hr'
              refine ⟨hn i o r resp hoi hri, ?_⟩
              simp only [counting, keyOrInsertLoop, Prog.andThen, Prog.step, hk]
              intro e
              simp only [insertKey, Prog.andThen, Prog.onKey.injEq, true_and] at e
              have := congrFun e.1 none
              simp at this
            · intro e; rw [hoi] at e; cases e
            · intro o' ho' _
              rw [hoi] at ho'
              cases ho'
              right; left
              simp only [counting, keyOrInsertLoop, Prog.andThen, Prog.step, hk]
              rfl
            · intro hi'; exact absurd hi' hi
          · exact ⟨_, m, hfire _ rfl hk hm⟩
        · -- creating the key
          simp only [creating, insertKey, Prog.andThen, Prog.step] at hself hdb
          refine ⟨order, order.length, h.nodup, h.role, ?_, ?_, ?_, ?_⟩
          · right
            refine ⟨?_, Nat.le_refl _, Or.inr ⟨i, o, r, resp, hoi, hri, hi, hself⟩⟩
            rw [hdb, Db.setKey_keys_self, List.drop_of_length_le (by omega)]
            rfl
          · intro j t' htj hoj
            have e : j ≠ i := by rintro rfl; rw [hoi] at hoj; cases hoj
            rw [hoth j e] at htj
            exact h.others j t' htj hoj
          · intro j t' o' r' resp' htj hoj hrj hjn
            by_cases e : j = i
            · subst e
              rw [hself] at htj
              rw [hoi] at hoj
              rw [hri] at hrj
              cases htj
              cases hoj
              cases hrj
              exact Or.inr (Or.inr rfl)
            · rw [hoth j e] at htj
              exact h.waiting j t' o' r' resp' htj hoj hrj hjn
          · intro j i' r' resp' hj hrj
            obtain ⟨t', m', ht', hm', he'⟩ := h.fired j i' r' resp' hj hrj
            have e : i' ≠ i := fun e => hi (e ▸ List.mem_of_getElem? hj)
            exact ⟨t', m', by rw [hoth i' e]; exact ht', hm', he'⟩
        · rcases h.key with ⟨hk, ho, hn⟩ | ⟨hk, hm, hn⟩
          · exact absurd ht (hn i o r resp hoi hri)
          · exact ⟨_, m, hfire _ rfl hk hm⟩

/-- C33, the part that holds: any number of clients concurrently increment or decrement (by any amounts) a key
that does not exist, others do not change it. Under every schedule that lets all of them finish, all succeed,
and there is an order of the operations such that the final value is the sum of the last ones (at least one),
each answer being the sum of a run of consecutive operations that ends with the client's own. Missing: the
final value need not include the operations before the run, see C33_false. -/
theorem C33_missing_counter_partial {env : Env} {rs : List (Request × Bytes)} {cs : List Call} {os : List (Option CounterOp)}
    (hs : Sees rs cs) (k : Bytes) (hr : All2 (RaceRole k) os cs) (hu : ¬ unusable env.mode k) (db : Db)
    (hk : db.keys k = none) (hc : Roomy rs.length db.ctrs) (hsmall : env.mode = .release ∨ Small (present os))
    (hne : present os ≠ []) (sched : List Nat) (hf : ((Pool.start env rs db).exec sched).finished) :
    ∃ (order : List Nat) (m : Nat), order.Nodup ∧ (∀ i, i ∈ order ↔ ∃ o, os[i]? = some (some o)) ∧ m < order.length ∧
      ((Pool.start env rs db).exec sched).db.keys k =
        some (.integer (Int64.ofInt (total ((present (pick os order)).drop m)))) ∧
      ∀ (j i : Nat) resp, order[j]? = some i → rs[i]?.map Prod.snd = some resp → ∃ m', m' ≤ j ∧
        ((Pool.start env rs db).exec sched).threads[i]? = some (.done (.ok (resp ++ frame (.value (.integer (Int64.ofInt
          (total (((present (pick os order)).take (j + 1)).drop m')))))))) := by
  have hl : (Pool.start env rs db).threads.length = rs.length := by simp [Pool.start]
  have hlo : os.length = rs.length := by rw [all2_length hr, ← (Sees.get hs).1]
  have hbud := Budget.start env rs db hc
  have hget : ∀ (i : Nat) o, os[i]? = some o → ∃ c, cs[i]? = some c ∧ RaceRole k o c := by
    clear hs hlo hsmall hne
    induction hr with
    | nil => intro i o h; simp at h
    | @cons o' c' os' cs' h1 _ ih =>
      intro i o h
      cases i with
      | zero => simp at h; subst h; exact ⟨c', rfl, h1⟩
      | succ i => exact ih i o (by simpa using h)
  have hstart : Race env k os rs [] 0 (Pool.start env rs db) := by
    have hth : ∀ (i : Nat) t, (Pool.start env rs db).threads[i]? = some t → ∃ r resp, rs[i]? = some (r, resp) ∧
        t = dispatch env r resp := by
      intro i t ht
      simp only [Pool.start, List.getElem?_map, Option.map_eq_some_iff] at ht
      obtain ⟨⟨r, resp⟩, h1, rfl⟩ := ht
      exact ⟨r, resp, h1, rfl⟩
    have hbegin : ∀ (i : Nat) t o r resp, (Pool.start env rs db).threads[i]? = some t → os[i]? = some (some o) →
        rs[i]? = some (r, resp) → t = counting env k resp (Int64.ofInt o.amount) (env.spins + 2) := by
      intro i t o r resp ht hoi hri
      obtain ⟨r', resp', h1, rfl⟩ := hth i t ht
      rw [hri] at h1
      cases h1
      obtain ⟨c, hci, hrole⟩ := hget i _ hoi
      obtain ⟨c', hci', hv⟩ := (Sees.get hs).2 i _ hri
      rw [hci] at hci'
      cases hci'
      refine counter_begin hv hrole hu (hsmall.imp id ?_) resp
      rintro h n rfl hn
      have hmem : CounterOp.decBy n ∈ present os := by
        simp only [present, List.mem_filterMap]
        exact ⟨_, List.mem_of_getElem? hoi, rfl⟩
      have : (CounterOp.decBy n).amount.natAbs ≤ ((present os).map fun o => o.amount.natAbs).sum := by
        clear hne h
        generalize present os = l at hmem
        induction l with
        | nil => simp at hmem
        | cons x l ih =>
          simp only [List.mem_cons] at hmem
          simp only [List.map_cons, List.sum_cons]
          rcases hmem with rfl | hmem
          · omega
          · have := ih hmem; omega
      unfold Small at h
      have e : (CounterOp.decBy n).amount = -n.toInt := rfl
      rw [e] at this
      omega
    refine ⟨List.nodup_nil, by simp, Or.inl ⟨hk, rfl, ?_⟩, ?_, ?_, by simp⟩
    · intro i o r resp hoi hri e
      exact counting_ne env k resp _ _ (hbegin i _ o r resp e hoi hri)
    · intro i t ht hoi
      obtain ⟨r, resp, h1, rfl⟩ := hth i t ht
      obtain ⟨c, hci, hrole⟩ := hget i _ hoi
      obtain ⟨c', hci', hv⟩ := (Sees.get hs).2 i _ h1
      rw [hci] at hci'
      cases hci'
      exact writes_bystander hv hrole resp
    · intro i t o r resp ht hoi hri _
      exact Or.inl (hbegin i t o r resp ht hoi hri)
  have hexec : ∀ s : List Nat, ∃ order m, Race env k os rs order m ((Pool.start env rs db).exec s) := by
    intro s
    induction s using snoc_induction with
    | h0 => exact ⟨_, _, hstart⟩
    | h1 s i ih =>
      obtain ⟨order, m, ih⟩ := ih
      rw [Pool.exec_snoc]
      exact ih.step (hbud.exec s) (by rw [Pool.exec_length]; exact hl) hlo hsmall i
  obtain ⟨order, m, h⟩ := hexec sched
  have hall : ∀ i o, os[i]? = some (some o) → i ∈ order := by
    intro i o hoi
    have hil : i < rs.length := by rw [← hlo]; exact (List.getElem?_eq_some_iff.mp hoi).1
    have hit : i < ((Pool.start env rs db).exec sched).threads.length := by rw [Pool.exec_length, hl]; exact hil
    obtain ⟨x, hx⟩ := hf _ (List.getElem_mem hit)
    exact Classical.byContradiction fun hn => by
      have := h.waiting i _ o rs[i].1 rs[i].2 (List.getElem?_eq_getElem hit) hoi (List.getElem?_eq_getElem hil) hn
      rw [hx] at this
      rcases this with h | h | h <;> cases h
  obtain ⟨o0, ho0⟩ := List.exists_mem_of_ne_nil _ hne
  simp only [present, List.mem_filterMap, id] at ho0
  obtain ⟨x, hx, rfl⟩ := ho0
  obtain ⟨i0, hi0⟩ := List.getElem?_of_mem hx
  have hkey : ((Pool.start env rs db).exec sched).db.keys k =
      some (.integer (Int64.ofInt (total ((opsOf os order).drop m)))) ∧ m < order.length := by
    rcases h.key with ⟨-, ho, -⟩ | ⟨hk, -, hm | ⟨i, o, r, resp, hoi, -, hin, -⟩⟩
    · have := hall i0 o0 hi0
      rw [ho] at this
      simp at this
    · exact ⟨hk, hm⟩
    · exact absurd (hall i o hoi) hin
  refine ⟨order, m, h.nodup, fun i => ⟨h.role i, fun ⟨o, ho⟩ => hall i o ho⟩, hkey.2, hkey.1, ?_⟩
  intro j i resp hj hresp
  simp only [Option.map_eq_some_iff] at hresp
  obtain ⟨⟨r, resp'⟩, hri, rfl⟩ := hresp
  obtain ⟨t, m', ht, hm', he⟩ := h.fired j i r resp' hj hri
  refine ⟨m', hm', ?_⟩
  obtain ⟨x, rfl⟩ := hf _ (List.mem_of_getElem? ht)
  rw [ht]
  exact congrArg (fun r => some (Prog.done r)) he

/-- C33 for Increments: the final value is at least 1 and at most the number of clients. -/
theorem C33_increments_partial {env : Env} {rs : List (Request × Bytes)} {cs : List Call} (hs : Sees rs cs) (k : Bytes)
    (hr : ∀ c ∈ cs, CounterOp.inc.Spells k c) (hu : ¬ unusable env.mode k) (db : Db) (hk : db.keys k = none)
    (hc : Roomy rs.length db.ctrs) (hn : 0 < rs.length) (hn2 : rs.length < 2 ^ 63) (sched : List Nat)
    (hf : ((Pool.start env rs db).exec sched).finished) :
    ∃ n : Nat, 1 ≤ n ∧ n ≤ rs.length ∧
      ((Pool.start env rs db).exec sched).db.keys k = some (.integer (Int64.ofNat n)) := by
  have hl := (Sees.get hs).1
  have hrep : ∀ l : List Call, (∀ c ∈ l, CounterOp.inc.Spells k c) →
      All2 (RaceRole k) (List.replicate l.length (some .inc)) l := by
    intro l
    induction l with
    | nil => intro _; exact .nil
    | cons c l ih => intro h; exact .cons (h c (by simp)) (ih fun c' hc' => h c' (by simp [hc']))
  have hpres : ∀ n : Nat, present (List.replicate n (some CounterOp.inc)) = List.replicate n .inc := by
    intro n
    induction n with
    | zero => rfl
    | succ n ih => simp only [List.replicate_succ, present, List.filterMap_cons, id] at ih ⊢; rw [ih]
  have hsum : ∀ n : Nat, ((List.replicate n CounterOp.inc).map fun o => o.amount.natAbs).sum = n := by
    intro n
    induction n with
    | zero => rfl
    | succ n ih =>
      simp only [List.replicate_succ, List.map_cons, List.sum_cons, ih]
      simp only [CounterOp.amount]; omega
  obtain ⟨order, m, hnd, hmem, hm, hkey, -⟩ := C33_missing_counter_partial (env := env) hs k (hrep cs hr) hu db hk hc
    (Or.inr (by unfold Small; rw [hpres, hsum]; omega)) (by
      rw [hpres]
      intro h
      have := congrArg List.length h
      rw [List.length_replicate, List.length_nil] at this
      omega) sched hf
  have hops : ∀ l : List Nat, (∀ i ∈ l, ∃ o, (List.replicate cs.length (some CounterOp.inc))[i]? = some (some o)) →
      opsOf (List.replicate cs.length (some CounterOp.inc)) l = List.replicate l.length .inc := by
    intro l
    induction l with
    | nil => intro _; rfl
    | cons i l ih =>
      intro h
      obtain ⟨o, ho⟩ := h i (by simp)
      have ho' : o = .inc := by
        have := List.mem_of_getElem? ho
        simp only [List.mem_replicate] at this
        exact Option.some.inj this.2
      subst ho'
      have e : opsOf (List.replicate cs.length (some CounterOp.inc)) (i :: l) =
          .inc :: opsOf (List.replicate cs.length (some CounterOp.inc)) l := by simp [opsOf, present, pick, ho]
      rw [e, ih fun j hj => h j (by simp [hj])]
      rfl
  have hrole := fun i hi => (hmem i).mp hi
  have hle := opsOf_small hnd hrole
  rw [hops order hrole, hsum, hpres, hsum] at hle
  have htot : ∀ n : Nat, total (List.replicate n CounterOp.inc) = n := by
    intro n
    induction n with
    | zero => rfl
    | succ n ih =>
      simp only [total, List.replicate_succ, List.map_cons, List.sum_cons] at ih ⊢
      rw [ih]
      simp only [CounterOp.amount]; omega
  refine ⟨order.length - m, by omega, by omega, ?_⟩
  rw [hkey]
  have e : present (pick (List.replicate cs.length (some CounterOp.inc)) order) = List.replicate order.length .inc := hops order hrole
  rw [e, List.drop_replicate, htot]
  rfl

/-- Beside C33: three clients; the second overwrites the first. -/
example : ((Pool.start (sampleEnv .debug) [(call .increment none [[1]], []), (call .increment none [[1]], []),
    (call .increment none [[1]], [])] (sampleDb [])).exec [0, 1, 0, 0, 0, 1, 1, 1, 2, 2]).db.keys [1] = some (.integer 2) := by
  decide +kernel

example : ∃ n : Nat, 1 ≤ n ∧ n ≤ 2 ∧ ((Pool.start (sampleEnv .debug) [(call .increment none [[1]], []),
    (call .increment none [[1]], [])] (sampleDb [])).exec [0, 1, 0, 0, 0, 1, 1, 1]).db.keys [1] = some (.integer (Int64.ofNat n)) := by
  have hs : Sees [(call .increment none [[1]], []), (call .increment none [[1]], [])]
      [⟨.increment, none, [[1]]⟩, ⟨.increment, none, [[1]]⟩] :=
    .cons (call_views _ _ _ (by decide) (by decide) (by decide)) (.cons (call_views _ _ _ (by decide) (by decide) (by decide)) .nil)
  exact C33_increments_partial hs [1] (by
    intro c hc
    simp only [List.mem_cons, List.not_mem_nil, or_false] at hc
    rcases hc with rfl | rfl <;> exact ⟨rfl, by decide, [], rfl⟩) (by decide) _ (by decide +kernel)
    (sampleDb_roomy _ _ (by decide)) (by decide) (by decide) _ (finished_of_live (by decide +kernel))

/-! ## C35 Reading a key while it is being set -/

/-- C35 as stated: a Get running concurrently with a Set of an existing key answers with the old or the new
value. -/
def C35_Statement : Prop :=
  ∀ (env : Env) (r1 r2 : Request) (resp1 resp2 : Bytes) (k old new : Bytes) (db : Db) (sched : List Nat)
    (out : Outcome DispatchError Bytes),
    Views r1 .set (some .bytes) [k, new] → Views r2 .get none [k] → ¬ unusable env.mode k →
    db.keys k = some (.bytes old) → Roomy 2 db.ctrs →
    ((Pool.start env [(r1, resp1), (r2, resp2)] db).exec sched).threads[1]? = some (.done out) →
    out = .ok (resp2 ++ frame (.value (.bytes old))) ∨ out = .ok (resp2 ++ frame (.value (.bytes new)))

/-- It is false: Set first removes the key, so that the Get finds it missing. -/
theorem C35_false : ¬ C35_Statement := by
  intro h
  have h1 := h (sampleEnv .debug) (call .set (some .bytes) [[1], [8]]) (call .get none [[1]]) [] [] [1] [7] [8]
    (sampleDb [([1], .bytes [7])]) [0, 1, 1] (.err .keyNonexistent) (call_views _ _ _ (by decide) (by decide) (by decide))
    (call_views _ _ _ (by decide) (by decide) (by decide)) (by decide) (by decide +kernel) (sampleDb_roomy _ _ (by decide)) rfl
  rcases h1 with h1 | h1 <;> cases h1

/-- Nor does it help to tolerate a missing key: the Get may also find the empty default value. -/
example : ((Pool.start (sampleEnv .debug) [(call .set (some .bytes) [[1], [8]], []), (call .get none [[1]], [])]
    (sampleDb [([1], .bytes [7])])).exec [0, 0, 0, 1, 1]).threads[1]?.bind (fun t => match t with | .done r => some r | _ => none)
      = some (.ok (frame (.value (.bytes [])))) := by decide +kernel

/-- The values that can be seen under a key while it is being set. -/
def Spec.Seen (kt : Option KeyType) (items : List Bytes) (old now : Option Value) : Prop :=
  now = old ∨ ∃ v, parseValue (effectiveType kt old .bytes) items = some v ∧
    (now = none ∨ now = some (Value.default v.kind) ∨ now = some v)

/-- With `o` under `k` and nobody else changing it, the program only ever puts there what satisfies `Q`. -/
def Track {α} (k : Bytes) (Q : Option Value → Prop) : Option Value → Prog α → Prop
  | _, .done _ => True
  | o, .onKey k' upd next => (k' = k ∧ Q (upd o) ∧ Track k Q (upd o) (next o)) ∨ (k' ≠ k ∧ ∀ o', Track k Q o (next o'))
  | o, .onCtr _ _ next => ∀ o', Track k Q o (next o')

theorem Track.step {α} {k : Bytes} {Q : Option Value → Prop} {t : Prog α} {db : Db} (h : Track k Q (db.keys k) t)
    (hq : Q (db.keys k)) : Track k Q ((t.step db).2.keys k) (t.step db).1 ∧ Q ((t.step db).2.keys k) := by
  cases t with
  | done r => exact ⟨h, hq⟩
  | onCtr m upd next => exact ⟨h _, hq⟩
  | onKey k' upd next =>
    simp only [Prog.step]
    rcases h with ⟨rfl, h1, h2⟩ | ⟨h1, h2⟩
    · rw [Db.setKey_keys_self]; exact ⟨h2, h1⟩
    · rw [Db.setKey_keys_ne _ _ (Ne.symm h1)]; exact ⟨h2 _, hq⟩

theorem Track.count {k : Bytes} {Q : Option Value → Prop} {o : Option Value} {env : Env} {p : Prog Bytes} (h : Track k Q o p) :
    Track k Q o (p.andThen (countOutcome env)) := by
  induction p generalizing o with
  | done r =>
    cases r with
    | ok a => intro o'; (try dsimp only); split <;> trivial
    | err e => intro o'; (try dsimp only); split <;> trivial
    | panic => trivial
    | stuck => trivial
  | onKey k' upd next ih =>
    rcases h with ⟨h1, h2, h3⟩ | ⟨h1, h2⟩
    · exact Or.inl ⟨h1, h2, ih _ h3⟩
    · exact Or.inr ⟨h1, fun o' => ih _ (h2 o')⟩
  | onCtr m upd next ih => exact fun o' => ih _ (h o')

theorem Track.fail {k : Bytes} {Q : Option Value → Prop} {o : Option Value} {r : Outcome DispatchError Bytes} :
    Track k Q o (.done r) := trivial

/-- Removing the key, creating it and replacing the default value. -/
theorem Track.replace {k : Bytes} {Q : Option Value → Prop} {o : Option Value} {env : Env} {mk : Value}
    {body : Value → Value × Outcome DispatchError Bytes} (h0 : Q none) (h1 : Q (some mk)) (h2 : Q (some (body mk).1)) :
    Track k Q o (removeKey k fun _ => keyOrInsertWith env k mk body) := by
  refine Or.inl ⟨rfl, h0, ?_⟩
  unfold keyOrInsertWith
  split
  · trivial
  · split
    · trivial
    · refine Or.inl ⟨rfl, h0, Or.inl ⟨rfl, h1, ?_⟩⟩
      exact Or.inl ⟨rfl, h2, trivial⟩

theorem track_set {env : Env} {r : Request} {k : Bytes} {kt : Option KeyType} {items : List Bytes}
    (hv : Views r .set kt (k :: items)) (resp : Bytes) (old : Option Value) :
    Track k (Seen kt items old) old (dispatch env r resp) := by
  refine Track.count ?_
  unfold command
  rw [hv.command]
  dsimp only
  unfold dispatchSet
  rw [key_eq hv (by decide)]
  simp only [List.getElem?_cons_zero, Prog.orErr]
  split
  · trivial
  rename_i hsome
  obtain ⟨a, rest, rfl⟩ : ∃ a rest, items = a :: rest := by
    cases items with
    | nil => rw [hv.arg 1] at hsome; simp at hsome
    | cons a rest => exact ⟨a, rest, rfl⟩
  have ha : r.arg 1 = some a := by rw [hv.arg]; rfl
  have has : r.argsFrom 1 = some (a :: rest) := by rw [argsFrom_eq hv]; simp
  have hread := readValue_eq hv (effectiveType kt old .bytes)
  have hold : Seen kt (a :: rest) old old := Or.inl rfl
  have go : ∀ next : KeyType → Prog Bytes, Track k (Seen kt (a :: rest) old) old (next (effectiveType kt old .bytes)) →
      Track k (Seen kt (a :: rest) old) old (resolveKeyType r k .bytes next) := by
    intro next h
    unfold resolveKeyType
    rw [hv.keyType]
    cases kt with
    | some t => exact h
    | none =>
      refine Or.inl ⟨rfl, hold, ?_⟩
      cases old <;> exact h
  refine go _ ?_
  -- what the right outcome of reading the arguments gives
  have use : ∀ (v : Value) (mk : Value) (body : Value → Value × Outcome DispatchError Bytes),
      readValue r (effectiveType kt old .bytes) = some v → mk = Value.default v.kind →
      ((body mk).1 = v ∨ (body mk).1 = mk) →
      Track k (Seen kt (a :: rest) old) old (removeKey k fun _ => keyOrInsertWith env k mk body) := by
    intro v mk body hr hmk hb
    rw [hread] at hr
    subst hmk
    refine Track.replace (Or.inr ⟨v, hr, Or.inl rfl⟩) (Or.inr ⟨v, hr, Or.inr (Or.inl rfl)⟩) ?_
    rcases hb with hb | hb
    · exact Or.inr ⟨v, hr, Or.inr (Or.inr (by rw [hb]))⟩
    · exact Or.inr ⟨v, hr, Or.inr (Or.inl (by rw [hb]))⟩
  revert use
  generalize effectiveType kt old .bytes = t
  intro use
  cases t with
  | bytes =>
    simp only [setBytes, ha, Prog.orErr]
    exact use (.bytes a) _ _ (by simp [readValue, ha]) rfl (Or.inl rfl)
  | boolean =>
    simp only [setBoolean, ha, Prog.orErr, Option.bind_some]
    cases hc : convBool a with
    | none => trivial
    | some b => exact use (.boolean b) _ _ (by simp [readValue, ha, hc]) rfl (Or.inl rfl)
  | float =>
    simp only [setFloat, ha, Prog.orErr, Option.bind_some]
    cases hc : convFloat a with
    | none => trivial
    | some b => exact use (.float b) _ _ (by simp [readValue, ha, hc]) rfl (Or.inl rfl)
  | integer =>
    simp only [setInteger, ha, Prog.orErr, Option.bind_some]
    cases hc : convInt a with
    | none => trivial
    | some b => exact use (.integer b) _ _ (by simp [readValue, ha, hc]) rfl (Or.inl rfl)
  | string =>
    simp only [setString, ha, Prog.orErr, Option.bind_some]
    cases hc : convStr a with
    | none => trivial
    | some b => exact use (.string b) _ _ (by simp [readValue, ha, hc]) rfl (Or.inl rfl)
  | list =>
    simp only [setList, has, Prog.orErr]
    exact use (.list (a :: rest)) _ _ (by simp [readValue, has]) rfl (Or.inl rfl)
  | map =>
    simp only [setMap, has, Prog.orErr, Option.map_some]
    refine use (.map (convMap (a :: rest))) _ _ (by simp [readValue, has]) rfl ?_
    simp only [Value.default]
    split
    · exact Or.inl rfl
    · exact Or.inr rfl
  | set =>
    simp only [setSet, has, Prog.orErr, Option.map_some]
    refine use (.set (convSet (a :: rest))) _ _ (by simp [readValue, has]) rfl ?_
    simp only [Value.default]
    split
    · exact Or.inl rfl
    · exact Or.inr rfl

theorem set_seen {env : Env} {rs : List (Request × Bytes)} {cs : List Call} (hs : Sees rs cs) (db : Db)
    (k : Bytes) (i : Nat) (kt : Option KeyType) (items : List Bytes) (hi : cs[i]? = some ⟨.set, kt, k :: items⟩)
    (hoth : ∀ (j : Nat) c, cs[j]? = some c → j ≠ i → Bystander k c) (sched : List Nat) :
    let p := (Pool.start env rs db).exec sched
    (∃ t, p.threads[i]? = some t ∧ Track k (Seen kt items (db.keys k)) (p.db.keys k) t) ∧
      Seen kt items (db.keys k) (p.db.keys k) ∧
      ∀ (j : Nat) t, p.threads[j]? = some t → j ≠ i → Writes (· ≠ k) t := by
  have hil : i < rs.length := by rw [(Sees.get hs).1]; exact (List.getElem?_eq_some_iff.mp hi).1
  induction sched using snoc_induction with
  | h0 =>
    refine ⟨⟨dispatch env rs[i].1 rs[i].2, ?_, ?_⟩, Or.inl rfl, ?_⟩
    · simp only [Pool.exec_nil, Pool.start, List.getElem?_map, List.getElem?_eq_getElem hil, Option.map_some]
    · obtain ⟨c, h1, h2⟩ := (Sees.get hs).2 i rs[i] (List.getElem?_eq_getElem hil)
      rw [hi] at h1
      cases h1
      exact track_set h2 _ _
    · intro j t ht hj
      simp only [Pool.exec_nil, Pool.start, List.getElem?_map, Option.map_eq_some_iff] at ht
      obtain ⟨r, hr, rfl⟩ := ht
      obtain ⟨c, h1, h2⟩ := (Sees.get hs).2 j r hr
      exact writes_bystander h2 (hoth j c h1 hj) r.2
  | h1 s j ih =>
    rw [Pool.exec_snoc]
    revert ih
    generalize (Pool.start env rs db).exec s = p
    intro ih
    obtain ⟨⟨t, ht, h1⟩, h2, h3⟩ := ih
    cases htj : p.threads[j]? with
    | none => rw [Pool.stepAt_none htj]; exact ⟨⟨t, ht, h1⟩, h2, h3⟩
    | some t' =>
      obtain ⟨hself, hdb⟩ := Pool.stepAt_self htj
      by_cases e : j = i
      · subst e
        rw [ht] at htj
        cases htj
        obtain ⟨h4, h5⟩ := h1.step h2
        refine ⟨⟨_, hself, by rw [hdb]; exact h4⟩, by rw [hdb]; exact h5, ?_⟩
        intro j' t' ht' hj'
        rw [Pool.stepAt_other _ hj'] at ht'
        exact h3 j' t' ht' hj'
      · have hw := Writes.step (h3 j t' htj e) p.db
        have hk : (p.stepAt j).db.keys k = p.db.keys k := by rw [hdb]; exact hw.2 k (by simp)
        refine ⟨⟨t, by rw [Pool.stepAt_other _ (Ne.symm e)]; exact ht, by rw [hk]; exact h1⟩, by rw [hk]; exact h2, ?_⟩
        intro j' t'' ht'' hj'
        by_cases e' : j' = j
        · subst e'; rw [hself] at ht''; cases ht''; exact hw.1
        · rw [Pool.stepAt_other _ e'] at ht''; exact h3 j' t'' ht'' hj'

/-- C35, the part that holds: while one client sets a key that nobody else changes, at every moment the key
holds its old value, is missing, or holds the default or the intended value of the type being set; a Set
whose arguments do not spell a value never changes it. Missing from the full claim: that the two
intermediate states cannot be seen, see C35_false. -/
theorem C35_seen_partial {env : Env} {rs : List (Request × Bytes)} {cs : List Call} (hs : Sees rs cs) (db : Db)
    (k : Bytes) (i : Nat) (kt : Option KeyType) (items : List Bytes) (hi : cs[i]? = some ⟨.set, kt, k :: items⟩)
    (hoth : ∀ (j : Nat) c, cs[j]? = some c → j ≠ i → Bystander k c) (sched : List Nat) :
    Seen kt items (db.keys k) (((Pool.start env rs db).exec sched).db.keys k) :=
  (set_seen hs db k i kt items hi hoth sched).2.1

theorem get_reads {env : Env} {r : Request} {k : Bytes} {kt : Option KeyType} {more : List Bytes}
    (hv : Views r .get kt (k :: more)) (resp : Bytes) :
    dispatch env r resp = .done .panic ∨ ∃ next : Option Value → Prog Bytes,
      dispatch env r resp = .onKey k (fun o => o) next ∧ ∀ o, ∃ x, Ends x (next o) := by
  unfold dispatch command
  rw [hv.command]
  dsimp only
  unfold dispatchGet
  rw [key_eq hv (by decide)]
  simp only [List.getElem?_cons_zero, Prog.orErr, keyRef]
  split
  · exact Or.inl rfl
  · split
    · exact Or.inl rfl
    · refine Or.inr ⟨_, rfl, fun o => ?_⟩
      cases o with
      | none => exact ⟨_, ends_count env _⟩
      | some v =>
        (try dsimp only)
        split
        · split
          · exact ⟨_, ends_count env _⟩
          · exact ⟨_, ends_count env _⟩
        · exact ⟨_, ends_count env _⟩

/-- C35 for a concurrent Get: it answers as a Get of one of these values does. -/
theorem C35_get_partial {env : Env} {rs : List (Request × Bytes)} {cs : List Call} (hs : Sees rs cs) (db : Db)
    (k : Bytes) (i : Nat) (kt : Option KeyType) (items : List Bytes) (hi : cs[i]? = some ⟨.set, kt, k :: items⟩)
    (hoth : ∀ (j : Nat) c, cs[j]? = some c → j ≠ i → Bystander k c) (hc : Roomy rs.length db.ctrs)
    (g : Nat) (r : Request) (resp : Bytes) (kt' : Option KeyType) (more : List Bytes) (hg : cs[g]? = some ⟨.get, kt', k :: more⟩)
    (hrg : rs[g]? = some (r, resp)) (sched : List Nat) (out : Outcome DispatchError Bytes)
    (hd : ((Pool.start env rs db).exec sched).threads[g]? = some (.done out)) :
    ∃ now, Seen kt items (db.keys k) now ∧ out = ((dispatch env r resp).run (db.setKey k now)).1 := by
  have hv : Views r .get kt' (k :: more) := by
    obtain ⟨c, h1, h2⟩ := (Sees.get hs).2 g _ hrg
    rw [hg] at h1
    cases h1
    exact h2
  have hbud := Budget.start env rs db hc
  have hroom : ∀ now, Roomy 1 (db.setKey k now).ctrs := fun _ =>
    Roomy.mono hc (by have := (List.getElem?_eq_some_iff.mp hrg).1; omega)
  have hstart : (Pool.start env rs db).threads[g]? = some (dispatch env r resp) := by
    simp only [Pool.start, List.getElem?_map, hrg, Option.map_some]
  rcases get_reads (env := env) hv resp with hp | ⟨next, hp, hn⟩
  · rw [hp] at hstart ⊢
    have := Pool.done_stays hstart sched
    rw [hd] at this
    cases this
    exact ⟨db.keys k, Or.inl rfl, rfl⟩
  · have hinv : ∀ s : List Nat, ((Pool.start env rs db).exec s).threads[g]? = some (dispatch env r resp) ∨
        ∃ now x t, Seen kt items (db.keys k) now ∧ ((Pool.start env rs db).exec s).threads[g]? = some t ∧ Ends x t ∧
          x = ((dispatch env r resp).run (db.setKey k now)).1 := by
      intro s
      induction s using snoc_induction with
      | h0 => exact Or.inl hstart
      | h1 s j ih =>
        have hseen := (set_seen (env := env) hs db k i kt items hi hoth s).2.1
        rw [Pool.exec_snoc]
        by_cases e : g = j
        · subst e
          right
          rcases ih with ih | ⟨now, x, t, h1, h2, h3, h4⟩
          · have hself := (Pool.stepAt_self ih).1
            obtain ⟨x, hx⟩ := hn (((Pool.start env rs db).exec s).db.keys k)
            refine ⟨_, x, _, hseen, hself, ?_, ?_⟩
            · rw [hp]; exact hx
            · rw [hp]
              simp only [Prog.run, Db.setKey_keys_self, Db.setKey_setKey]
              exact (hx.run _ (hroom _)).1.symm
          · exact ⟨now, x, _, h1, (Pool.stepAt_self h2).1, (Ends.step (hbud.exec s) h2 h3).2, h4⟩
        · rw [Pool.stepAt_other _ e]; exact ih
    rcases hinv sched with h | ⟨now, x, t, h1, h2, h3, h4⟩
    · rw [hd, hp] at h; cases h
    · rw [hd] at h2
      cases h2
      exact ⟨now, h1, by rw [← h4]; exact h3⟩

/-- Beside C35: a list is replaced by an integer. -/
example : Seen (some .integer) [[0, 0, 0, 0, 0, 0, 0, 9]] (some (.list [[1]]))
    (((Pool.start (sampleEnv .debug) [(call .set (some .integer) [[1], [0, 0, 0, 0, 0, 0, 0, 9]], []), (call .length none [[1]], [])]
      (sampleDb [([1], .list [[1]])])).exec [1, 0, 0, 0, 1]).db.keys [1]) := by
  have hs : Sees [(call .set (some .integer) [[1], [0, 0, 0, 0, 0, 0, 0, 9]], []), (call .length none [[1]], [])]
      [⟨.set, some .integer, [[1], [0, 0, 0, 0, 0, 0, 0, 9]]⟩, ⟨.length, none, [[1]]⟩] :=
    .cons (call_views _ _ _ (by decide) (by decide) (by decide)) (.cons (call_views _ _ _ (by decide) (by decide) (by decide)) .nil)
  have := C35_seen_partial (env := sampleEnv .debug) hs (sampleDb [([1], .list [[1]])]) [1] 0 (some .integer)
    [[0, 0, 0, 0, 0, 0, 0, 9]] rfl (by
      intro j c hj hne
      rcases j with _ | _ | j
      · exact absurd rfl hne
      · simp at hj; subst hj; exact Or.inl (by decide)
      · simp at hj) [1, 0, 0, 0, 1]
  exact this

/-! ## Further concrete cases -/

/-- Two counter commands and a Get of a missing key, whatever the schedule. -/
example (sched : List Nat) (hf : ((Pool.start (sampleEnv .debug) [(call .increment none [[1]], []), (call .incrementBy none [[1], [0, 0, 0, 0, 0, 0, 0, 7]], []),
    (call .get none [[1]], [])] (sampleDb [])).exec sched).finished) :
    ∃ (order : List Nat) (m : Nat), order.Nodup ∧ m < order.length ∧
      ((Pool.start (sampleEnv .debug) [(call .increment none [[1]], []), (call .incrementBy none [[1], [0, 0, 0, 0, 0, 0, 0, 7]], []),
        (call .get none [[1]], [])] (sampleDb [])).exec sched).db.keys [1] =
      some (.integer (Int64.ofInt (total ((present (pick [some .inc, some (.incBy 7), none] order)).drop m)))) := by
  obtain ⟨order, m, h1, -, h2, h3, -⟩ := C33_missing_counter_partial (env := sampleEnv .debug)
    (cs := [⟨.increment, none, [[1]]⟩, ⟨.incrementBy, none, [[1], [0, 0, 0, 0, 0, 0, 0, 7]]⟩, ⟨.get, none, [[1]]⟩])
    (os := [some .inc, some (.incBy 7), none])
    (.cons (call_views _ _ _ (by decide) (by decide) (by decide)) (.cons (call_views _ _ _ (by decide) (by decide) (by decide))
      (.cons (call_views _ _ _ (by decide) (by decide) (by decide)) .nil))) [1]
    (.cons ⟨rfl, by decide, [], rfl⟩ (.cons ⟨rfl, [], [], by decide +kernel⟩ (.cons (.inl (by decide)) .nil))) (by decide) (sampleDb []) rfl
    (sampleDb_roomy _ _ (by decide)) (.inr (show _ < _ by decide)) (by decide) sched hf
  exact ⟨order, m, h1, h2, h3⟩

/-- A Get beside a Set of the same key. -/
example (sched : List Nat) (out : Outcome DispatchError Bytes)
    (hd : ((Pool.start (sampleEnv .debug) [(call .set (some .bytes) [[1], [7]], []), (call .get none [[1]], [9])]
      (sampleDb [([1], .bytes [3])])).exec sched).threads[1]? = some (.done out)) :
    ∃ now, Seen (some .bytes) [[7]] (some (.bytes [3])) now ∧
      out = ((dispatch (sampleEnv .debug) (call .get none [[1]]) [9]).run ((sampleDb [([1], .bytes [3])]).setKey [1] now)).1 := by
  refine C35_get_partial (cs := [⟨.set, some .bytes, [[1], [7]]⟩, ⟨.get, none, [[1]]⟩])
    (.cons (call_views _ _ _ (by decide) (by decide) (by decide)) (.cons (call_views _ _ _ (by decide) (by decide) (by decide)) .nil))
    (sampleDb [([1], .bytes [3])]) [1] 0 (some .bytes) [[7]] rfl (fun j c hj hne => ?_) (sampleDb_roomy _ _ (by decide)) 1 _ [9] none [] rfl rfl sched out hd
  match j with
  | 0 => exact absurd rfl hne
  | 1 => cases hj; exact .inl (by decide)
  | j + 2 => cases hj

end Hop
