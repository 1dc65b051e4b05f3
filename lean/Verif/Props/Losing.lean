import Verif.Props.Creating

/-! # C103: every outcome C90 allows does occur -/

namespace Hop

open Spec Prog

/-- A thread can be run to its end while all others wait. -/
theorem Pool.solo {α : Type} (t : Prog α) (p : Pool α) (i : Nat) (ht : p.threads[i]? = some t) :
    ∃ s, p.exec s = { threads := p.threads.set i (.done (t.run p.db).1), db := (t.run p.db).2 } := by
  have hil := (List.getElem?_eq_some_iff.mp ht).1
  induction t generalizing p with
  | done r =>
    refine ⟨[], ?_⟩
    obtain ⟨ts, db⟩ := p
    simp only [Pool.exec_nil, Prog.run]
    congr
    rw [List.getElem?_eq_some_iff] at ht
    obtain ⟨h1, h2⟩ := ht
    simp only at h1 h2
    rw [← h2]; exact (List.set_getElem_self _).symm
  | onKey k upd next ih =>
    obtain ⟨s, hs⟩ := ih _ (p.stepAt i) (Pool.stepAt_self ht).1 (by rw [Pool.stepAt_length]; exact hil)
    refine ⟨i :: s, ?_⟩
    show (p.stepAt i).exec s = _
    rw [hs, Pool.stepAt_some ht]
    simp only [Prog.step, Prog.run, List.set_set]
  | onCtr m upd next ih =>
    obtain ⟨s, hs⟩ := ih _ (p.stepAt i) (Pool.stepAt_self ht).1 (by rw [Pool.stepAt_length]; exact hil)
    refine ⟨i :: s, ?_⟩
    show (p.stepAt i).exec s = _
    rw [hs, Pool.stepAt_some ht]
    simp only [Prog.step, Prog.run, List.set_set]

/-- Several threads can be run to their end, one after another. -/
theorem Pool.solos {α : Type} (is : List Nat) (p : Pool α) (hl : ∀ i ∈ is, i < p.threads.length) :
    ∃ s, (∀ i ∈ is, ∃ r, (p.exec s).threads[i]? = some (.done r)) ∧ ∀ j, j ∉ is → (p.exec s).threads[j]? = p.threads[j]? := by
  induction is generalizing p with
  | nil => exact ⟨[], by simp, fun _ _ => rfl⟩
  | cons i is ih =>
    have hil := hl i (by simp)
    obtain ⟨s, hs⟩ := Pool.solo p.threads[i] p i (List.getElem?_eq_getElem hil)
    obtain ⟨s', h1, h2⟩ := ih (p.exec s) (by intro j hj; rw [Pool.exec_length]; exact hl j (by simp [hj]))
    have hi : (p.exec s).threads[i]? = some (.done (p.threads[i].run p.db).1) := by rw [hs]; simp [hil]
    refine ⟨s ++ s', ?_, ?_⟩
    · intro j hj
      rw [Pool.exec_append]
      rcases List.mem_cons.mp hj with rfl | hj
      · exact ⟨_, Pool.done_stays hi s'⟩
      · exact h1 j hj
    · intro j hj
      simp only [List.mem_cons, not_or] at hj
      rw [Pool.exec_append, h2 j hj.2, hs]
      simp only
      rw [List.getElem?_set_ne (fun e => hj.1 e.symm)]

theorem countOutcome_keys (env : Env) (r : Outcome DispatchError Bytes) (db : Db) : ((countOutcome env r).run db).2.keys = db.keys := by
  have h : ∀ m (r : Outcome DispatchError Bytes), ((incrementMetric env m (.done r)).run db).2.keys = db.keys := by
    intro m r
    simp only [incrementMetric, Prog.run]
    split <;> rfl
  cases r <;> simp only [countOutcome] <;> first | rfl | exact h _ _

theorem looping_keys {env : Env} {k : Bytes} {d : Value} {b : Body} (n : Nat) (db : Db) (w : Value) (hk : db.keys k = some w) :
    ((looping env k d b (n + 1)).run db).2.keys k = some (b w).1 := by
  simp only [looping, keyOrInsertLoop, Prog.andThen, Prog.run, hk, Option.map_some, countOutcome_keys, Db.setKey_keys_self]

theorem inserting_keys {env : Env} {k : Bytes} {d : Value} {b : Body} (n : Nat) (db : Db) :
    ((inserting env k d b (n + 1)).run db).2.keys k = some (b d).1 := by
  simp only [inserting, insertKey, keyOrInsertLoop, Prog.andThen, Prog.run, Db.setKey_keys_self, Option.map_some, countOutcome_keys]

/-- Creating commands that all look while the key is missing. -/
theorem looks {env : Env} {k : Bytes} {d : Value} {bs : Nat → Option Body} (is : List Nat) (hn : is.Nodup) (p : Pool Bytes)
    (hk : p.db.keys k = none)
    (hl : ∀ i ∈ is, ∃ b, bs i = some b ∧ p.threads[i]? = some (looping env k d b (env.spins + 2))) :
    (p.exec is).db.keys k = none ∧
    (∀ i ∈ is, ∃ b, bs i = some b ∧ (p.exec is).threads[i]? = some (inserting env k d b (env.spins + 1))) ∧
    ∀ j, j ∉ is → (p.exec is).threads[j]? = p.threads[j]? := by
  induction is generalizing p with
  | nil => exact ⟨hk, by simp, fun _ _ => rfl⟩
  | cons i is ih =>
    obtain ⟨b, hb, ht⟩ := hl i (by simp)
    rw [List.nodup_cons] at hn
    obtain ⟨hself, hdb⟩ := Pool.stepAt_self ht
    have hk' : (p.stepAt i).db.keys k = none := by
      rw [hdb]
      simp only [looping, keyOrInsertLoop, Prog.andThen, Prog.step, hk, Option.map_none, Db.setKey_keys_self]
    have hi : (p.stepAt i).threads[i]? = some (inserting env k d b (env.spins + 1)) := by
      rw [hself]
      simp only [looping, keyOrInsertLoop, Prog.andThen, Prog.step, hk]
      rfl
    have hne : ∀ j ∈ is, j ≠ i := fun j hj e => hn.1 (e ▸ hj)
    obtain ⟨h1, h2, h3⟩ := ih hn.2 (p.stepAt i) hk' (by
      intro j hj
      rw [Pool.stepAt_other p (hne j hj)]
      exact hl j (by simp [hj]))
    refine ⟨h1, ?_, ?_⟩
    · intro j hj
      rcases List.mem_cons.mp hj with rfl | hj
      · exact ⟨b, hb, (h3 j hn.1).trans hi⟩
      · exact h2 j hj
    · intro j hj
      simp only [List.mem_cons, not_or] at hj
      exact (h3 j hj.2).trans (Pool.stepAt_other p hj.1)

/-- Creating commands executed one after another on an existing key. -/
theorem afterwards {env : Env} {k : Bytes} {d : Value} {bs : Nat → Option Body} (is : List Nat) (hn : is.Nodup) (p : Pool Bytes)
    (w : Value) (hk : p.db.keys k = some w)
    (hl : ∀ i ∈ is, ∃ b, bs i = some b ∧ p.threads[i]? = some (looping env k d b (env.spins + 2))) :
    ∃ s, (p.exec s).db.keys k = some (runOn bs w is) ∧ (∀ i ∈ is, ∃ r, (p.exec s).threads[i]? = some (.done r)) ∧
      ∀ j, j ∉ is → (p.exec s).threads[j]? = p.threads[j]? := by
  induction is generalizing p w with
  | nil => exact ⟨[], hk, by simp, fun _ _ => rfl⟩
  | cons i is ih =>
    obtain ⟨b, hb, ht⟩ := hl i (by simp)
    have hil := (List.getElem?_eq_some_iff.mp ht).1
    rw [List.nodup_cons] at hn
    obtain ⟨s, hs⟩ := Pool.solo _ p i ht
    have hne : ∀ j ∈ is, j ≠ i := fun j hj e => hn.1 (e ▸ hj)
    have hoth : ∀ j, j ≠ i → (p.exec s).threads[j]? = p.threads[j]? := by
      intro j hj
      rw [hs]
      simp only
      rw [List.getElem?_set_ne (fun e => hj e.symm)]
    obtain ⟨s', h1, h2, h3⟩ := ih hn.2 (p.exec s) (b w).1 (by rw [hs]; exact looping_keys _ _ _ hk) (by
      intro j hj
      rw [hoth j (hne j hj)]
      exact hl j (by simp [hj]))
    refine ⟨s ++ s', ?_, ?_, ?_⟩
    · rw [Pool.exec_append, h1]
      simp [runOn, hb]
    · intro j hj
      rw [Pool.exec_append]
      rcases List.mem_cons.mp hj with rfl | hj
      · exact ⟨_, Pool.done_stays (r := _) (by rw [hs]; simp [hil]; rfl) s'⟩
      · exact h2 j hj
    · intro j hj
      simp only [List.mem_cons, not_or] at hj
      rw [Pool.exec_append, h3 j hj.2, hoth j hj.1]

/-- C103. Any number of clients add to one missing key at the same time (counter commands; or Appends naming one
type). For every order of them, and every number `m` of them but not all, there is a schedule under which all finish
and the key holds what the commands after the first `m`, executed one after another, would have left. -/
theorem C103_any_can_be_lost {env : Env} {rs : List (Request × Bytes)} {cs : List Call} (hs : Sees rs cs) (k : Bytes) (t : KeyType)
    (hr : ∀ c ∈ cs, Adds env.mode k t c) (hu : ¬ unusable env.mode k) (db : Db) (hk : db.keys k = none)
    (hc : Roomy rs.length db.ctrs) (order : List Nat) (hp : order.Perm (List.range rs.length)) (m : Nat) (hm : m < rs.length) :
    ∃ sched, ((Pool.start env rs db).exec sched).finished ∧
      ((Pool.start env rs db).exec sched).db.keys k = (serveAll env (pick rs (order.drop m)) db).2.keys k := by
  have hlen : order.length = rs.length := by rw [hp.length_eq, List.length_range]
  have hmem : ∀ i, i ∈ order ↔ i < rs.length := fun i => by rw [hp.mem_iff, List.mem_range]
  have hnod : order.Nodup := hp.nodup_iff.mpr List.nodup_range
  have hbody : ∀ i : Nat, ∃ ob : Option Body, (i < rs.length → ∃ b r resp, ob = some b ∧ rs[i]? = some (r, resp) ∧
      dispatch env r resp = looping env k (Value.default t) b (env.spins + 2)) ∧ (¬ i < rs.length → ob = none) := by
    intro i
    by_cases hi : i < rs.length
    · obtain ⟨c, hci, hv⟩ := (Sees.get hs).2 i _ (List.getElem?_eq_getElem hi)
      obtain ⟨b, hb⟩ := adds_begin hv (hr c (List.mem_of_getElem? hci)) hu rs[i].2
      exact ⟨some b, fun _ => ⟨b, _, _, rfl, List.getElem?_eq_getElem hi, hb⟩, fun h => absurd hi h⟩
    · exact ⟨none, fun h => absurd h hi, fun _ => rfl⟩
  obtain ⟨bs, hbs⟩ := Classical.axiomOfChoice hbody
  have hstart : ∀ i, i < rs.length → ∃ b, bs i = some b ∧
      (Pool.start env rs db).threads[i]? = some (looping env k (Value.default t) b (env.spins + 2)) := by
    intro i hi
    obtain ⟨b, r, resp, h1, h2, h3⟩ := (hbs i).1 hi
    exact ⟨b, h1, by simp only [Pool.start, List.getElem?_map, h2, Option.map_some, h3]⟩
  have hl0 : (Pool.start env rs db).threads.length = rs.length := by simp [Pool.start]
  -- the order, split
  obtain ⟨x, hx⟩ : ∃ x, order[m]? = some x := ⟨order[m]'(by omega), List.getElem?_eq_getElem (by omega)⟩
  have hsplit : order = order.take m ++ x :: order.drop (m + 1) := by
    conv => lhs; rw [← List.take_append_drop m order]
    rw [List.drop_eq_getElem_cons (by omega)]
    rw [List.getElem?_eq_some_iff] at hx
    rw [hx.2]
  have hdrop : order.drop m = x :: order.drop (m + 1) := by
    rw [List.drop_eq_getElem_cons (by omega)]
    rw [List.getElem?_eq_some_iff] at hx
    rw [hx.2]
  generalize hA : order.take m = A at hsplit
  generalize hR : order.drop (m + 1) = R at hsplit hdrop
  have hn' : (A ++ x :: R).Nodup := hsplit ▸ hnod
  rw [List.nodup_append, List.nodup_cons] at hn'
  obtain ⟨hnA, ⟨hxR, hnR⟩, hAR⟩ := hn'
  have hxA : x ∉ A := fun h => hAR x h x (by simp) rfl
  have hin : ∀ i, i ∈ A ∨ i = x ∨ i ∈ R ↔ i < rs.length := by
    intro i
    rw [← hmem i, hsplit]
    simp
  -- the first m + 1 look
  obtain ⟨hk1, h1, h1'⟩ := looks (env := env) (k := k) (d := Value.default t) (bs := bs) (A ++ [x])
    (by rw [List.nodup_append]; exact ⟨hnA, by simp, by intro a ha b hb e; simp at hb; subst hb; exact hxA (e ▸ ha)⟩)
    (Pool.start env rs db) hk (by
      intro i hi
      refine hstart i ((hin i).mp ?_)
      simp only [List.mem_append, List.mem_singleton] at hi
      rcases hi with h | h
      · exact Or.inl h
      · exact Or.inr (Or.inl h))
  generalize hp1 : (Pool.start env rs db).exec (A ++ [x]) = p1 at hk1 h1 h1'
  have hl1 : p1.threads.length = rs.length := by rw [← hp1, Pool.exec_length, hl0]
  -- the first m finish
  obtain ⟨s2, h2, h2'⟩ := Pool.solos A p1 (by intro i hi; rw [hl1]; exact (hin i).mp (Or.inl hi))
  have hx2 : ∃ b, bs x = some b ∧ (p1.exec s2).threads[x]? = some (inserting env k (Value.default t) b (env.spins + 1)) := by
    rw [h2' x hxA]
    exact h1 x (by simp)
  have hR2 : ∀ i ∈ R, ∃ b, bs i = some b ∧ (p1.exec s2).threads[i]? = some (looping env k (Value.default t) b (env.spins + 2)) := by
    intro i hi
    have hiA : i ∉ A := fun h => hAR i h i (by simp [hi]) rfl
    have hix : i ≠ x := fun h => hxR (h ▸ hi)
    rw [h2' i hiA, h1' i (by simp [hiA, hix])]
    exact hstart i ((hin i).mp (Or.inr (Or.inr hi)))
  generalize hp2 : p1.exec s2 = p2 at h2 h2' hx2 hR2
  have hl2 : p2.threads.length = rs.length := by rw [← hp2, Pool.exec_length, hl1]
  -- the next one overwrites the key
  obtain ⟨b, hb, hxt⟩ := hx2
  obtain ⟨s3, hs3⟩ := Pool.solo _ p2 x hxt
  have hk3 : (p2.exec s3).db.keys k = some (b (Value.default t)).1 := by rw [hs3]; exact inserting_keys _ _
  have h3 : ∀ j, j ≠ x → (p2.exec s3).threads[j]? = p2.threads[j]? := by
    intro j hj
    rw [hs3]
    simp only
    rw [List.getElem?_set_ne (fun e => hj e.symm)]
  -- the rest act one after another
  obtain ⟨s4, hk4, h4, h4'⟩ := afterwards R hnR (p2.exec s3) _ hk3 (by
    intro i hi
    rw [h3 i (fun h => hxR (h ▸ hi))]
    exact hR2 i hi)
  have hall : (Pool.start env rs db).exec ((A ++ [x]) ++ (s2 ++ (s3 ++ s4))) = (p2.exec s3).exec s4 := by
    rw [Pool.exec_append, hp1, Pool.exec_append, hp2, Pool.exec_append]
  refine ⟨(A ++ [x]) ++ (s2 ++ (s3 ++ s4)), ?_, ?_⟩
  · rw [hall]
    intro t' ht'
    obtain ⟨i, hi⟩ := List.getElem?_of_mem ht'
    have hil : i < rs.length := by
      have := (List.getElem?_eq_some_iff.mp hi).1
      rwa [Pool.exec_length, Pool.exec_length, hl2] at this
    have hdone : ∃ r, ((p2.exec s3).exec s4).threads[i]? = some (.done r) := by
      rcases (hin i).mpr hil with h | h | h
      · obtain ⟨r, hr⟩ := h2 i h
        exact ⟨r, Pool.done_stays (Pool.done_stays hr s3) s4⟩
      · subst h
        exact ⟨_, Pool.done_stays (r := _) (by rw [hs3]; simp [hl2, hil]; rfl) s4⟩
      · exact h4 i h
    obtain ⟨r, hr⟩ := hdone
    rw [hi] at hr
    exact ⟨r, by simpa using hr⟩
  · rw [hall, hk4]
    have hseq := (serveAll_runOn (env := env) (k := k) (d := Value.default t) (bs := bs) (rs := rs) (by
      intro i b' hb'
      by_cases hi : i < rs.length
      · obtain ⟨b'', r, resp, g1, g2, g3⟩ := (hbs i).1 hi
        rw [hb'] at g1
        cases g1
        exact ⟨r, resp, g2, g3⟩
      · rw [(hbs i).2 hi] at hb'; cases hb') db hk (order.drop m) (by
      intro i hi
      obtain ⟨b', h', -⟩ := hstart i ((hmem i).mp (List.mem_of_mem_drop hi))
      exact ⟨b', h'⟩) 0 (Roomy.mono hc (by rw [List.length_drop]; omega))).2.1 (by rw [hdrop]; simp)
    rw [hseq, hdrop]
    simp [runOn, hb]

theorem totals_inc (n : Nat) (start : Int) (i : Int) (h : i ∈ totals start (List.replicate n .inc)) : start < i ∧ i ≤ start + n := by
  induction n generalizing start with
  | zero => simp [totals] at h
  | succ n ih =>
    simp only [List.replicate_succ, totals, List.mem_cons, CounterOp.amount] at h
    rcases h with rfl | h
    · omega
    · have := ih _ h
      omega

theorem total_inc (n : Nat) : total (List.replicate n .inc) = n := by
  induction n with
  | zero => rfl
  | succ n ih =>
    simp only [total, List.replicate_succ, List.map_cons, List.sum_cons, CounterOp.amount] at ih ⊢
    omega

/-- C103 for Increments, exactly: when any number of clients increment one missing key at the same time, the values
it can hold in the end are the numbers from 1 to the number of clients. -/
theorem C103_increments {env : Env} {rs : List (Request × Bytes)} {cs : List Call} (hs : Sees rs cs) (k : Bytes)
    (hr : ∀ c ∈ cs, CounterOp.inc.Spells k c) (hu : ¬ unusable env.mode k) (db : Db) (hk : db.keys k = none)
    (hc : Roomy rs.length db.ctrs) (hn : 0 < rs.length) (hn2 : rs.length < 2 ^ 63) (v : Value) :
    (∃ sched, ((Pool.start env rs db).exec sched).finished ∧ ((Pool.start env rs db).exec sched).db.keys k = some v) ↔
    ∃ n : Nat, 1 ≤ n ∧ n ≤ rs.length ∧ v = .integer (Int64.ofNat n) := by
  constructor
  · rintro ⟨sched, hf, hv⟩
    obtain ⟨n, h1, h2, h3⟩ := C33_increments_partial hs k hr hu db hk hc hn hn2 sched hf
    rw [hv] at h3
    exact ⟨n, h1, h2, Option.some.inj h3⟩
  · rintro ⟨n, h1, h2, rfl⟩
    obtain ⟨sched, hf, hkey⟩ := C103_any_can_be_lost hs k .integer
      (fun c hc => Or.inl ⟨rfl, .inc, hr c hc, Or.inr (by intro n h; cases h)⟩) hu db hk hc _ (List.Perm.refl _) (rs.length - n) (by omega)
    refine ⟨sched, hf, ?_⟩
    have hpick : ∀ is : List Nat, (∀ i ∈ is, i < rs.length) → ∃ cs', Sees (pick rs is) cs' ∧
        SpellAll k (List.replicate is.length .inc) cs' ∧ (pick rs is).length = is.length := by
      intro is
      induction is with
      | nil => intro _; exact ⟨[], .nil, .nil, rfl⟩
      | cons i is ih =>
        intro hi
        obtain ⟨cs', g1, g2, g3⟩ := ih fun j hj => hi j (by simp [hj])
        have hil := hi i (by simp)
        obtain ⟨c, hci, hv⟩ := (Sees.get hs).2 i _ (List.getElem?_eq_getElem hil)
        have hp : pick rs (i :: is) = (rs[i].1, rs[i].2) :: pick rs is := by simp [pick, hil]
        rw [hp]
        exact ⟨c :: cs', .cons hv g1, .cons (hr c (List.mem_of_getElem? hci)) g2, by simp [g3]⟩
    obtain ⟨cs', g1, g2, g3⟩ := hpick ((List.range rs.length).drop (rs.length - n)) (by
      intro i hi
      exact List.mem_range.mp (List.mem_of_mem_drop hi))
    have hlen : ((List.range rs.length).drop (rs.length - n)).length = n := by simp; omega
    rw [hlen] at g2 g3
    have hcount := (C24_counters_count (env := env) g1 g2 hu 0 db (by rw [hk]; rfl) (by rw [g3]; exact Roomy.mono hc h2) (Or.inr ⟨by
      intro i hi
      have := totals_inc _ _ _ hi
      have h0 : (0 : Int64).toInt = 0 := rfl
      rw [h0] at this
      unfold inRange
      omega, by intro m hm; simp at hm⟩)).2 (by
        intro e
        have := congrArg List.length e
        rw [List.length_replicate, List.length_nil] at this
        omega)
    rw [hkey, hcount]
    dsimp only
    rw [if_pos rfl, total_inc]
    simp only [show (0 : Int64).toInt = 0 from rfl, Int.zero_add]
    rfl

/-- Beside C103: three Increments of a missing key that leave 1, 2 and 3. -/
example : (let rs := [(call .increment none [[1]], []), (call .increment none [[1]], []), (call .increment none [[1]], [])]
    let run := fun s => ((Pool.start (sampleEnv .debug) rs (sampleDb [])).exec s).db.keys [1]
    [run [0, 1, 2, 0, 0, 0, 1, 1, 1, 2, 2, 2], run [0, 1, 0, 0, 0, 1, 1, 1, 2, 2], run [0, 0, 0, 0, 1, 1, 2, 2]]) =
    [some (.integer 1), some (.integer 2), some (.integer 3)] := by decide +kernel

example : ∃ sched, ((Pool.start (sampleEnv .debug) [(call .increment none [[1]], []), (call .increment none [[1]], [])]
      (sampleDb [])).exec sched).finished ∧
    ((Pool.start (sampleEnv .debug) [(call .increment none [[1]], []), (call .increment none [[1]], [])]
      (sampleDb [])).exec sched).db.keys [1] = some (.integer 1) := by
  have hs : Sees [(call .increment none [[1]], []), (call .increment none [[1]], [])]
      [⟨.increment, none, [[1]]⟩, ⟨.increment, none, [[1]]⟩] :=
    .cons (call_views _ _ _ (by decide) (by decide) (by decide)) (.cons (call_views _ _ _ (by decide) (by decide) (by decide)) .nil)
  exact (C103_increments (env := sampleEnv .debug) hs [1] (by
    intro c hc
    simp only [List.mem_cons, List.not_mem_nil, or_false] at hc
    rcases hc with rfl | rfl <;> exact ⟨rfl, by decide, [], rfl⟩) (by decide) _ (by decide +kernel)
    (sampleDb_roomy _ _ (by decide)) (by decide) (by decide) _).mpr ⟨1, by decide, by decide, rfl⟩

/-- Of three increments of a missing key, any two can be lost. -/
example : ∃ sched, ((Pool.start (sampleEnv .debug) [(call .increment none [[1]], []), (call .increment none [[1]], []),
      (call .incrementBy none [[1], [0, 0, 0, 0, 0, 0, 0, 7]], [])] (sampleDb [])).exec sched).finished ∧
    ((Pool.start (sampleEnv .debug) [(call .increment none [[1]], []), (call .increment none [[1]], []),
      (call .incrementBy none [[1], [0, 0, 0, 0, 0, 0, 0, 7]], [])] (sampleDb [])).exec sched).db.keys [1] = some (.integer 7) := by
  have hs : Sees [(call .increment none [[1]], []), (call .increment none [[1]], []), (call .incrementBy none [[1], [0, 0, 0, 0, 0, 0, 0, 7]], [])]
      [⟨.increment, none, [[1]]⟩, ⟨.increment, none, [[1]]⟩, ⟨.incrementBy, none, [[1], [0, 0, 0, 0, 0, 0, 0, 7]]⟩] :=
    .cons (call_views _ _ _ (by decide) (by decide) (by decide)) (.cons (call_views _ _ _ (by decide) (by decide) (by decide))
      (.cons (call_views _ _ _ (by decide) (by decide) (by decide)) .nil))
  obtain ⟨sched, h1, h2⟩ := C103_any_can_be_lost (env := sampleEnv .debug) hs [1] .integer (by
    intro c hc
    simp only [List.mem_cons, List.not_mem_nil, or_false] at hc
    rcases hc with rfl | rfl | rfl
    · exact .inl ⟨rfl, .inc, ⟨rfl, by decide, [], rfl⟩, .inr (by intro n h; cases h)⟩
    · exact .inl ⟨rfl, .inc, ⟨rfl, by decide, [], rfl⟩, .inr (by intro n h; cases h)⟩
    · exact .inl ⟨rfl, .incBy 7, ⟨rfl, [], [], by decide +kernel⟩, .inr (by intro n h; cases h)⟩) (by decide) (sampleDb []) rfl
    (by intro m; simp [sampleDb]) [0, 1, 2] (by decide) 2 (by decide)
  exact ⟨sched, h1, h2.trans (by decide +kernel)⟩

end Hop
