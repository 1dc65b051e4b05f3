import Verif.Props.Concurrent
import Verif.Lemmas.Types

/-! # C34, C36, C54, C60: concurrent commands on different keys, statistics -/

namespace Hop

open Spec Prog

/-! ## C54 A key nobody names stays as it was -/

theorem writes_bystander {env : Env} {r : Request} {k : Bytes} {c : Call} (hv : Views r c.cmd c.kt c.args)
    (hb : Bystander k c) (resp : Bytes) : Writes (· ≠ k) (dispatch env r resp) := by
  refine writes_dispatch ?_ ?_
  · intro hn k' hk' e
    subst e
    rw [hv.command] at hn
    rw [hv.arg 0] at hk'
    rcases hb with h | h
    · exact hn h
    · exact h.1 hk'
  · intro hc k' hk' e
    subst e
    rw [hv.command] at hc
    rw [hv.arg 1] at hk'
    rcases hb with h | h
    · rw [hc] at h; simp at h
    · exact h.2 hc hk'

/-- If no thread writes `k`, it stays. -/
theorem Pool.keeps {α} {p : Pool α} {k : Bytes} (h : ∀ t ∈ p.threads, Writes (· ≠ k) t) (sched : List Nat) :
    (∀ t ∈ (p.exec sched).threads, Writes (· ≠ k) t) ∧ (p.exec sched).db.keys k = p.db.keys k := by
  induction sched using snoc_induction with
  | h0 => exact ⟨h, rfl⟩
  | h1 s i ih =>
    rw [Pool.exec_snoc]
    cases ht : (p.exec s).threads[i]? with
    | none => rw [Pool.stepAt_none ht]; exact ih
    | some t =>
      have hw := Writes.step (ih.1 t (List.mem_of_getElem? ht)) (p.exec s).db
      rw [Pool.stepAt_some ht]
      refine ⟨?_, ?_⟩
      · intro t' ht'
        rcases List.mem_or_eq_of_mem_set ht' with h | rfl
        · exact ih.1 t' h
        · exact hw.1
      · rw [← ih.2]; exact hw.2 k (by simp)

theorem start_get {env : Env} {rs : List (Request × Bytes)} {cs : List Call} (hs : Sees rs cs) {db : Db} {t : Prog Bytes}
    (ht : t ∈ (Pool.start env rs db).threads) :
    ∃ r resp c, t = dispatch env r resp ∧ c ∈ cs ∧ Views r c.cmd c.kt c.args := by
  simp only [Pool.start, List.mem_map] at ht
  obtain ⟨r, hr, rfl⟩ := ht
  obtain ⟨i, hi⟩ := List.getElem?_of_mem hr
  obtain ⟨c, hci, hv⟩ := (Sees.get hs).2 i r hi
  exact ⟨r.1, r.2, c, rfl, List.mem_of_getElem? hci, hv⟩

/-- C54. Whatever the clients do concurrently, at every moment a key that no request names as a key to be
changed holds what it held at the start. -/
theorem C54_untouched {env : Env} {rs : List (Request × Bytes)} {cs : List Call} (hs : Sees rs cs) (db : Db) (k : Bytes)
    (hb : ∀ c ∈ cs, Bystander k c) (sched : List Nat) :
    ((Pool.start env rs db).exec sched).db.keys k = db.keys k := by
  refine (Pool.keeps ?_ sched).2
  intro t ht
  obtain ⟨r, resp, c, rfl, hc, hv⟩ := start_get hs ht
  exact writes_bystander hv (hb c hc) resp

example : ((Pool.start (sampleEnv .debug) [(call .set none [[1], [2]], []), (call .delete none [[3]], []),
    (call .rename none [[4], [5]], [])] (sampleDb [([4], .boolean true), ([9], .integer 5)])).exec
    [0, 1, 2, 2, 0, 1, 0, 2, 0]).db.keys [9] = some (.integer 5) := by
  rw [C54_untouched (cs := [⟨.set, none, [[1], [2]]⟩, ⟨.delete, none, [[3]]⟩, ⟨.rename, none, [[4], [5]]⟩])
    (.cons (call_views _ _ _ (by decide) (by decide) (by decide)) (.cons (call_views _ _ _ (by decide) (by decide) (by decide))
      (.cons (call_views _ _ _ (by decide) (by decide) (by decide)) .nil)))]
  · decide +kernel
  · intro c hc
    simp only [List.mem_cons, List.not_mem_nil, or_false] at hc
    rcases hc with rfl | rfl | rfl <;> exact Or.inr (by decide)

/-! ## C34 Concurrent commands on different keys do not interfere -/

/-- Counters are touched only at the very end. -/
def Late {α} : Prog α → Prop
  | .done _ => True
  | .onKey _ _ next => ∀ o, Late (next o)
  | .onCtr _ _ next => ∃ r, ∀ o, o.getD 0 + 1 < 2 ^ 64 → next o = .done r

theorem Late.andThen {p : Prog Bytes} (hp : CounterFree p) {f : Outcome DispatchError Bytes → Prog Bytes}
    (hf : ∀ r, Late (f r)) : Late (p.andThen f) := by
  induction p with
  | done r => exact hf r
  | onKey k upd next ih => exact fun o => ih o (hp o)
  | onCtr m upd next ih => exact absurd hp id

theorem late_dispatch {env : Env} {r : Request} {resp : Bytes} (h : r.commandId ≠ .stats) : Late (dispatch env r resp) := by
  refine Late.andThen (counterFree_command h) fun r => ?_
  cases r with
  | ok a => exact ⟨_, fun o ho => by (try dsimp only); rw [addU_of_lt ho]⟩
  | err e => exact ⟨_, fun o ho => by (try dsimp only); rw [addU_of_lt ho]⟩
  | panic => trivial
  | stuck => trivial

/-- Running the rest alone gives the outcome `r0` and the values `v0` under the keys in `K`. -/
def Heads {α} (K : Bytes → Prop) (r0 : Outcome DispatchError α) (v0 : Bytes → Option Value) (t : Prog α) (db : Db) : Prop :=
  ∀ db' : Db, (∀ k, K k → db'.keys k = db.keys k) → Roomy 1 db'.ctrs →
    (t.run db').1 = r0 ∧ ∀ k, K k → (t.run db').2.keys k = v0 k

theorem Heads.step {α} {K : Bytes → Prop} {r0 : Outcome DispatchError α} {v0 : Bytes → Option Value} {t : Prog α} {db : Db}
    (h : Heads K r0 v0 t db) (ht : Touches K t) (hl : Late t) (hr : live t = true → ∀ m, (db.ctrs m).getD 0 + 1 < 2 ^ 64) :
    Heads K r0 v0 (t.step db).1 (t.step db).2 ∧ Touches K (t.step db).1 ∧ Late (t.step db).1 := by
  cases t with
  | done r => exact ⟨h, ht, hl⟩
  | onKey k upd next =>
    refine ⟨?_, ht.2 _, hl _⟩
    intro db' hdb hroom
    simp only [Prog.step] at hdb ⊢
    have := h (db'.setKey k (db.keys k)) (by
      intro k' hk'
      simp only [Db.setKey]
      split
      · subst_vars; rfl
      · rename_i e
        rw [hdb k' hk']
        simp only [Db.setKey, if_neg e]) hroom
    simp only [Prog.run] at this
    have e1 : (db'.setKey k (db.keys k)).keys k = db.keys k := by simp [Db.setKey]
    have e2 : (db'.setKey k (db.keys k)).setKey k (upd (db.keys k)) = db' := by
      obtain ⟨ks, cs⟩ := db'
      simp only [Db.setKey, Db.mk.injEq, and_true]
      funext k'
      split
      · subst_vars
        have := hdb _ ht.1
        simp [Db.setKey] at this
        exact this.symm
      · rfl
    rw [e1, e2] at this
    exact this
  | onCtr m upd next =>
    obtain ⟨r, hn⟩ := hl
    simp only [Prog.step, hn _ (hr rfl m)]
    refine ⟨?_, trivial, trivial⟩
    intro db' hdb hroom
    have := h db' (fun k hk => hdb k hk) hroom
    simp only [Prog.run, hn _ (hroom m)] at this
    exact this

theorem touches_named {env : Env} {r : Request} {c : Call} (hv : Views r c.cmd c.kt c.args) (resp : Bytes) :
    Touches (· ∈ named c) (dispatch env r resp) := by
  refine Touches.andThen ?_ fun r => Touches.countOutcome r
  obtain ⟨cmd, kt, args⟩ := c
  simp only at hv
  by_cases h1 : cmd = .echo
  · subst h1
    unfold command
    rw [hv.command]
    dsimp only
    unfold dispatchEcho
    split <;> trivial
  by_cases h2 : cmd = .stats
  · subst h2
    unfold command
    rw [hv.command]
    dsimp only
    unfold dispatchStats
    split
    · trivial
    · exact Touches.statsLoop (fun _ => by trivial) _ _
  refine touches_command ?_ ?_ ?_
  · intro k hk
    rw [hv.arg 0] at hk
    cases args with
    | nil => simp at hk
    | cons a args =>
      simp at hk
      subst hk
      cases cmd <;> simp [named] at h1 h2 ⊢
  · intro hr k hk
    rw [hv.command] at hr
    subst hr
    rw [hv.arg 1] at hk
    rcases args with _ | ⟨a, _ | ⟨b, args⟩⟩ <;> simp at hk
    subst hk
    simp [named]
  · intro hr l hl k hk
    rw [hv.command] at hr
    rw [argsFrom_eq hv] at hl
    split at hl
    · simp at hl
    · simp only [List.drop_zero, Option.some.injEq] at hl
      subst hl
      rcases hr with rfl | rfl <;> simpa [named] using hk

/-- C34. Client `i` issues any command but Stats; the others issue anything that cannot change the keys it
names. Under every schedule, once client `i` has its answer, it is the answer it would have got alone, and
the keys it names hold what they would then hold. -/
theorem C34_no_interference {env : Env} {rs : List (Request × Bytes)} {cs : List Call} (hs : Sees rs cs) (i : Nat)
    (r : Request) (resp : Bytes) (c : Call) (hi : rs[i]? = some (r, resp)) (hci : cs[i]? = some c) (hst : c.cmd ≠ .stats)
    (hoth : ∀ (j : Nat) c', cs[j]? = some c' → j ≠ i → ∀ k ∈ named c, Bystander k c') (db : Db)
    (hc : Roomy rs.length db.ctrs) (sched : List Nat) (out : Outcome DispatchError Bytes)
    (hd : ((Pool.start env rs db).exec sched).threads[i]? = some (.done out)) :
    out = ((dispatch env r resp).run db).1 ∧
    ∀ k ∈ named c, ((Pool.start env rs db).exec sched).db.keys k = ((dispatch env r resp).run db).2.keys k := by
  have hlt : i < rs.length := (List.getElem?_eq_some_iff.mp hi).1
  have hv : Views r c.cmd c.kt c.args := by
    obtain ⟨c', h1, h2⟩ := (Sees.get hs).2 i _ hi
    rw [hci] at h1
    simp only [Option.some.injEq] at h1
    subst h1
    exact h2
  have hlate := late_dispatch (env := env) (r := r) (resp := resp) (by rw [hv.command]; exact hst)
  have htou := touches_named (env := env) hv resp
  have hothers : ∀ (j : Nat) t, (Pool.start env rs db).threads[j]? = some t → j ≠ i → Writes (· ∉ named c) t := by
    intro j t ht hj
    simp only [Pool.start, List.getElem?_map, Option.map_eq_some_iff] at ht
    obtain ⟨r', hr', rfl⟩ := ht
    obtain ⟨c', h1, h2⟩ := (Sees.get hs).2 j r' hr'
    refine writes_dispatch ?_ ?_
    · intro hn k' hk' e
      rw [h2.command] at hn
      rw [h2.arg 0] at hk'
      rcases hoth j c' h1 hj k' e with h | h
      · exact hn h
      · exact h.1 hk'
    · intro hc k' hk' e
      rw [h2.command] at hc
      rw [h2.arg 1] at hk'
      rcases hoth j c' h1 hj k' e with h | h
      · rw [hc] at h; simp at h
      · exact h.2 hc hk'
  have hstart : (Pool.start env rs db).threads[i]? = some (dispatch env r resp) := by
    simp only [Pool.start, List.getElem?_map, hi, Option.map_some]
  have hbud := Budget.start env rs db hc
  -- the invariant
  have hinv : ∀ s : List Nat, (∃ t, ((Pool.start env rs db).exec s).threads[i]? = some t ∧ Touches (· ∈ named c) t ∧ Late t ∧
      Heads (· ∈ named c) ((dispatch env r resp).run db).1 ((dispatch env r resp).run db).2.keys t ((Pool.start env rs db).exec s).db) ∧
      (∀ (j : Nat) t, ((Pool.start env rs db).exec s).threads[j]? = some t → j ≠ i → Writes (· ∉ named c) t) := by
    intro s
    induction s using snoc_induction with
    | h0 =>
      refine ⟨⟨_, hstart, htou, hlate, ?_⟩, hothers⟩
      -- running from a database that agrees on the named keys
      have gen : ∀ (t : Prog Bytes), Touches (· ∈ named c) t → Late t → ∀ db1 db2 : Db, (∀ k, k ∈ named c → db1.keys k = db2.keys k) →
          Roomy 1 db1.ctrs → Roomy 1 db2.ctrs → (t.run db1).1 = (t.run db2).1 ∧
            ∀ k, k ∈ named c → (t.run db1).2.keys k = (t.run db2).2.keys k := by
        intro t
        induction t with
        | done r => intro _ _ db1 db2 h _ _; exact ⟨rfl, h⟩
        | onKey k upd next ih =>
          intro ht hl db1 db2 h h1 h2
          simp only [Prog.run]
          rw [h k ht.1]
          refine ih _ (ht.2 _) (hl _) _ _ ?_ h1 h2
          intro k' hk'
          simp only [Db.setKey]
          split
          · rfl
          · exact h k' hk'
        | onCtr m upd next ih =>
          rintro ht ⟨r, hn⟩ db1 db2 h h1 h2
          simp only [Prog.run, hn _ (h1 m), hn _ (h2 m)]
          exact ⟨trivial, h⟩
      intro db' hdb hroom
      exact gen _ htou hlate db' db hdb hroom (Roomy.mono hc (by omega))
    | h1 s j ih =>
      obtain ⟨⟨t, ht, h1, h2, h3⟩, h4⟩ := ih
      rw [Pool.exec_snoc]
      by_cases e : j = i
      · subst e
        obtain ⟨hself, hdb⟩ := Pool.stepAt_self ht
        obtain ⟨h5, h6, h7⟩ := h3.step h1 h2 fun hl m => (hbud.exec s).room ht hl m
        refine ⟨⟨_, hself, h6, h7, by rw [hdb]; exact h5⟩, ?_⟩
        intro j' t' ht' hj'
        rw [Pool.stepAt_other _ hj'] at ht'
        exact h4 j' t' ht' hj'
      · cases htj : ((Pool.start env rs db).exec s).threads[j]? with
        | none => rw [Pool.stepAt_none htj]; exact ⟨⟨t, ht, h1, h2, h3⟩, h4⟩
        | some t' =>
          obtain ⟨hself, hdb⟩ := Pool.stepAt_self htj
          have hw := Writes.step (h4 j t' htj e) ((Pool.start env rs db).exec s).db
          refine ⟨⟨t, by rw [Pool.stepAt_other _ (Ne.symm e)]; exact ht, h1, h2, ?_⟩, ?_⟩
          · intro db' hdb' hroom
            refine h3 db' (fun k hk => ?_) hroom
            rw [hdb' k hk, hdb]
            exact hw.2 k (by simpa using hk)
          · intro j' t'' ht'' hj'
            by_cases e' : j' = j
            · subst e'
              rw [hself] at ht''
              simp only [Option.some.injEq] at ht''
              subst ht''
              exact hw.1
            · rw [Pool.stepAt_other _ e'] at ht''
              exact h4 j' t'' ht'' hj'
  obtain ⟨⟨t, ht, -, -, h⟩, -⟩ := hinv sched
  rw [hd] at ht
  simp only [Option.some.injEq] at ht
  subst ht
  have := h { keys := ((Pool.start env rs db).exec sched).db.keys, ctrs := fun _ => none } (fun _ _ => rfl)
    (by intro m; simp)
  exact this

/-- Beside C34: a Set of one key between the steps of a Rename of two others. -/
example : ∃ out, ((Pool.start (sampleEnv .debug) [(call .rename none [[4], [5]], []), (call .set none [[1], [2]], [])]
    (sampleDb [([4], .boolean true)])).exec [0, 1, 1, 0, 1, 0, 0, 0]).threads[0]? = some (.done out) ∧
    out = .ok (frame (.value (.bytes [5]))) := by
  have hsome : ∃ out, ((Pool.start (sampleEnv .debug) [(call .rename none [[4], [5]], []), (call .set none [[1], [2]], [])]
    (sampleDb [([4], .boolean true)])).exec [0, 1, 1, 0, 1, 0, 0, 0]).threads[0]? = some (.done out) := ⟨_, rfl⟩
  obtain ⟨out, h⟩ := hsome
  refine ⟨out, h, ?_⟩
  have := (C34_no_interference (cs := [⟨.rename, none, [[4], [5]]⟩, ⟨.set, none, [[1], [2]]⟩])
    (.cons (call_views _ _ _ (by decide) (by decide) (by decide)) (.cons (call_views _ _ _ (by decide) (by decide) (by decide)) .nil))
    0 _ _ _ rfl rfl (by decide) (by
      intro j c' hc hj k hk
      rcases j with _ | _ | j
      · exact absurd rfl hj
      · simp at hc; subst hc
        simp [named] at hk
        rcases hk with rfl | rfl <;> exact Or.inr (by decide)
      · simp at hc) _ (sampleDb_roomy _ _ (by decide)) _ out h).1
  rw [this]
  decide +kernel

end Hop
