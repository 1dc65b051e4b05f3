import Verif.Spec.Concurrent
import Verif.Lemmas.Calls
import Verif.Lemmas.Footprint

/-! # Pools of threads: counter budget, linearization -/

namespace Hop

open Spec Prog

/-- Requests served by one thread each. -/
def Pool.start (env : Env) (rs : List (Request × Bytes)) (db : Db) : Pool Bytes :=
  { threads := rs.map fun r => dispatch env r.1 r.2, db := db }

theorem Pool.exec_nil {α} (p : Pool α) : p.exec [] = p := rfl
theorem Pool.exec_snoc {α} (p : Pool α) (s : List Nat) (i : Nat) : p.exec (s ++ [i]) = (p.exec s).stepAt i := by
  simp [Pool.exec]
theorem Pool.exec_append {α} (p : Pool α) (s t : List Nat) : p.exec (s ++ t) = (p.exec s).exec t := by
  simp [Pool.exec]

/-- Induction over the steps of a schedule. -/
theorem snoc_induction {P : List Nat → Prop} (h0 : P []) (h1 : ∀ s i, P s → P (s ++ [i])) (s : List Nat) : P s := by
  have : ∀ l : List Nat, P l.reverse := by
    intro l
    induction l with
    | nil => exact h0
    | cons a l ih => rw [List.reverse_cons]; exact h1 _ _ ih
  have := this s.reverse
  rwa [List.reverse_reverse] at this

theorem Pool.stepAt_none {α} {p : Pool α} {i : Nat} (h : p.threads[i]? = none) : p.stepAt i = p := by
  simp [Pool.stepAt, h]

theorem Pool.stepAt_some {α} {p : Pool α} {i : Nat} {t : Prog α} (h : p.threads[i]? = some t) :
    p.stepAt i = { threads := p.threads.set i (t.step p.db).1, db := (t.step p.db).2 } := by
  simp [Pool.stepAt, h]

theorem Pool.stepAt_done {α} {p : Pool α} {i : Nat} {r : Outcome DispatchError α} (h : p.threads[i]? = some (.done r)) :
    p.stepAt i = p := by
  rw [Pool.stepAt_some h]
  obtain ⟨ts, db⟩ := p
  simp only [Prog.step] at h ⊢
  congr
  rw [List.getElem?_eq_some_iff] at h
  obtain ⟨h1, h2⟩ := h
  rw [← h2]; exact List.set_getElem_self _

theorem Pool.stepAt_length {α} (p : Pool α) (i : Nat) : (p.stepAt i).threads.length = p.threads.length := by
  cases h : p.threads[i]? with
  | none => rw [Pool.stepAt_none h]
  | some t => rw [Pool.stepAt_some h]; simp

theorem Pool.exec_length {α} (p : Pool α) (s : List Nat) : (p.exec s).threads.length = p.threads.length := by
  induction s using snoc_induction with
  | h0 => rfl
  | h1 s i ih => rw [Pool.exec_snoc, Pool.stepAt_length, ih]

theorem Pool.stepAt_other {α} (p : Pool α) {i j : Nat} (h : j ≠ i) : (p.stepAt i).threads[j]? = p.threads[j]? := by
  cases ht : p.threads[i]? with
  | none => rw [Pool.stepAt_none ht]
  | some t =>
    rw [Pool.stepAt_some ht]
    simp only
    rw [List.getElem?_set_ne (fun e => h e.symm)]

theorem Pool.stepAt_self {α} {p : Pool α} {i : Nat} {t : Prog α} (ht : p.threads[i]? = some t) :
    (p.stepAt i).threads[i]? = some (t.step p.db).1 ∧ (p.stepAt i).db = (t.step p.db).2 := by
  rw [Pool.stepAt_some ht]
  simp only
  rw [List.getElem?_eq_some_iff] at ht
  obtain ⟨h1, -⟩ := ht
  exact ⟨by rw [List.getElem?_set_self h1], trivial⟩

/-- A finished thread stays finished. -/
theorem Pool.done_stays {α} {p : Pool α} {i : Nat} {r : Outcome DispatchError α} (h : p.threads[i]? = some (.done r))
    (s : List Nat) : (p.exec s).threads[i]? = some (.done r) := by
  induction s using snoc_induction with
  | h0 => exact h
  | h1 s j ih =>
    rw [Pool.exec_snoc]
    by_cases e : i = j
    · subst e; rw [Pool.stepAt_done ih]; exact ih
    · rw [Pool.stepAt_other _ e]; exact ih

/-! ## The counters never overflow -/

/-- The program increments a counter at most once, as its last operation, and otherwise only reads counters. -/
def Counts {α} : Prog α → Prop
  | .done _ => True
  | .onKey _ _ next => ∀ o, Counts (next o)
  | .onCtr _ upd next => ∀ o, (upd o = o ∧ Counts (next o)) ∨ ((upd o).getD 0 ≤ o.getD 0 + 1 ∧ ∃ r, next o = .done r)

/-- Not finished. -/
def live {α} : Prog α → Bool
  | .done _ => false
  | _ => true

theorem Counts.andThen {p : Prog Bytes} (hp : CtrQuiet p) {f : Outcome DispatchError Bytes → Prog Bytes}
    (hf : ∀ r, Counts (f r)) : Counts (p.andThen f) := by
  induction p with
  | done r => exact hf r
  | onKey k upd next ih => exact fun o => ih o (hp o)
  | onCtr m upd next ih => exact fun o => Or.inl ⟨hp.1 o, ih o (hp.2 o)⟩

theorem addU_le {m : Mode} {x : Nat} : ((addU m 64 x 1).getD x) ≤ x + 1 := by
  simp only [addU]
  split
  · simp
  · cases m
    · simp
    · simp only [Option.getD_some]
      exact Nat.mod_le _ _

theorem Counts.countOutcome (env : Env) (r : Outcome DispatchError Bytes) : Counts (countOutcome env r) := by
  cases r <;> simp only [Hop.countOutcome, incrementMetric]
  case panic => trivial
  case stuck => trivial
  all_goals
    intro o
    right
    refine ⟨by simpa using addU_le, ?_⟩
    dsimp only
    split <;> exact ⟨_, rfl⟩

theorem Counts.dispatch (env : Env) (r : Request) (resp : Bytes) : Counts (dispatch env r resp) :=
  Counts.andThen (quiet_command env r resp) (Counts.countOutcome env)

/-- Enough room for every unfinished thread. -/
def Budget {α} (p : Pool α) : Prop := (∀ t ∈ p.threads, Counts t) ∧ Roomy (p.threads.countP live) p.db.ctrs

theorem countP_set_le {α} (f : α → Bool) (l : List α) (i : Nat) (a : α) (h : i < l.length) (hf : f l[i] = true) :
    (f a = false → (l.set i a).countP f + 1 = l.countP f) ∧ (f a = true → (l.set i a).countP f = l.countP f) := by
  induction l generalizing i with
  | nil => simp at h
  | cons x l ih =>
    cases i with
    | zero =>
      simp only [List.getElem_cons_zero] at hf
      simp only [List.set_cons_zero, List.countP_cons, hf]
      constructor <;> intro h <;> simp [h]
    | succ i =>
      simp only [List.length_cons, Nat.add_lt_add_iff_right] at h
      simp only [List.getElem_cons_succ] at hf
      obtain ⟨h1, h2⟩ := ih i h hf
      simp only [List.set_cons_succ, List.countP_cons]
      exact ⟨fun h => by have := h1 h; omega, fun h => by have := h2 h; omega⟩

theorem live_pos {α} {p : Pool α} {i : Nat} {t : Prog α} (h : p.threads[i]? = some t) (hl : live t = true) :
    1 ≤ p.threads.countP live := by
  rw [List.getElem?_eq_some_iff] at h
  obtain ⟨h1, h2⟩ := h
  exact List.countP_pos_iff.mpr ⟨t, by rw [← h2]; exact List.getElem_mem h1, hl⟩

theorem Budget.room {α} {p : Pool α} (hb : Budget p) {i : Nat} {t : Prog α} (h : p.threads[i]? = some t)
    (hl : live t = true) (m : Metric) : (p.db.ctrs m).getD 0 + 1 < 2 ^ 64 := by
  have := hb.2 m
  have := live_pos h hl
  omega

theorem Budget.step {α} {p : Pool α} (hb : Budget p) (i : Nat) : Budget (p.stepAt i) := by
  cases ht : p.threads[i]? with
  | none => rw [Pool.stepAt_none ht]; exact hb
  | some t =>
    obtain ⟨h1, h2⟩ := List.getElem?_eq_some_iff.mp ht
    have hct := hb.1 t (by rw [← h2]; exact List.getElem_mem h1)
    rw [Pool.stepAt_some ht]
    have hmem : ∀ t', (Counts t') → ∀ x ∈ p.threads.set i t', Counts x := by
      intro t' ht' x hx
      rcases List.mem_or_eq_of_mem_set hx with h | rfl
      · exact hb.1 x h
      · exact ht'
    cases t with
    | done r =>
      have := Pool.stepAt_done ht
      rw [Pool.stepAt_some ht] at this
      rw [this]; exact hb
    | onKey k upd next =>
      simp only [Prog.step]
      refine ⟨hmem _ (hct _), ?_⟩
      intro m
      have hr := hb.2 m
      simp only [Db.setKey]
      have hs := countP_set_le live p.threads i (next (p.db.keys k)) h1 (by rw [h2]; rfl)
      cases hl : live (next (p.db.keys k)) with
      | true => have := hs.2 hl; omega
      | false => have := hs.1 hl; omega
    | onCtr m upd next =>
      simp only [Prog.step]
      have hs := countP_set_le live p.threads i (next (p.db.ctrs m)) h1 (by rw [h2]; rfl)
      rcases hct (p.db.ctrs m) with ⟨hq, hc⟩ | ⟨hq, r, hr⟩
      · refine ⟨hmem _ hc, ?_⟩
        intro m'
        have hr := hb.2 m'
        have : ((p.db.setCtr m (upd (p.db.ctrs m))).ctrs m') = p.db.ctrs m' := by
          simp only [Db.setCtr, hq]; split <;> simp [*]
        simp only [this]
        cases hl : live (next (p.db.ctrs m)) with
        | true => have := hs.2 hl; omega
        | false => have := hs.1 hl; omega
      · refine ⟨hmem _ (by rw [hr]; trivial), ?_⟩
        intro m'
        have hrm := hb.2 m
        have hrm' := hb.2 m'
        have hcp := hs.1 (by rw [hr]; rfl)
        simp only [Db.setCtr]
        split
        · subst_vars; omega
        · omega

theorem Budget.exec {α} {p : Pool α} (hb : Budget p) (s : List Nat) : Budget (p.exec s) := by
  induction s using snoc_induction with
  | h0 => exact hb
  | h1 s i ih => rw [Pool.exec_snoc]; exact ih.step i

theorem Budget.start (env : Env) (rs : List (Request × Bytes)) (db : Db) (hc : Roomy rs.length db.ctrs) :
    Budget (Pool.start env rs db) := by
  refine ⟨?_, ?_⟩
  · intro t ht
    simp only [Pool.start, List.mem_map] at ht
    obtain ⟨r, -, rfl⟩ := ht
    exact Counts.dispatch _ _ _
  · refine Roomy.mono hc ?_
    have := List.countP_le_length (p := live) (l := (Pool.start env rs db).threads)
    simpa [Pool.start] using this

/-! ## Threads that take effect in a single operation -/

/-- No key operation left; the outcome is `r` unless a counter is full. -/
def Ends {α} (r : Outcome DispatchError α) : Prog α → Prop
  | .done r' => r' = r
  | .onKey _ _ _ => False
  | .onCtr _ _ next => ∀ o, o.getD 0 + 1 < 2 ^ 64 → next o = .done r

/-- After looks that cannot tell apart the stores satisfying `Inv`, the program has at most one operation
that matters; then it is as described by `E`. -/
inductive Single {α} (Inv : Store → Prop) (E : Prog α → Prop) : Nat → Prog α → Prop
  | quiet {n : Nat} {p : Prog α} : E p → Single Inv E n p
  | fire {n : Nat} {k : Bytes} {upd : Option Value → Option Value} {next : Option Value → Prog α} :
    (∀ s, Inv s → Inv (s.put k (upd (s k))) ∧ E (next (s k))) → Single Inv E n (.onKey k upd next)
  | look {n : Nat} {k : Bytes} {upd : Option Value → Option Value} {next : Option Value → Prog α} {q : Prog α} :
    (∀ s, Inv s → upd (s k) = s k ∧ next (s k) = q) → Single Inv E n q → Single Inv E (n + 1) (.onKey k upd next)

/-- The same with the meaning `F` of the program. -/
inductive Shot {α} (Inv : Store → Prop) (F : Store → Outcome DispatchError α × Store) : Nat → Prog α → Prop
  | quiet {n : Nat} {p : Prog α} {r : Outcome DispatchError α} : Ends r p → (∀ s, Inv s → F s = (r, s)) → Shot Inv F n p
  | fire {n : Nat} {k : Bytes} {upd : Option Value → Option Value} {next : Option Value → Prog α} :
    (∀ s, Inv s → Inv (s.put k (upd (s k))) ∧ (F s).2 = s.put k (upd (s k)) ∧ Ends (F s).1 (next (s k))) →
    Shot Inv F n (.onKey k upd next)
  | look {n : Nat} {k : Bytes} {upd : Option Value → Option Value} {next : Option Value → Prog α} {q : Prog α} :
    (∀ s, Inv s → upd (s k) = s k ∧ next (s k) = q) → Shot Inv F n q → Shot Inv F (n + 1) (.onKey k upd next)

/-- What a program does to the stored keys when run alone. -/
def meaning {α} (p : Prog α) (ctrs : Metric → Option Nat) (s : Store) : Outcome DispatchError α × Store :=
  ((p.run ⟨s, ctrs⟩).1, (p.run ⟨s, ctrs⟩).2.keys)

theorem Ends.run {α} {r : Outcome DispatchError α} {p : Prog α} (h : Ends r p) (db : Db) (hc : Roomy 1 db.ctrs) :
    (p.run db).1 = r ∧ (p.run db).2.keys = db.keys := by
  cases p with
  | done r' => exact ⟨h, rfl⟩
  | onKey => exact absurd h id
  | onCtr m upd next =>
    simp only [Prog.run]
    rw [h _ (hc m)]
    exact ⟨rfl, rfl⟩

theorem put_same (s : Store) (k : Bytes) : s.put k (s k) = s := by
  funext k'; simp only [Store.put]; split
  · subst_vars; rfl
  · rfl

theorem Shot.congr {α} {Inv : Store → Prop} {F G : Store → Outcome DispatchError α × Store} {n : Nat} {p : Prog α}
    (h : Shot Inv F n p) (e : ∀ s, Inv s → F s = G s) : Shot Inv G n p := by
  induction h with
  | quiet h1 h2 => exact .quiet h1 fun s hs => by rw [← e s hs]; exact h2 s hs
  | fire h => exact .fire fun s hs => by rw [← e s hs]; exact h s hs
  | look h _ ih => exact .look h ih

theorem Single.shot {α} {Inv : Store → Prop} {n : Nat} {p : Prog α} {ctrs : Metric → Option Nat} (hc : Roomy 1 ctrs)
    (h : Single Inv (fun p => ∃ r, Ends r p) n p) : Shot Inv (meaning p ctrs) n p := by
  induction h with
  | quiet h =>
    obtain ⟨r, h⟩ := h
    refine .quiet h fun s _ => ?_
    obtain ⟨h1, h2⟩ := h.run ⟨s, ctrs⟩ hc
    simp only [meaning, h1, h2]
  | @fire n k upd next h =>
    refine .fire fun s hs => ?_
    obtain ⟨h1, r, h2⟩ := h s hs
    have hrun := h2.run (Db.setKey ⟨s, ctrs⟩ k (upd (s k))) hc
    have e1 : (meaning (.onKey k upd next) ctrs s).1 = r := hrun.1
    have e2 : (meaning (.onKey k upd next) ctrs s).2 = s.put k (upd (s k)) := hrun.2
    exact ⟨h1, e2, by rw [e1]; exact h2⟩
  | @look n k upd next q h _ ih =>
    refine .look h (ih.congr fun s hs => ?_)
    obtain ⟨h1, h2⟩ := h s hs
    have : Db.setKey ⟨s, ctrs⟩ k (upd (s k)) = ⟨s, ctrs⟩ := by
      rw [h1]; simp only [Db.setKey, Db.mk.injEq, and_true]; exact put_same s k
    simp only [meaning, Prog.run, this, h2]

/-- One after the other. -/
def seqs {α} (F : Nat → Store → Outcome DispatchError α × Store) : List Nat → Store → List (Outcome DispatchError α) × Store
  | [], s => ([], s)
  | i :: is, s => ((F i s).1 :: (seqs F is (F i s).2).1, (seqs F is (F i s).2).2)

theorem seqs_snoc {α} (F : Nat → Store → Outcome DispatchError α × Store) (is : List Nat) (i : Nat) (s : Store) :
    seqs F (is ++ [i]) s = ((seqs F is s).1 ++ [(F i (seqs F is s).2).1], (F i (seqs F is s).2).2) := by
  induction is generalizing s with
  | nil => rfl
  | cons j is ih => simp only [List.cons_append, seqs, ih]

theorem seqs_length {α} (F : Nat → Store → Outcome DispatchError α × Store) (is : List Nat) (s : Store) :
    (seqs F is s).1.length = is.length := by
  induction is generalizing s with
  | nil => rfl
  | cons j is ih => simp only [seqs, List.length_cons, ih]

/-- The pool after some schedule, explained by serving the threads of `order` one after the other. -/
structure Lin {α} (Inv : Store → Prop) (F : Nat → Store → Outcome DispatchError α × Store) (s0 : Store)
    (order : List Nat) (p : Pool α) : Prop where
  nodup : order.Nodup
  bound : ∀ i ∈ order, i < p.threads.length
  keys : p.db.keys = (seqs F order s0).2
  inv : Inv p.db.keys
  fired : ∀ j i : Nat, order[j]? = some i → ∃ t r, p.threads[i]? = some t ∧ (seqs F order s0).1[j]? = some r ∧ Ends r t
  waiting : ∀ i t, p.threads[i]? = some t → i ∉ order → live t = true ∧ ∃ n, Shot Inv (F i) n t

theorem Lin.step {α} {Inv : Store → Prop} {F : Nat → Store → Outcome DispatchError α × Store} {s0 : Store}
    {order : List Nat} {p : Pool α} (h : Lin Inv F s0 order p) (hb : Budget p) (i : Nat) :
    Lin Inv F s0 order (p.stepAt i) ∨ (i ∉ order ∧ Lin Inv F s0 (order ++ [i]) (p.stepAt i)) := by
  cases ht : p.threads[i]? with
  | none => rw [Pool.stepAt_none ht]; exact Or.inl h
  | some t =>
    obtain ⟨hself, hdb⟩ := Pool.stepAt_self ht
    have hoth := fun j (hj : j ≠ i) => Pool.stepAt_other p hj
    by_cases hi : i ∈ order
    · -- finishing
      left
      obtain ⟨j, hj⟩ := List.getElem?_of_mem hi
      obtain ⟨t', r, ht', hr, he⟩ := h.fired j i hj
      rw [ht] at ht'
      simp only [Option.some.injEq] at ht'
      subst ht'
      cases t with
      | done r' => rw [Pool.stepAt_done ht]; exact h
      | onKey => exact absurd he id
      | onCtr m upd next =>
        have hn := he _ (hb.room ht rfl m)
        simp only [Prog.step] at hself hdb
        rw [hn] at hself
        refine ⟨h.nodup, fun x hx => by rw [Pool.stepAt_length]; exact h.bound x hx, ?_, ?_, ?_, ?_⟩
        · rw [hdb]; exact h.keys
        · rw [hdb]; exact h.inv
        · intro j' i' hj'
          obtain ⟨t', r', ht', hr', he'⟩ := h.fired j' i' hj'
          by_cases e : i' = i
          · subst e
            have : j' = j := (List.getElem?_inj (List.getElem?_eq_some_iff.mp hj').1 h.nodup).mp (by rw [hj, hj'])
            subst this
            rw [hr'] at hr
            simp only [Option.some.injEq] at hr
            subst hr
            exact ⟨_, _, hself, hr', rfl⟩
          · exact ⟨t', r', by rw [hoth i' e]; exact ht', hr', he'⟩
        · intro x t' hx hxo
          rw [hoth x (fun e => hxo (e ▸ hi))] at hx
          exact h.waiting x t' hx hxo
    · obtain ⟨hlive, n, hs⟩ := h.waiting i t ht hi
      -- taking effect
      have hfire : (p.stepAt i).db.keys = (F i p.db.keys).2 → Inv (p.stepAt i).db.keys →
          Ends (F i p.db.keys).1 (t.step p.db).1 → Lin Inv F s0 (order ++ [i]) (p.stepAt i) := by
        intro h1 h2 h3
        have hsq := seqs_snoc F order i s0
        rw [← h.keys] at hsq
        refine ⟨?_, ?_, ?_, h2, ?_, ?_⟩
        · rw [List.nodup_append]
          exact ⟨h.nodup, by simp, by intro a ha b hb; simp at hb; subst hb; intro e; exact hi (e ▸ ha)⟩
        · intro x hx
          rw [Pool.stepAt_length]
          simp only [List.mem_append, List.mem_singleton] at hx
          rcases hx with hx | rfl
          · exact h.bound x hx
          · rw [List.getElem?_eq_some_iff] at ht; exact ht.1
        · rw [hsq]; exact h1
        · intro j i' hj
          rw [hsq]
          simp only
          by_cases hlt : j < order.length
          · rw [List.getElem?_append_left hlt] at hj
            obtain ⟨t', r', ht', hr', he'⟩ := h.fired j i' hj
            have hne : i' ≠ i := fun e => hi (e ▸ List.mem_of_getElem? hj)
            refine ⟨t', r', by rw [hoth i' hne]; exact ht', ?_, he'⟩
            rw [List.getElem?_append_left (by rw [seqs_length]; exact hlt)]
            exact hr'
          · rw [List.getElem?_append_right (by omega)] at hj
            have hj0 : j - order.length = 0 := by
              rw [List.getElem?_eq_some_iff] at hj
              have := hj.1
              simp at this
              omega
            rw [hj0] at hj
            simp only [List.getElem?_cons_zero, Option.some.injEq] at hj
            subst hj
            refine ⟨_, _, hself, ?_, h3⟩
            rw [List.getElem?_append_right (by rw [seqs_length]; omega), seqs_length, hj0]
            rfl
        · intro x t' hx hxo
          simp only [List.mem_append, List.mem_singleton, not_or] at hxo
          rw [hoth x hxo.2] at hx
          exact h.waiting x t' hx hxo.1
      cases hs with
      | @quiet _ _ r he hF =>
        right
        refine ⟨hi, ?_⟩
        cases t with
        | done r' => simp [live] at hlive
        | onKey => exact absurd he id
        | onCtr m upd next =>
          have hn := he _ (hb.room ht rfl m)
          have hF' := hF _ h.inv
          apply hfire
          · rw [hdb, hF']; rfl
          · rw [hdb]; exact h.inv
          · rw [hF']; simp only [Prog.step]; rw [hn]; rfl
      | @fire _ k upd next hF =>
        right
        refine ⟨hi, ?_⟩
        obtain ⟨h1, h2, h3⟩ := hF _ h.inv
        apply hfire
        · rw [hdb, h2]; rfl
        · rw [hdb]; exact h1
        · exact h3
      | @look n k upd next q hF hq =>
        obtain ⟨h1, h2⟩ := hF _ h.inv
        simp only [Prog.step, h2] at hself
        have hk : (p.stepAt i).db.keys = p.db.keys := by
          rw [hdb]
          simp only [Prog.step, h1]
          exact put_same p.db.keys k
        have hstay : live q = true → Lin Inv F s0 order (p.stepAt i) := by
          intro hl
          refine ⟨h.nodup, fun x hx => by rw [Pool.stepAt_length]; exact h.bound x hx, by rw [hk]; exact h.keys, by rw [hk]; exact h.inv, ?_, ?_⟩
          · intro j i' hj
            obtain ⟨t', r', ht', hr', he'⟩ := h.fired j i' hj
            have hne : i' ≠ i := fun e => hi (e ▸ List.mem_of_getElem? hj)
            exact ⟨t', r', by rw [hoth i' hne]; exact ht', hr', he'⟩
          · intro x t' hx hxo
            by_cases e : x = i
            · subst e
              rw [hself] at hx
              simp only [Option.some.injEq] at hx
              subst hx
              exact ⟨hl, _, hq⟩
            · rw [hoth x e] at hx
              exact h.waiting x t' hx hxo
        cases hl : live q with
        | true => exact Or.inl (hstay hl)
        | false =>
          right
          refine ⟨hi, ?_⟩
          cases q with
          | onKey => simp [live] at hl
          | onCtr => simp [live] at hl
          | done r =>
            cases hq with
            | @quiet _ _ r' he hF' =>
              have := hF' _ h.inv
              simp only [Ends] at he
              subst he
              apply hfire
              · rw [hk, this]
              · rw [hk]; exact h.inv
              · rw [this]; simp only [Prog.step, h2]; rfl

/-- What is known after any schedule: an order that explains the pool and respects real time. -/
theorem Lin.exec {α} {Inv : Store → Prop} {F : Nat → Store → Outcome DispatchError α × Store} {s0 : Store}
    {order0 : List Nat} {p : Pool α} (h : Lin Inv F s0 order0 p) (hb : Budget p) (sched : List Nat) :
    ∃ order, Lin Inv F s0 order (p.exec sched) ∧ (∀ i ∈ order, i ∈ order0 ∨ i ∈ sched) ∧
      (∀ s1 s2, sched = s1 ++ s2 → ∀ a b r, (p.exec s1).threads[a]? = some (.done r) → b ∉ s1 → b ∉ order0 →
        b ∈ order → Before a b order) := by
  induction sched using snoc_induction with
  | h0 =>
    refine ⟨order0, h, fun i hi => Or.inl hi, ?_⟩
    intro s1 s2 _ a b r _ _ hb1 hb2
    exact absurd hb2 hb1
  | h1 s i ih =>
    obtain ⟨order, hl, hsub, hrt⟩ := ih
    rw [Pool.exec_snoc]
    rcases hl.step (hb.exec s) i with hl' | ⟨hi, hl'⟩
    · refine ⟨order, hl', fun x hx => (hsub x hx).imp id (fun h => by simp [h]), ?_⟩
      intro s1 s2 hs a b r ha hb1 hb0 hbo
      rcases List.eq_nil_or_concat s2 with rfl | ⟨s2', c, rfl⟩
      · simp only [List.append_nil] at hs
        subst hs
        rcases hsub b hbo with h' | h'
        · exact absurd h' hb0
        · exact absurd (by simp [h']) hb1
      · rw [List.concat_eq_append, ← List.append_assoc] at hs
        have := (List.append_inj' hs rfl).1
        exact hrt s1 s2' this a b r ha hb1 hb0 hbo
    · refine ⟨order ++ [i], hl', ?_, ?_⟩
      · intro x hx
        simp only [List.mem_append, List.mem_singleton] at hx
        rcases hx with hx | rfl
        · exact (hsub x hx).imp id (fun h => by simp [h])
        · exact Or.inr (by simp)
      · intro s1 s2 hs a b r ha hb1 hb0 hbo
        rcases List.eq_nil_or_concat s2 with rfl | ⟨s2', c, rfl⟩
        · simp only [List.append_nil] at hs
          subst hs
          simp only [List.mem_append, List.mem_singleton] at hbo hb1
          rcases hbo with hbo | hbo
          · rcases hsub b hbo with h' | h'
            · exact absurd h' hb0
            · exact absurd (Or.inl h') hb1
          · exact absurd (Or.inr hbo) hb1
        · rw [List.concat_eq_append, ← List.append_assoc] at hs
          have hs' := (List.append_inj' hs rfl).1
          by_cases hbn : b ∈ order
          · obtain ⟨l1, l2, e, h1, h2⟩ := hrt s1 s2' hs' a b r ha hb1 hb0 hbn
            exact ⟨l1, l2 ++ [i], by rw [e, List.append_assoc], h1, by simp [h2]⟩
          · refine ⟨order, [i], rfl, ?_, ?_⟩
            · refine Classical.byContradiction fun hao => ?_
              have hst := Pool.done_stays ha s2'
              rw [← Pool.exec_append, ← hs'] at hst
              have := (hl.waiting a _ hst hao).1
              simp [live] at this
            · simp only [List.mem_append] at hbo
              exact hbo.resolve_left hbn

/-! ## Starting and finishing -/

theorem Shot.done_inv {α} {Inv : Store → Prop} {F : Store → Outcome DispatchError α × Store} {n : Nat}
    {r : Outcome DispatchError α} (h : Shot Inv F n (.done r)) (s : Store) (hs : Inv s) : F s = (r, s) := by
  cases h with
  | quiet h1 h2 => simp only [Ends] at h1; subst h1; exact h2 s hs

/-- The threads that have nothing to do come first. -/
theorem Lin.start {α} {Inv : Store → Prop} {F : Nat → Store → Outcome DispatchError α × Store} {p : Pool α}
    (hi : Inv p.db.keys) (hs : ∀ i t, p.threads[i]? = some t → ∃ n, Shot Inv (F i) n t) :
    ∃ order0, Lin Inv F p.db.keys order0 p ∧ ∀ i ∈ order0, ∃ r, p.threads[i]? = some (.done r) := by
  have key : ∀ l : List Nat, (∀ i ∈ l, ∃ r, p.threads[i]? = some (.done r)) →
      (seqs F l p.db.keys).2 = p.db.keys ∧ ∀ j i : Nat, l[j]? = some i → ∃ r, p.threads[i]? = some (.done r) ∧
        (seqs F l p.db.keys).1[j]? = some r := by
    intro l hl
    induction l with
    | nil => exact ⟨rfl, by simp⟩
    | cons a l ih =>
      obtain ⟨h1, h2⟩ := ih fun i hi => hl i (by simp [hi])
      obtain ⟨r, hr⟩ := hl a (by simp)
      obtain ⟨n, hsh⟩ := hs a _ hr
      have hF := hsh.done_inv _ hi
      simp only [seqs, hF]
      refine ⟨h1, ?_⟩
      intro j i hj
      cases j with
      | zero => simp at hj; subst hj; exact ⟨r, hr, rfl⟩
      | succ j => exact h2 j i (by simpa using hj)
  have hex : ∃ l : List Nat, l.Nodup ∧ ∀ i, i ∈ l ↔ ∃ r, p.threads[i]? = some (.done r) := by
    refine ⟨(List.range p.threads.length).filter fun i => match p.threads[i]? with
      | some (.done _) => true
      | _ => false, (List.nodup_range).filter _, ?_⟩
    intro i
    simp only [List.mem_filter, List.mem_range]
    constructor
    · rintro ⟨-, h⟩
      split at h
      · rename_i r h'; exact ⟨r, h'⟩
      · simp at h
    · rintro ⟨r, h⟩
      refine ⟨(List.getElem?_eq_some_iff.mp h).1, by rw [h]⟩
  obtain ⟨l, hn, hl⟩ := hex
  obtain ⟨h1, h2⟩ := key l fun i hi => (hl i).mp hi
  refine ⟨l, ⟨hn, ?_, h1.symm, hi, ?_, ?_⟩, fun i hi => (hl i).mp hi⟩
  · intro i hi
    obtain ⟨r, h⟩ := (hl i).mp hi
    exact (List.getElem?_eq_some_iff.mp h).1
  · intro j i hj
    obtain ⟨r, h3, h4⟩ := h2 j i hj
    exact ⟨_, r, h3, h4, rfl⟩
  · intro i t ht hil
    refine ⟨?_, hs i t ht⟩
    cases t with
    | done r => exact absurd ((hl i).mpr ⟨r, ht⟩) hil
    | onKey => rfl
    | onCtr => rfl

/-- An upper bound for the number of operations a thread still makes. -/
inductive Within {α} (Inv : Store → Prop) : Nat → Prog α → Prop
  | done {n : Nat} {r : Outcome DispatchError α} : Within Inv n (.done r)
  | onCtr {n : Nat} {m : Metric} {upd : Option Nat → Option Nat} {next : Option Nat → Prog α} :
    (∀ o, Within Inv n (next o)) → Within Inv (n + 1) (.onCtr m upd next)
  | onKey {n : Nat} {k : Bytes} {upd : Option Value → Option Value} {next : Option Value → Prog α} :
    (∀ s, Inv s → Within Inv n (next (s k))) → Within Inv (n + 1) (.onKey k upd next)

theorem Within.mono {α} {Inv : Store → Prop} {n : Nat} {p : Prog α} (h : Within Inv n p) {m : Nat} (hm : n ≤ m) :
    Within Inv m p := by
  induction h generalizing m with
  | done => exact .done
  | onCtr _ ih =>
    cases m with
    | zero => omega
    | succ m => exact .onCtr fun o => ih o (by omega)
  | onKey _ ih =>
    cases m with
    | zero => omega
    | succ m => exact .onKey fun s hs => ih s hs (by omega)

/-- If `Inv` holds throughout, a thread that still makes at most `n` operations is finished by a schedule in
which it occurs `n` times. -/
theorem Within.exec {α} {Inv : Store → Prop} {p : Pool α} {i : Nat} (sched : List Nat)
    (hinv : ∀ s1 s2, sched = s1 ++ s2 → Inv (p.exec s1).db.keys) {n : Nat} {t : Prog α} (ht : p.threads[i]? = some t)
    (hw : Within Inv n t) (hn : n ≤ sched.count i) : ∃ r, (p.exec sched).threads[i]? = some (.done r) := by
  suffices h : ∃ t', (p.exec sched).threads[i]? = some t' ∧ Within Inv (n - sched.count i) t' by
    obtain ⟨t', h1, h2⟩ := h
    have : n - sched.count i = 0 := by omega
    rw [this] at h2
    cases h2 with
    | done => exact ⟨_, h1⟩
  clear hn
  induction sched using snoc_induction with
  | h0 => exact ⟨t, ht, hw⟩
  | h1 s j ih =>
    obtain ⟨t', h1, h2⟩ := ih fun s1 s2 e => hinv s1 (s2 ++ [j]) (by rw [e, List.append_assoc])
    have hi := hinv s [j] rfl
    rw [Pool.exec_snoc, List.count_append]
    by_cases e : i = j
    · subst e
      refine ⟨_, (Pool.stepAt_self h1).1, ?_⟩
      simp only [List.count_singleton_self]
      generalize hm : n - s.count i = m at h2
      have : n - (s.count i + 1) = m - 1 := by omega
      rw [this]
      cases h2 with
      | done => exact .done
      | onCtr h => exact h _
      | onKey h => exact h _ hi
    · refine ⟨t', by rw [Pool.stepAt_other _ e]; exact h1, ?_⟩
      have : List.count i [j] = 0 := by simp [Ne.symm e]
      rw [this, Nat.add_zero]
      exact h2

theorem Single.imp {α} {Inv : Store → Prop} {E E' : Prog α → Prop} {n : Nat} {p : Prog α} (h : Single Inv E n p)
    (he : ∀ q, E q → E' q) : Single Inv E' n p := by
  induction h with
  | quiet h => exact .quiet (he _ h)
  | fire h => exact .fire fun s hs => ⟨(h s hs).1, he _ (h s hs).2⟩
  | look h _ ih => exact .look h ih

theorem Single.within {α} {Inv : Store → Prop} {n : Nat} {p : Prog α} (h : Single Inv (Within Inv 1) n p) :
    Within Inv (n + 2) p := by
  induction h with
  | quiet h => exact h.mono (by omega)
  | fire h => exact .onKey fun s hs => (h s hs).2.mono (by omega)
  | look h _ ih => exact .onKey fun s hs => by rw [(h s hs).2]; exact ih

theorem Single.andThen {α β} {Inv : Store → Prop} {E : Prog β → Prop} {n : Nat} {p : Prog α}
    (h : Single Inv (fun p => ∃ r, p = .done r) n p) {g : Outcome DispatchError α → Prog β} (hg : ∀ r, E (g r)) :
    Single Inv E n (p.andThen g) := by
  induction h with
  | quiet h => obtain ⟨r, rfl⟩ := h; exact .quiet (hg r)
  | fire h =>
    refine .fire fun s hs => ⟨(h s hs).1, ?_⟩
    obtain ⟨r, hr⟩ := (h s hs).2
    rw [hr]; exact hg r
  | @look n k upd next q h _ ih =>
    refine .look (q := q.andThen g) (fun s hs => ⟨(h s hs).1, ?_⟩) ih
    rw [(h s hs).2]

theorem countOutcome_ends (env : Env) (r : Outcome DispatchError Bytes) (Inv : Store → Prop) :
    (∃ r', Ends r' (countOutcome env r)) ∧ Within Inv 1 (countOutcome env r) := by
  cases r with
  | ok a =>
    refine ⟨⟨.ok a, ?_⟩, .onCtr ?_⟩
    · intro o ho
      (try dsimp only)
      rw [addU_of_lt ho]
    · intro o
      (try dsimp only)
      split <;> exact .done
  | err e =>
    refine ⟨⟨.err e, ?_⟩, .onCtr ?_⟩
    · intro o ho
      (try dsimp only)
      rw [addU_of_lt ho]
    · intro o
      (try dsimp only)
      split <;> exact .done
  | panic => exact ⟨⟨.panic, rfl⟩, .done⟩
  | stuck => exact ⟨⟨.stuck, rfl⟩, .done⟩

/-! ## The steady commands -/

/-- The keys in `K` exist with the types `τ`. -/
def Kinds (K : Bytes → Prop) (τ : Bytes → KeyType) (s : Store) : Prop := ∀ k, K k → (s k).map Value.kind = some (τ k)

abbrev IsDone (p : Prog Bytes) : Prop := ∃ r, p = .done r

theorem Kinds.put {K : Bytes → Prop} {τ : Bytes → KeyType} {s : Store} (h : Kinds K τ s) {k : Bytes} {v : Option Value}
    (hk : K k → v.map Value.kind = some (τ k)) : Kinds K τ (s.put k v) := by
  intro k' hk'
  simp only [Store.put]
  split
  · rename_i e; subst e; exact hk hk'
  · exact h k' hk'

section

variable {K : Bytes → Prop} {τ : Bytes → KeyType} {env : Env} {r : Request} {resp : Bytes}

theorem Single.orErr {n : Nat} {α : Type} {o : Option α} {e : DispatchError} {f : α → Prog Bytes}
    (h : ∀ a, o = some a → Single (Kinds K τ) IsDone n (f a)) : Single (Kinds K τ) IsDone n (orErr o e f) := by
  cases o with
  | none => exact .quiet ⟨_, rfl⟩
  | some a => exact h a rfl

theorem Single.readKey {n : Nat} {k : Bytes} {next : Option Value → Prog Bytes} (h : ∀ o, IsDone (next o)) :
    Single (Kinds K τ) IsDone n (readKey k next) :=
  .fire fun s hs => ⟨by rw [put_same]; exact hs, h _⟩

theorem Single.keyRef {n : Nat} {k : Bytes} {next : Option Value → Prog Bytes} (h : ∀ o, IsDone (next o)) :
    Single (Kinds K τ) IsDone n (keyRef env k next) := by
  unfold Hop.keyRef
  split
  · exact .quiet ⟨_, rfl⟩
  · split
    · exact .quiet ⟨_, rfl⟩
    · exact Single.readKey h

theorem Single.keyOrInsertWith {n : Nat} {k : Bytes} (hk : K k) {mk : Value}
    {body : Value → Value × Outcome DispatchError Bytes} (hb : ∀ v, (body v).1.kind = v.kind) :
    Single (Kinds K τ) IsDone n (keyOrInsertWith env k mk body) := by
  unfold Hop.keyOrInsertWith
  split
  · exact .quiet ⟨_, rfl⟩
  · split
    · exact .quiet ⟨_, rfl⟩
    · refine .fire fun s hs => ?_
      have := hs k hk
      cases hv : s k with
      | none => rw [hv] at this; simp at this
      | some v =>
        rw [hv] at this
        refine ⟨hs.put fun _ => ?_, _, rfl⟩
        simp only [Option.map_some, hb]
        exact this

theorem Single.resolveKeyType {k : Bytes} {d : KeyType} {next : KeyType → Prog Bytes}
    (hk : r.keyType ≠ none ∨ K k) (h : ∀ t, Single (Kinds K τ) IsDone 0 (next t)) :
    Single (Kinds K τ) IsDone 1 (resolveKeyType r k d next) := by
  have mono : ∀ p, Single (Kinds K τ) IsDone 0 p → Single (Kinds K τ) IsDone 1 p := by
    intro p hp
    cases hp with
    | quiet h => exact .quiet h
    | fire h => exact .fire h
  unfold Hop.resolveKeyType
  cases hr : r.keyType with
  | some t => exact mono _ (h t)
  | none =>
    have hk := hk.resolve_left (by simp [hr])
    refine .look (q := next (τ k)) (fun s hs => ⟨rfl, ?_⟩) (h _)
    have := hs k hk
    rw [this]; rfl

theorem single_incrementInt {k : Bytes} (hk : K k) {a : Int64} :
    Single (Kinds K τ) IsDone 1 (incrementIntBy env k a resp) := by
  refine Single.keyOrInsertWith hk fun v => ?_
  cases v <;> first | rfl | skip
  dsimp only
  split <;> rfl

theorem single_incrementFloat {k : Bytes} (hk : K k) {a : F64} :
    Single (Kinds K τ) IsDone 1 (incrementFloatBy env k a resp) := by
  refine Single.keyOrInsertWith hk fun v => ?_
  cases v <;> rfl

/-- Every steady command takes effect in a single operation. -/
theorem single_command {c : Call} (hv : Views r c.cmd c.kt c.args) (hs : Steady K c) :
    Single (Kinds K τ) IsDone 1 (command env r resp) := by
  obtain ⟨cmd, kt, args⟩ := c
  simp only at hv
  have harg0 : ∀ k, r.arg 0 = some k → args[0]? = some k := fun k h => by rw [← hv.arg 0]; exact h
  have hkey : ∀ k, r.key = some k → args[0]? = some k := fun k h => harg0 k (Request.key_arg h)
  unfold command
  rw [hv.command]
  cases cmd <;> dsimp only
  case echo =>
    unfold dispatchEcho
    split <;> exact .quiet ⟨_, rfl⟩
  case get =>
    refine Single.orErr fun k hk => Single.keyRef fun o => ?_
    cases o with
    | none => exact ⟨_, rfl⟩
    | some v =>
      dsimp only
      split
      · split <;> exact ⟨_, rfl⟩
      · exact ⟨_, rfl⟩
  case type =>
    refine Single.orErr fun k hk => ?_
    split
    · exact .quiet ⟨_, rfl⟩
    · refine Single.readKey fun o => ?_
      cases o <;> exact ⟨_, rfl⟩
  case «exists» =>
    unfold dispatchExists
    split
    · exact .quiet ⟨_, rfl⟩
    · refine Single.orErr fun l hl => ?_
      have hlen : l.length ≤ 1 := by
        rw [argsFrom_eq hv] at hl
        simp only [Steady] at hs
        split at hl
        · simp at hl
        · simp only [Option.some.injEq, List.drop_zero] at hl; subst hl; exact hs
      rcases l with _ | ⟨k, _ | ⟨k', l⟩⟩
      · exact .quiet ⟨_, rfl⟩
      · refine Single.readKey fun o => ?_
        dsimp only
        split <;> exact ⟨_, rfl⟩
      · simp at hlen
  case is =>
    refine Single.orErr fun t ht => Single.orErr fun l hl => ?_
    have hlen : l.length ≤ 1 := by
      rw [argsFrom_eq hv] at hl
      simp only [Steady] at hs
      split at hl
      · simp at hl
      · simp only [Option.some.injEq, List.drop_zero] at hl; subst hl; exact hs
    rcases l with _ | ⟨k, _ | ⟨k', l⟩⟩
    · exact .quiet ⟨_, rfl⟩
    · refine Single.readKey fun o => ?_
      dsimp only
      split <;> exact ⟨_, rfl⟩
    · simp at hlen
  case keys =>
    refine Single.orErr fun k hk => Single.resolveKeyType ?_ fun t => ?_
    · rcases hs with h | h
      · left; rw [hv.keyType]; exact h
      · right; exact h k (hkey k hk)
    · cases t <;> try exact .quiet ⟨_, rfl⟩
      refine Single.keyRef fun o => ?_
      cases o with
      | none => exact ⟨_, rfl⟩
      | some v => cases v <;> exact ⟨_, rfl⟩
  case length =>
    refine Single.orErr fun k hk => Single.resolveKeyType ?_ fun t => ?_
    · rcases hs with h | h
      · left; rw [hv.keyType]; exact h
      · right; exact h k (hkey k hk)
    · have : ∀ t, Single (Kinds K τ) IsDone 0 (lengthAs env t k resp) := by
        intro t
        refine Single.keyRef fun o => ?_
        cases o with
        | none => exact ⟨_, rfl⟩
        | some v =>
          dsimp only
          split <;> exact ⟨_, rfl⟩
      cases t <;> first | exact this _ | exact .quiet ⟨_, rfl⟩
  case append =>
    refine Single.orErr fun k hk => Single.orErr fun l hl => ?_
    have hK : K k := hs k (harg0 k hk)
    refine Single.resolveKeyType (Or.inr hK) fun t => ?_
    cases t <;> try exact .quiet ⟨_, rfl⟩
    all_goals
      refine Single.keyOrInsertWith hK fun v => ?_
      cases v <;> rfl
  case increment =>
    refine Single.orErr fun k hk => ?_
    have hK : K k := hs k (hkey k hk)
    split
    · exact single_incrementFloat hK
    · exact single_incrementInt hK
  case decrement =>
    refine Single.orErr fun k hk => ?_
    have hK : K k := hs k (hkey k hk)
    split
    · exact single_incrementFloat hK
    · exact single_incrementInt hK
  case incrementBy =>
    refine Single.orErr fun k hk => ?_
    have hK : K k := hs k (hkey k hk)
    split
    · exact single_incrementInt hK
    · split
      · exact single_incrementFloat hK
      · exact .quiet ⟨_, rfl⟩
  case decrementBy =>
    refine Single.orErr fun k hk => ?_
    have hK : K k := hs k (hkey k hk)
    split
    · split
      · exact single_incrementInt hK
      · exact .quiet ⟨_, rfl⟩
    · split
      · exact single_incrementFloat hK
      · exact .quiet ⟨_, rfl⟩
  case delete =>
    unfold dispatchDelete
    split
    · exact .quiet ⟨_, rfl⟩
    · refine Single.orErr fun k hk => ?_
      have hK : ¬ K k := hs k (hkey k hk)
      refine .fire fun s hs => ⟨hs.put fun h => absurd h hK, ?_⟩
      cases s k <;> exact ⟨_, rfl⟩
  case rename => exact absurd hs id
  case set => exact absurd hs id
  case stats => exact absurd hs id

theorem single_dispatch {c : Call} (hv : Views r c.cmd c.kt c.args) (hs : Steady K c) :
    Single (Kinds K τ) (fun p => (∃ r, Ends r p) ∧ Within (Kinds K τ) 1 p) 1 (dispatch env r resp) :=
  (single_command hv hs).andThen fun r => countOutcome_ends env r _

end

/-! ## From the explanation to sequential service -/

theorem Single.meaning_ctrs {α} {Inv : Store → Prop} {n : Nat} {p : Prog α} {c c' : Metric → Option Nat} (hc : Roomy 1 c)
    (hc' : Roomy 1 c') (h : Single Inv (fun p => ∃ r, Ends r p) n p) (s : Store) (hs : Inv s) :
    meaning p c s = meaning p c' s ∧ Inv (meaning p c s).2 := by
  induction h with
  | quiet h =>
    obtain ⟨r, h⟩ := h
    obtain ⟨h1, h2⟩ := h.run ⟨s, c⟩ hc
    obtain ⟨h3, h4⟩ := h.run ⟨s, c'⟩ hc'
    simp only [meaning, h1, h2, h3, h4, true_and]
    exact hs
  | @fire n k upd next h =>
    obtain ⟨h0, r, h⟩ := h s hs
    obtain ⟨h1, h2⟩ := h.run (Db.setKey ⟨s, c⟩ k (upd (s k))) hc
    obtain ⟨h3, h4⟩ := h.run (Db.setKey ⟨s, c'⟩ k (upd (s k))) hc'
    simp only [meaning, Prog.run, h1, h2, h3, h4]
    exact ⟨rfl, h0⟩
  | @look n k upd next q h _ ih =>
    obtain ⟨h1, h2⟩ := h s hs
    have key : ∀ c, Db.setKey ⟨s, c⟩ k (upd (s k)) = ⟨s, c⟩ := by
      intro c
      rw [h1]; simp only [Db.setKey, Db.mk.injEq, and_true]; exact put_same s k
    simp only [meaning, Prog.run, key, h2] at ih ⊢
    exact ih

theorem Sees.get {rs : List (Request × Bytes)} {cs : List Call} (h : Sees rs cs) :
    rs.length = cs.length ∧ ∀ (i : Nat) r, rs[i]? = some r → ∃ c, cs[i]? = some c ∧ Views r.1 c.cmd c.kt c.args := by
  induction h with
  | nil => exact ⟨rfl, by simp⟩
  | cons hv _ ih =>
    refine ⟨by simp [ih.1], fun i r hr => ?_⟩
    cases i with
    | zero => simp at hr; subst hr; exact ⟨_, rfl, hv⟩
    | succ i => exact ih.2 i r (by simpa using hr)

end Hop
