import Verif.Props.Interleave

/-! # C36, C59, C60: concurrent renames, deletes and statistics -/

namespace Hop

open Spec Prog

/-! ## C60 Statistics under concurrency -/

/-- Still to be counted: an outcome other than a panic is counted once, in the right counter, just before the
end; no other counter operation changes anything. -/
def Owes : Prog Bytes → Prop
  | .done r => r = .panic ∨ r = .stuck
  | .onKey _ _ next => ∀ o, Owes (next o)
  | .onCtr m upd next => ∀ o, o.getD 0 + 1 < 2 ^ 64 →
      (upd o = o ∧ Owes (next o)) ∨
      (upd o = some (o.getD 0 + 1) ∧ ((m = .commandsSuccessful ∧ ∃ a, next o = .done (.ok a)) ∨
        (m = .commandsErrored ∧ ∃ e, next o = .done (.err e))))

theorem Owes.andThen {p : Prog Bytes} (hp : CtrQuiet p) {f : Outcome DispatchError Bytes → Prog Bytes}
    (hf : ∀ r, Owes (f r)) : Owes (p.andThen f) := by
  induction p with
  | done r => exact hf r
  | onKey k upd next ih => exact fun o => ih o (hp o)
  | onCtr m upd next ih => exact fun o _ => Or.inl ⟨hp.1 o, ih o (hp.2 o)⟩

theorem owes_dispatch (env : Env) (r : Request) (resp : Bytes) : Owes (dispatch env r resp) := by
  refine Owes.andThen (quiet_command env r resp) fun r => ?_
  cases r with
  | ok a =>
    intro o ho
    right
    refine ⟨?_, Or.inl ⟨rfl, a, ?_⟩⟩ <;> (try dsimp only) <;> rw [addU_of_lt ho]
    rfl
  | err e =>
    intro o ho
    right
    refine ⟨?_, Or.inr ⟨rfl, e, ?_⟩⟩ <;> (try dsimp only) <;> rw [addU_of_lt ho]
    rfl
  | panic => exact Or.inl rfl
  | stuck => exact Or.inr rfl

/-- The thread has answered with success. -/
def succeeded : Prog Bytes → Bool
  | .done (.ok _) => true
  | _ => false

/-- The thread has answered with an error. -/
def errored : Prog Bytes → Bool
  | .done (.err _) => true
  | _ => false

theorem countP_set {α} (f : α → Bool) (l : List α) (i : Nat) (a b : α) (h : l[i]? = some b) :
    (l.set i a).countP f + (if f b then 1 else 0) = l.countP f + (if f a then 1 else 0) := by
  induction l generalizing i with
  | nil => simp at h
  | cons x l ih =>
    cases i with
    | zero =>
      simp only [List.getElem?_cons_zero, Option.some.injEq] at h
      subst h
      simp only [List.set_cons_zero, List.countP_cons]
      omega
    | succ i =>
      simp only [List.getElem?_cons_succ] at h
      have := ih i h
      simp only [List.set_cons_succ, List.countP_cons]
      omega

/-- C60. At every moment of every concurrent execution the counter of successful commands is its initial
value plus the number of clients that have been answered with success, the counter of failed commands its
initial value plus the number of clients that have been answered with an error, and no other counter has
changed. Panicking requests are not counted. -/
theorem C60_concurrent_statistics {env : Env} (rs : List (Request × Bytes)) (db : Db) (hc : Roomy rs.length db.ctrs)
    (sched : List Nat) :
    ((((Pool.start env rs db).exec sched).db.ctrs .commandsSuccessful).getD 0 =
      (db.ctrs .commandsSuccessful).getD 0 + ((Pool.start env rs db).exec sched).threads.countP succeeded) ∧
    ((((Pool.start env rs db).exec sched).db.ctrs .commandsErrored).getD 0 =
      (db.ctrs .commandsErrored).getD 0 + ((Pool.start env rs db).exec sched).threads.countP errored) ∧
    ∀ m, m ≠ .commandsSuccessful → m ≠ .commandsErrored →
      ((Pool.start env rs db).exec sched).db.ctrs m = db.ctrs m := by
  have hbud := Budget.start env rs db hc
  suffices h : (∀ t ∈ ((Pool.start env rs db).exec sched).threads, Owes t ∨ ∃ r, t = .done r) ∧ _ from h.2
  induction sched using snoc_induction with
  | h0 =>
    have hall : ∀ t ∈ (Pool.start env rs db).threads, Owes t := by
      intro t ht
      simp only [Pool.start, List.mem_map] at ht
      obtain ⟨r, -, rfl⟩ := ht
      exact owes_dispatch _ _ _
    have h0 : ∀ t : Prog Bytes, Owes t → succeeded t = false ∧ errored t = false := by
      intro t ht
      cases t with
      | done r => rcases ht with rfl | rfl <;> exact ⟨rfl, rfl⟩
      | _ => exact ⟨rfl, rfl⟩
    have e1 : (Pool.start env rs db).threads.countP succeeded = 0 :=
      List.countP_eq_zero.mpr fun t ht => by simp [(h0 t (hall t ht)).1]
    have e2 : (Pool.start env rs db).threads.countP errored = 0 :=
      List.countP_eq_zero.mpr fun t ht => by simp [(h0 t (hall t ht)).2]
    refine ⟨fun t ht => Or.inl (hall t ht), ?_, ?_, fun _ _ _ => rfl⟩
    · rw [Pool.exec_nil, e1]; rfl
    · rw [Pool.exec_nil, e2]; rfl
  | h1 s i ih =>
    rw [Pool.exec_snoc]
    have hb := hbud.exec s
    revert hb
    generalize (Pool.start env rs db).exec s = p at ih
    intro hb
    obtain ⟨h1, h2, h3, h4⟩ := ih
    cases ht : p.threads[i]? with
    | none => rw [Pool.stepAt_none ht]; exact ⟨h1, h2, h3, h4⟩
    | some t =>
      have hroom := fun hl m => hb.room ht hl m
      have hcs := fun a => countP_set succeeded p.threads i a t ht
      have hce := fun a => countP_set errored p.threads i a t ht
      have hmem : ∀ t', (Owes t' ∨ ∃ r, t' = .done r) → ∀ x ∈ p.threads.set i t', Owes x ∨ ∃ r, x = .done r := by
        intro t' ht' x hx
        rcases List.mem_or_eq_of_mem_set hx with h | rfl
        · exact h1 x h
        · exact ht'
      have hq : ∀ t' : Prog Bytes, Owes t' → succeeded t' = false ∧ errored t' = false := by
        intro t' ht'
        cases t' with
        | done r => rcases ht' with rfl | rfl <;> exact ⟨rfl, rfl⟩
        | _ => exact ⟨rfl, rfl⟩
      rcases h1 t (List.mem_of_getElem? ht) with hO | ⟨r, rfl⟩
      · cases t with
        | done r => rw [Pool.stepAt_done ht]; exact ⟨h1, h2, h3, h4⟩
        | onKey k upd next =>
          rw [Pool.stepAt_some ht]
          simp only [Prog.step, Db.setKey]
          have hn := hO (p.db.keys k)
          have e1 := hcs (next (p.db.keys k))
          have e2 := hce (next (p.db.keys k))
          rw [(hq _ hn).1] at e1
          rw [(hq _ hn).2] at e2
          simp [succeeded] at e1
          simp [errored] at e2
          exact ⟨hmem _ (Or.inl hn), by rw [e1]; exact h2, by rw [e2]; exact h3, h4⟩
        | onCtr m upd next =>
          rw [Pool.stepAt_some ht]
          simp only [Prog.step]
          have e1 := hcs (next (p.db.ctrs m))
          have e2 := hce (next (p.db.ctrs m))
          rcases hO (p.db.ctrs m) (hroom rfl m) with ⟨hu, hn⟩ | ⟨hu, ⟨rfl, a, hn⟩ | ⟨rfl, e, hn⟩⟩
          · rw [(hq _ hn).1] at e1
            rw [(hq _ hn).2] at e2
            simp [succeeded] at e1
            simp [errored] at e2
            rw [hu, Db.setCtr_self]
            exact ⟨hmem _ (Or.inl hn), by rw [e1]; exact h2, by rw [e2]; exact h3, h4⟩
          · rw [hn] at e1 e2 ⊢
            simp [succeeded, errored] at e1 e2
            refine ⟨hmem _ (Or.inr ⟨_, rfl⟩), ?_, ?_, ?_⟩
            · rw [e1, hu]; simp [Db.setCtr, h2]; omega
            · rw [e2]; simpa [Db.setCtr] using h3
            · intro m h1 h2; simpa [Db.setCtr, h1] using h4 m h1 h2
          · rw [hn] at e1 e2 ⊢
            simp [succeeded, errored] at e1 e2
            refine ⟨hmem _ (Or.inr ⟨_, rfl⟩), ?_, ?_, ?_⟩
            · rw [e1]; simpa [Db.setCtr] using h2
            · rw [e2, hu]; simp [Db.setCtr, h3]; omega
            · intro m h1 h2; simpa [Db.setCtr, h2] using h4 m h1 h2
      · rw [Pool.stepAt_done ht]; exact ⟨h1, h2, h3, h4⟩

/-- Beside C60: a success, a failure and a panic. -/
example : let p := (Pool.start (sampleEnv .debug) [(call .set none [[1], [2]], []), (call .delete none [[3]], []),
      (call .get none [ascii "__hop__:"], [])] (sampleDb [])).exec [0, 1, 2, 0, 0, 0, 0, 1, 0]
    p.db.ctrs .commandsSuccessful = some 1 ∧ p.db.ctrs .commandsErrored = some 1 ∧
      p.threads.countP succeeded = 1 ∧ p.threads.countP errored = 1 := by decide +kernel

/-! ## C59 Only one client can take a key -/

/-- A call that takes key `k` away: Delete, or Rename to another key. -/
def Spec.Taker (k : Bytes) (c : Call) : Prop :=
  c.args[0]? = some k ∧ (c.cmd = .delete ∨ (c.cmd = .rename ∧ c.args[1]? ≠ some k))

/-- A thread that fails unless it removes the value of `k` (`false`: not yet removed) and does not fail if it
does. -/
def Thief (k : Bytes) : Bool → Prog Bytes → Prop
  | b, .done r => (b = false ↔ ∃ e, r = .err e)
  | b, .onKey k' upd next => (k' ≠ k ∧ ∀ o, Thief k b (next o)) ∨ (k' = k ∧ b = false ∧
      (((∀ o, upd o = o) ∧ ∀ o, Thief k false (next o)) ∨
        ((∀ o, upd o = none) ∧ Thief k false (next none) ∧ ∀ v, Thief k true (next (some v)))))
  | b, .onCtr _ _ next => ∀ o, o.getD 0 + 1 < 2 ^ 64 → Thief k b (next o)

theorem Thief.andThen {k : Bytes} {b : Bool} {p : Prog Bytes} {env : Env} (hp : Thief k b p) :
    Thief k b (p.andThen (countOutcome env)) := by
  induction p generalizing b with
  | done r =>
    cases r with
    | ok a =>
      intro o ho
      (try dsimp only)
      rw [addU_of_lt ho]
      exact hp
    | err e =>
      intro o ho
      (try dsimp only)
      rw [addU_of_lt ho]
      exact hp
    | panic => exact hp
    | stuck => exact hp
  | onKey k' upd next ih =>
    rcases hp with ⟨h1, h2⟩ | ⟨h1, h2, ⟨h3, h4⟩ | ⟨h3, h4, h5⟩⟩
    · exact Or.inl ⟨h1, fun o => ih o (h2 o)⟩
    · exact Or.inr ⟨h1, h2, Or.inl ⟨h3, fun o => ih o (h4 o)⟩⟩
    · exact Or.inr ⟨h1, h2, Or.inr ⟨h3, ih _ h4, fun v => ih _ (h5 v)⟩⟩
  | onCtr m upd next ih => exact fun o ho => ih o (hp o ho)

theorem Thief.fails {k : Bytes} (e : DispatchError) : Thief k false (.done (.err e)) := by
  simp [Thief]

theorem Thief.wins {k : Bytes} (o : Option Bytes) : Thief k true (.done (.ofOption o)) := by
  cases o <;> simp [Thief, Outcome.ofOption]

theorem thief_dispatch {env : Env} {r : Request} {k : Bytes} {c : Call} (hv : Views r c.cmd c.kt c.args)
    (ht : Taker k c) (resp : Bytes) : Thief k false (dispatch env r resp) := by
  refine Thief.andThen ?_
  obtain ⟨cmd, kt, args⟩ := c
  obtain ⟨h0, h⟩ := ht
  simp only at hv h0 h
  unfold command
  rw [hv.command]
  rcases h with rfl | ⟨rfl, h1⟩
  · dsimp only
    unfold dispatchDelete
    split
    · exact Thief.fails _
    · rw [key_eq hv (by decide), h0]
      exact Or.inr ⟨rfl, rfl, Or.inr ⟨fun _ => rfl, Thief.fails _, fun v => Thief.wins _⟩⟩
  · dsimp only
    unfold dispatchRename
    split
    · exact Thief.fails _
    · rw [hv.arg 0, hv.arg 1, h0]
      cases h2 : args[1]? with
      | none => exact Thief.fails _
      | some b =>
        have hb : b ≠ k := fun e => h1 (by rw [h2, e])
        refine Or.inr ⟨rfl, rfl, Or.inl ⟨fun _ => rfl, fun o => ?_⟩⟩
        cases o with
        | none => exact Thief.fails _
        | some v =>
          refine Or.inl ⟨hb, fun o => ?_⟩
          cases o with
          | some v => exact Thief.fails _
          | none =>
            exact Or.inr ⟨rfl, rfl, Or.inr ⟨fun _ => rfl, Thief.fails _, fun v => Or.inl ⟨hb, fun _ => Thief.wins _⟩⟩⟩

/-- Who has taken `k`, if anybody. -/
structure Taken (k : Bytes) (cs : List Call) (w : Option Nat) (p : Pool Bytes) : Prop where
  key : w = none ↔ p.db.keys k ≠ none
  who : ∀ i : Nat, w = some i → ∃ c, cs[i]? = some c ∧ Taker k c
  takers : ∀ (i : Nat) t c, p.threads[i]? = some t → cs[i]? = some c → Taker k c → Thief k (decide (w = some i)) t
  others : ∀ (i : Nat) t c, p.threads[i]? = some t → cs[i]? = some c → ¬ Taker k c → Writes (· ≠ k) t

theorem Taken.step {k : Bytes} {cs : List Call} {w : Option Nat} {p : Pool Bytes} (h : Taken k cs w p) (hb : Budget p)
    (hl : p.threads.length = cs.length) (i : Nat) :
    ∃ w', Taken k cs w' (p.stepAt i) ∧ (p.db.keys k = none → (p.stepAt i).db.keys k = none) := by
  cases ht : p.threads[i]? with
  | none => rw [Pool.stepAt_none ht]; exact ⟨w, h, id⟩
  | some t =>
    obtain ⟨hself, hdb⟩ := Pool.stepAt_self ht
    have hlt : i < p.threads.length := (List.getElem?_eq_some_iff.mp ht).1
    obtain ⟨c, hc⟩ : ∃ c, cs[i]? = some c := ⟨_, List.getElem?_eq_getElem (by omega)⟩
    have hoth := fun j (hj : j ≠ i) => Pool.stepAt_other p hj
    by_cases htk : Taker k c
    · have hT := h.takers i t c ht hc htk
      -- nothing happens to the key
      have hsame : (p.stepAt i).db.keys k = p.db.keys k → Thief k (decide (w = some i)) (t.step p.db).1 →
          Taken k cs w (p.stepAt i) := by
        intro h1 h2
        refine ⟨by rw [h1]; exact h.key, h.who, ?_, ?_⟩
        · intro j t' c' hj hcj htj
          by_cases e : j = i
          · subst e; rw [hself] at hj; simp only [Option.some.injEq] at hj; subst hj; exact h2
          · rw [hoth j e] at hj; exact h.takers j t' c' hj hcj htj
        · intro j t' c' hj hcj htj
          by_cases e : j = i
          · subst e; rw [hc] at hcj; simp only [Option.some.injEq] at hcj; subst hcj; exact absurd htk htj
          · rw [hoth j e] at hj; exact h.others j t' c' hj hcj htj
      cases t with
      | done r => rw [Pool.stepAt_done ht]; exact ⟨w, h, id⟩
      | onCtr m upd next =>
        have e : (p.stepAt i).db.keys k = p.db.keys k := by rw [hdb]; rfl
        exact ⟨w, hsame e (hT _ (hb.room ht rfl m)), fun hn => by rw [e, hn]⟩
      | onKey k' upd next =>
        rcases hT with ⟨h1, h2⟩ | ⟨h1, h2, ⟨h3, h4⟩ | ⟨h3, h4, h5⟩⟩
        · have e : (p.stepAt i).db.keys k = p.db.keys k := by
            rw [hdb]; exact Db.setKey_keys_ne _ _ (Ne.symm h1)
          exact ⟨w, hsame e (h2 _), fun hn => by rw [e, hn]⟩
        · subst h1
          have e : (p.stepAt i).db.keys k' = p.db.keys k' := by
            rw [hdb]; simp only [Prog.step, Db.setKey_keys_self, h3]
          exact ⟨w, hsame e (by rw [h2]; exact h4 _), fun hn => by rw [e, hn]⟩
        · subst h1
          have e : (p.stepAt i).db.keys k' = none := by
            rw [hdb]; simp only [Prog.step, Db.setKey_keys_self, h3]
          cases hk : p.db.keys k' with
          | none =>
            refine ⟨w, hsame (by rw [e, hk]) ?_, fun _ => e⟩
            rw [h2]
            simp only [Prog.step, hk]
            exact h4
          | some v =>
            have hw : w = none := h.key.mpr (by rw [hk]; simp)
            subst hw
            refine ⟨some i, ⟨by rw [e]; simp, ?_, ?_, ?_⟩, fun _ => e⟩
            · intro j hj; simp only [Option.some.injEq] at hj; subst hj; exact ⟨c, hc, htk⟩
            · intro j t' c' hj hcj htj
              by_cases ej : j = i
              · subst ej
                rw [hself] at hj
                simp only [Option.some.injEq] at hj
                subst hj
                simp only [Prog.step, hk, decide_true]
                exact h5 v
              · rw [hoth j ej] at hj
                have := h.takers j t' c' hj hcj htj
                simpa [Ne.symm ej] using this
            · intro j t' c' hj hcj htj
              by_cases ej : j = i
              · subst ej; rw [hc] at hcj; simp only [Option.some.injEq] at hcj; subst hcj; exact absurd htk htj
              · rw [hoth j ej] at hj; exact h.others j t' c' hj hcj htj
    · have hw := Writes.step (h.others i t c ht hc htk) p.db
      have e : (p.stepAt i).db.keys k = p.db.keys k := by rw [hdb]; exact hw.2 k (by simp)
      refine ⟨w, ⟨by rw [e]; exact h.key, h.who, ?_, ?_⟩, fun hn => by rw [e, hn]⟩
      · intro j t' c' hj hcj htj
        by_cases ej : j = i
        · subst ej; rw [hc] at hcj; simp only [Option.some.injEq] at hcj; subst hcj; exact absurd htj htk
        · rw [hoth j ej] at hj; exact h.takers j t' c' hj hcj htj
      · intro j t' c' hj hcj htj
        by_cases ej : j = i
        · subst ej; rw [hself] at hj; simp only [Option.some.injEq] at hj; subst hj; exact hw.1
        · rw [hoth j ej] at hj; exact h.others j t' c' hj hcj htj

theorem Taken.start {env : Env} {rs : List (Request × Bytes)} {cs : List Call} (hs : Sees rs cs) {db : Db} {k : Bytes}
    (hr : ∀ c ∈ cs, Taker k c ∨ Bystander k c) (hk : db.keys k ≠ none) : Taken k cs none (Pool.start env rs db) := by
  refine ⟨⟨fun _ => hk, fun _ => rfl⟩, by simp, ?_, ?_⟩ <;>
  · intro i t c ht hc htk
    simp only [Pool.start, List.getElem?_map, Option.map_eq_some_iff] at ht
    obtain ⟨r, hr', rfl⟩ := ht
    obtain ⟨c', h1, hv⟩ := (Sees.get hs).2 i r hr'
    rw [hc] at h1
    simp only [Option.some.injEq] at h1
    subst h1
    first
      | exact thief_dispatch hv htk r.2
      | exact writes_bystander hv ((hr c (List.mem_of_getElem? hc)).resolve_left htk) r.2

theorem Taken.exec {k : Bytes} {cs : List Call} {p : Pool Bytes} (h : Taken k cs none p) (hb : Budget p)
    (hl : p.threads.length = cs.length) (sched : List Nat) : ∃ w, Taken k cs w (p.exec sched) := by
  induction sched using snoc_induction with
  | h0 => exact ⟨_, h⟩
  | h1 s i ih =>
    obtain ⟨w, ih⟩ := ih
    rw [Pool.exec_snoc]
    obtain ⟨w', h', -⟩ := ih.step (hb.exec s) (by rw [Pool.exec_length]; exact hl) i
    exact ⟨w', h'⟩

/-- C59, at most one: clients concurrently delete an existing key `k` or rename it to other keys; others do
not change it. At every moment of every execution at most one of them has ended without an error, and as long
as the key is still there, none has. -/
theorem C59_at_most_one_taker {env : Env} {rs : List (Request × Bytes)} {cs : List Call} (hs : Sees rs cs) (db : Db)
    (k : Bytes) (hr : ∀ c ∈ cs, Taker k c ∨ Bystander k c) (hk : db.keys k ≠ none) (hc : Roomy rs.length db.ctrs)
    (sched : List Nat) (i : Nat) (c : Call) (r : Outcome DispatchError Bytes) (hi : cs[i]? = some c) (ht : Taker k c)
    (hd : ((Pool.start env rs db).exec sched).threads[i]? = some (.done r)) (hne : ∀ e, r ≠ .err e) :
    ((Pool.start env rs db).exec sched).db.keys k = none ∧
    ∀ (j : Nat) c' r', cs[j]? = some c' → Taker k c' → j ≠ i →
      ((Pool.start env rs db).exec sched).threads[j]? = some (.done r') → ∃ e, r' = .err e := by
  have hl : (Pool.start env rs db).threads.length = cs.length := by simp [Pool.start, (Sees.get hs).1]
  obtain ⟨w, h⟩ := (Taken.start (env := env) hs hr hk).exec (Budget.start env rs db hc) hl sched
  have h1 := h.takers i _ c hd hi ht
  have hw : w = some i := by
    simp only [Thief, decide_eq_false_iff_not] at h1
    exact Classical.byContradiction fun hn => by
      obtain ⟨e, he⟩ := h1.mp hn
      exact hne e he
  subst hw
  refine ⟨?_, ?_⟩
  · exact Classical.byContradiction fun hn => by
      have := h.key.mpr hn
      simp at this
  · intro j c' r' hj htj hji hdj
    have h2 := h.takers j _ c' hdj hj htj
    simp only [Thief] at h2
    exact h2.mp (by simpa using Ne.symm hji)

/-- C59, exactly one: if moreover one of them is a Delete and all have finished, the key is gone and exactly
one of them has not ended with an error (it succeeded; or, in a debug build, it panicked because its answer
does not fit into a response). -/
theorem C59_exactly_one_taker {env : Env} {rs : List (Request × Bytes)} {cs : List Call} (hs : Sees rs cs) (db : Db)
    (k : Bytes) (hr : ∀ c ∈ cs, Taker k c ∨ Bystander k c) (hk : db.keys k ≠ none) (hc : Roomy rs.length db.ctrs)
    (sched : List Nat) (hf : ((Pool.start env rs db).exec sched).finished) (d : Nat) (more : List Bytes)
    (hd : cs[d]? = some ⟨.delete, none, k :: more⟩) :
    ((Pool.start env rs db).exec sched).db.keys k = none ∧
    ∃ i c r, cs[i]? = some c ∧ Taker k c ∧ ((Pool.start env rs db).exec sched).threads[i]? = some (.done r) ∧
      (∀ e, r ≠ .err e) ∧
      ∀ (j : Nat) c' r', cs[j]? = some c' → Taker k c' → j ≠ i →
        ((Pool.start env rs db).exec sched).threads[j]? = some (.done r') → ∃ e, r' = .err e := by
  have hl : (Pool.start env rs db).threads.length = cs.length := by simp [Pool.start, (Sees.get hs).1]
  have hbud := Budget.start env rs db hc
  have hstart := Taken.start (env := env) hs hr hk
  obtain ⟨w, h⟩ := hstart.exec hbud hl sched
  have hdl : d < cs.length := (List.getElem?_eq_some_iff.mp hd).1
  have hdr : d < rs.length := by rw [(Sees.get hs).1]; exact hdl
  -- the Delete has not begun, or the key is gone
  have hdel : ∀ s : List Nat, ((Pool.start env rs db).exec s).threads[d]? = (Pool.start env rs db).threads[d]? ∨
      ((Pool.start env rs db).exec s).db.keys k = none := by
    intro s
    induction s using snoc_induction with
    | h0 => exact Or.inl rfl
    | h1 s i ih =>
      obtain ⟨w, hw⟩ := hstart.exec hbud hl s
      obtain ⟨w', h', hkeep⟩ := hw.step (hbud.exec s) (by rw [Pool.exec_length]; exact hl) i
      rw [Pool.exec_snoc]
      rcases ih with ih | ih
      · by_cases e : d = i
        · subst e
          right
          obtain ⟨hr1, hr2⟩ : (Pool.start env rs db).threads[d]? = some (dispatch env rs[d].1 rs[d].2) ∧ True :=
            ⟨by simp only [Pool.start, List.getElem?_map, List.getElem?_eq_getElem hdr, Option.map_some], trivial⟩
          rw [hr1] at ih
          obtain ⟨c, hc1, hv⟩ := (Sees.get hs).2 d rs[d] (List.getElem?_eq_getElem hdr)
          rw [hd] at hc1
          simp only [Option.some.injEq] at hc1
          subst hc1
          rw [(Pool.stepAt_self ih).2]
          have hp : dispatch env rs[d].1 rs[d].2 = .onKey k (fun _ => none) (fun o => ((match o with
              | none => fail .preconditionFailed
              | some _ => done (.ofOption (Response.writeBytes env.mode rs[d].2 k))) : Prog Bytes).andThen (countOutcome env)) := by
            unfold dispatch command
            rw [hv.command]
            dsimp only
            unfold dispatchDelete
            rw [hv.keyType, if_neg (by simp), key_eq hv (by simp [CommandId.keyNotation])]
            rfl
          rw [hp]
          exact Db.setKey_keys_self _ _ _
        · left; rw [Pool.stepAt_other _ e]; exact ih
      · exact Or.inr (hkeep ih)
  have hgone : ((Pool.start env rs db).exec sched).db.keys k = none := by
    rcases hdel sched with h1 | h1
    · exfalso
      have hT := hstart.takers d (dispatch env rs[d].1 rs[d].2) _ (by
        simp only [Pool.start, List.getElem?_map, List.getElem?_eq_getElem hdr, Option.map_some]) hd ⟨rfl, Or.inl rfl⟩
      have e : ((Pool.start env rs db).exec sched).threads[d]? = some (dispatch env rs[d].1 rs[d].2) := by
        rw [h1]; simp only [Pool.start, List.getElem?_map, List.getElem?_eq_getElem hdr, Option.map_some]
      obtain ⟨r, hr⟩ := hf _ (List.mem_of_getElem? e)
      obtain ⟨c, hc1, hv⟩ := (Sees.get hs).2 d rs[d] (List.getElem?_eq_getElem hdr)
      rw [hd] at hc1
      simp only [Option.some.injEq] at hc1
      subst hc1
      unfold dispatch command at hr
      rw [hv.command] at hr
      dsimp only at hr
      unfold dispatchDelete at hr
      rw [hv.keyType, if_neg (by simp), key_eq hv (by simp [CommandId.keyNotation])] at hr
      cases hr
    · exact h1
  refine ⟨hgone, ?_⟩
  obtain ⟨i, hi⟩ : ∃ i, w = some i := by
    cases w with
    | none => exact absurd hgone (h.key.mp rfl)
    | some i => exact ⟨i, rfl⟩
  subst hi
  obtain ⟨c, hci, htk⟩ := h.who i rfl
  have hlt : i < ((Pool.start env rs db).exec sched).threads.length := by
    rw [Pool.exec_length, hl]; exact (List.getElem?_eq_some_iff.mp hci).1
  obtain ⟨r, hr'⟩ := hf _ (List.getElem_mem hlt)
  have hdi : ((Pool.start env rs db).exec sched).threads[i]? = some (.done r) := by
    rw [List.getElem?_eq_getElem hlt, hr']
  have hT := h.takers i _ c hdi hci htk
  simp only [Thief, decide_true] at hT
  have hne : ∀ e, r ≠ .err e := fun e he => by
    have := hT.mpr ⟨e, he⟩
    simp at this
  exact ⟨i, c, r, hci, htk, hdi, hne,
    (C59_at_most_one_taker hs db k hr hk hc sched i c r hci htk hdi hne).2⟩

/-- Beside C59: a Delete and two Renames of the same key compete; the second Rename wins. -/
example : ((Pool.start (sampleEnv .debug) [(call .rename none [[1], [2]], []), (call .rename none [[1], [3]], []),
    (call .delete none [[1]], [])] (sampleDb [([1], .boolean true)])).exec [0, 0, 1, 1, 1, 2, 0, 2, 0, 1, 1]).threads.map
      (fun t => match t with | .done r => some r | _ => none) =
    [some (.err .keyNonexistent), some (.ok (frame (.value (.bytes [3])))), some (.err .preconditionFailed)] := by
  decide +kernel

example : ∃ e, ((Pool.start (sampleEnv .debug) [(call .rename none [[1], [2]], []), (call .rename none [[1], [3]], []),
    (call .delete none [[1]], [])] (sampleDb [([1], .boolean true)])).exec [0, 0, 1, 1, 1, 2, 0, 2, 0, 1, 1]).threads[2]? =
      some (.done (.err e)) := by
  have hs : Sees [(call .rename none [[1], [2]], []), (call .rename none [[1], [3]], []), (call .delete none [[1]], [])]
      [⟨.rename, none, [[1], [2]]⟩, ⟨.rename, none, [[1], [3]]⟩, ⟨.delete, none, [[1]]⟩] :=
    .cons (call_views _ _ _ (by decide) (by decide) (by decide)) (.cons (call_views _ _ _ (by decide) (by decide) (by decide))
      (.cons (call_views _ _ _ (by decide) (by decide) (by decide)) .nil))
  have hr : ∀ c ∈ [(⟨.rename, none, [[1], [2]]⟩ : Call), ⟨.rename, none, [[1], [3]]⟩, ⟨.delete, none, [[1]]⟩],
      Taker [1] c ∨ Bystander [1] c := by
    intro c hc
    left
    simp only [List.mem_cons, List.not_mem_nil, or_false] at hc
    rcases hc with rfl | rfl | rfl
    · exact ⟨rfl, Or.inr (by decide)⟩
    · exact ⟨rfl, Or.inr (by decide)⟩
    · exact ⟨rfl, Or.inl (by decide)⟩
  have := (C59_at_most_one_taker (env := sampleEnv .debug) hs (sampleDb [([1], .boolean true)]) [1] hr (by decide +kernel)
    (sampleDb_roomy _ _ (by decide)) [0, 0, 1, 1, 1, 2, 0, 2, 0, 1, 1] 1 _ (.ok (frame (.value (.bytes [3])))) rfl
    (hr _ (by simp) |>.resolve_right (by intro h; rcases h with h | h <;> revert h <;> decide)) rfl (by intro e h; cases h)).2
    2 _ (.err .preconditionFailed) rfl ⟨rfl, Or.inl rfl⟩ (by decide) rfl
  obtain ⟨e, he⟩ := this
  exact ⟨e, by rw [← he]; rfl⟩

/-! ## C36 Concurrent renames and creation of the target -/

/-- C36 as stated: if a Rename of `a` to `b` and a Set of `b`, running concurrently, both succeed, the value
that was set is not lost. -/
def C36_Statement : Prop :=
  ∀ (env : Env) (r1 r2 : Request) (resp1 resp2 : Bytes) (a b x : Bytes) (db : Db) (sched : List Nat) (o1 o2 : Bytes),
    Views r1 .rename none [a, b] → Views r2 .set (some .bytes) [b, x] → a ≠ b → db.keys a ≠ none → db.keys b = none →
    ¬ unusable env.mode b → Roomy 2 db.ctrs →
    ((Pool.start env [(r1, resp1), (r2, resp2)] db).exec sched).threads = [.done (.ok o1), .done (.ok o2)] →
    ((Pool.start env [(r1, resp1), (r2, resp2)] db).exec sched).db.keys b = some (.bytes x)

/-- It is false: Rename checks that `b` does not exist, the Set then creates it, and Rename overwrites it. -/
theorem C36_false : ¬ C36_Statement := by
  intro h
  have h1 := h (sampleEnv .debug) (call .rename none [[1], [2]]) (call .set (some .bytes) [[2], [7]]) [] [] [1] [2] [7]
    (sampleDb [([1], .boolean true)]) [0, 0, 1, 1, 1, 1, 1, 0, 0, 0] (frame (.value (.bytes [2])))
    (frame (.value (.bytes [7]))) (call_views _ _ _ (by decide) (by decide) (by decide))
    (call_views _ _ _ (by decide) (by decide) (by decide)) (by decide) (by decide +kernel) (by decide +kernel)
    (by decide) (sampleDb_roomy _ _ (by decide)) rfl
  revert h1
  decide +kernel

theorem Thief.step_key {k : Bytes} {f : Bool} {t : Prog Bytes} (h : Thief k f t) (db : Db) :
    (t.step db).2.keys k = db.keys k ∨ (t.step db).2.keys k = none := by
  cases t with
  | done r => exact Or.inl rfl
  | onCtr m upd next => exact Or.inl rfl
  | onKey k' upd next =>
    simp only [Prog.step]
    rcases h with ⟨h1, -⟩ | ⟨rfl, -, ⟨h3, -⟩ | ⟨h3, -, -⟩⟩
    · exact Or.inl (Db.setKey_keys_ne _ _ (Ne.symm h1))
    · rw [Db.setKey_keys_self, h3]; exact Or.inl rfl
    · rw [Db.setKey_keys_self, h3]; exact Or.inr rfl

theorem ends_count (env : Env) (r : Outcome DispatchError Bytes) : Ends r (countOutcome env r) := by
  cases r with
  | ok a => intro o ho; (try dsimp only); rw [addU_of_lt ho]
  | err e => intro o ho; (try dsimp only); rw [addU_of_lt ho]
  | panic => rfl
  | stuck => rfl

theorem Ends.step {p : Pool Bytes} (hb : Budget p) {i : Nat} {t : Prog Bytes} (ht : p.threads[i]? = some t)
    {r : Outcome DispatchError Bytes} (he : Ends r t) :
    (t.step p.db).2.keys = p.db.keys ∧ Ends r (t.step p.db).1 := by
  cases t with
  | done r' => exact ⟨rfl, he⟩
  | onKey => exact absurd he id
  | onCtr m upd next =>
    refine ⟨rfl, ?_⟩
    simp only [Prog.step]
    rw [he _ (hb.room ht rfl m)]
    rfl

/-- The end of a Rename. -/
def renameLast (env : Env) (resp b : Bytes) (v : Value) : Prog Bytes :=
  (insertKey b v (done (.ofOption (Response.writeBytes env.mode resp b)))).andThen (countOutcome env)

/-- A Rename after both checks. -/
def renameMove (env : Env) (resp a b : Bytes) : Prog Bytes :=
  (removeKey a fun o =>
    match o with
    | none => fail .keyNonexistent
    | some v => insertKey b v (done (.ofOption (Response.writeBytes env.mode resp b)))).andThen (countOutcome env)

/-- A Rename after the first check. -/
def renameCheck (env : Env) (resp a b : Bytes) : Prog Bytes :=
  (containsKey b fun taken =>
      if taken then fail .preconditionFailed
      else removeKey a fun o =>
        match o with
        | none => fail .keyNonexistent
        | some v => insertKey b v (done (.ofOption (Response.writeBytes env.mode resp b)))).andThen (countOutcome env)

theorem rename_begin {env : Env} {r : Request} {a b : Bytes} {more : List Bytes} (hv : Views r .rename none (a :: b :: more))
    (resp : Bytes) : dispatch env r resp = .onKey a (fun o => o) (fun o => (if !o.isSome then (fail .keyNonexistent : Prog Bytes).andThen
      (countOutcome env) else renameCheck env resp a b)) := by
  unfold dispatch command
  rw [hv.command]
  dsimp only
  unfold dispatchRename
  rw [hv.keyType, if_neg (by simp), hv.arg 0, hv.arg 1]
  simp only [List.getElem?_cons_zero, List.getElem?_cons_succ, Prog.orErr, containsKey, Prog.readKey, Prog.andThen]
  congr 1
  funext o
  cases o <;> rfl

/-- C36, the part that holds: if nobody else can change `b`, and the others do nothing to `a` but delete it or
rename it away, a Rename of `a` to another key `b` that reports success has found `b` missing, and from then on
`b` holds what `a` held and `a` is gone. -/
theorem C36_success_partial {env : Env} {rs : List (Request × Bytes)} {cs : List Call} (hs : Sees rs cs) (db : Db)
    (a b : Bytes) (hab : b ≠ a) (v : Value) (ha : db.keys a = some v) (i : Nat) (more : List Bytes)
    (hi : cs[i]? = some ⟨.rename, none, a :: b :: more⟩)
    (hoth : ∀ (j : Nat) c, cs[j]? = some c → j ≠ i → (Taker a c ∨ Bystander a c) ∧ Bystander b c)
    (hc : Roomy rs.length db.ctrs) (sched : List Nat) (out : Bytes)
    (hd : ((Pool.start env rs db).exec sched).threads[i]? = some (.done (.ok out))) :
    db.keys b = none ∧ ((Pool.start env rs db).exec sched).db.keys b = some v ∧
      ((Pool.start env rs db).exec sched).db.keys a = none := by
  have hl : (Pool.start env rs db).threads.length = cs.length := by simp [Pool.start, (Sees.get hs).1]
  have hil : i < rs.length := by rw [(Sees.get hs).1]; exact (List.getElem?_eq_some_iff.mp hi).1
  have hbud := Budget.start env rs db hc
  have hwb : ∀ (j : Nat) t, (Pool.start env rs db).threads[j]? = some t → j ≠ i → Writes (· ≠ b) t := by
    intro j t ht hj
    simp only [Pool.start, List.getElem?_map, Option.map_eq_some_iff] at ht
    obtain ⟨r, hr, rfl⟩ := ht
    obtain ⟨c, h1, h2⟩ := (Sees.get hs).2 j r hr
    exact writes_bystander h2 (hoth j c h1 hj).2 r.2
  have htk : ∀ c ∈ cs, Taker a c ∨ Bystander a c := by
    intro c hcm
    obtain ⟨j, hj⟩ := List.getElem?_of_mem hcm
    by_cases e : j = i
    · subst e
      rw [hi] at hj
      simp only [Option.some.injEq] at hj
      subst hj
      exact Or.inl ⟨rfl, Or.inr ⟨rfl, by simpa using hab⟩⟩
    · exact (hoth j c hj e).1
  have htaken := Taken.start (env := env) (db := db) hs htk (by rw [ha]; simp)
  have hv : Views rs[i].1 .rename none (a :: b :: more) := by
    obtain ⟨c, h1, h2⟩ := (Sees.get hs).2 i rs[i] (List.getElem?_eq_getElem hil)
    rw [hi] at h1
    simp only [Option.some.injEq] at h1
    subst h1
    exact h2
  have hbegin := rename_begin (env := env) hv rs[i].2
  have hinv : ∀ s : List Nat, let p := (Pool.start env rs db).exec s
      (p.db.keys a = some v ∨ p.db.keys a = none) ∧ (∀ (j : Nat) t, p.threads[j]? = some t → j ≠ i → Writes (· ≠ b) t) ∧
      ∃ t, p.threads[i]? = some t ∧
        ((p.db.keys b = db.keys b ∧ (t = dispatch env rs[i].1 rs[i].2 ∨ t = renameCheck env rs[i].2 a b ∨
          (db.keys b = none ∧ t = renameMove env rs[i].2 a b) ∨
          (db.keys b = none ∧ p.db.keys a = none ∧ t = renameLast env rs[i].2 b v) ∨ ∃ e, Ends (.err e) t)) ∨
        (db.keys b = none ∧ p.db.keys b = some v ∧ p.db.keys a = none ∧ ∃ r, Ends r t)) := by
    intro s
    induction s using snoc_induction with
    | h0 =>
      refine ⟨Or.inl ha, hwb, _, ?_, Or.inl ⟨rfl, Or.inl rfl⟩⟩
      simp only [Pool.exec_nil, Pool.start, List.getElem?_map, List.getElem?_eq_getElem hil, Option.map_some]
    | h1 s j ih =>
      obtain ⟨w, hw⟩ := htaken.exec hbud hl s
      obtain ⟨-, -, hanone⟩ := hw.step (hbud.exec s) (by rw [Pool.exec_length]; exact hl) j
      have hb' := hbud.exec s
      have hpl := Pool.exec_length (Pool.start env rs db) s
      rw [Pool.exec_snoc]
      revert ih hw hanone hb' hpl
      generalize (Pool.start env rs db).exec s = p
      intro ih hw hanone hb' hpl
      obtain ⟨h1, h2, t, ht, h3⟩ := ih
      by_cases e : j = i
      · subst e
        obtain ⟨hself, hdb⟩ := Pool.stepAt_self ht
        have hrest : ∀ (j' : Nat) t', (p.stepAt j).threads[j']? = some t' → j' ≠ j → Writes (· ≠ b) t' := by
          intro j' t' ht' hj'
          rw [Pool.stepAt_other _ hj'] at ht'
          exact h2 j' t' ht' hj'
        have hends : ∀ r, Ends r t → _ := fun r he => Ends.step hb' ht he
        rcases h3 with ⟨hb, rfl | rfl | ⟨hbn, rfl⟩ | ⟨hbn, han, rfl⟩ | ⟨e, he⟩⟩ | ⟨hbn, hbv, han, r, he⟩
        · rw [hbegin] at hself hdb
          simp only [Prog.step, Db.setKey_self] at hself hdb
          refine ⟨by rw [hdb]; exact h1, hrest, _, hself, Or.inl ⟨by rw [hdb]; exact hb, ?_⟩⟩
          cases p.db.keys a with
          | none => exact Or.inr (Or.inr (Or.inr (Or.inr ⟨.keyNonexistent, ends_count env _⟩)))
          | some v => exact Or.inr (Or.inl rfl)
        · simp only [renameCheck, containsKey, Prog.readKey, Prog.andThen, Prog.step, Db.setKey_self] at hself hdb
          refine ⟨by rw [hdb]; exact h1, hrest, _, hself, Or.inl ⟨by rw [hdb]; exact hb, ?_⟩⟩
          cases hkb : p.db.keys b with
          | some v => exact Or.inr (Or.inr (Or.inr (Or.inr ⟨.preconditionFailed, ends_count env _⟩)))
          | none => exact Or.inr (Or.inr (Or.inl ⟨by rw [← hb, hkb], rfl⟩))
        · simp only [renameMove, removeKey, Prog.andThen, Prog.step] at hself hdb
          have hab' : (p.stepAt j).db.keys b = db.keys b := by
            rw [hdb, Db.setKey_keys_ne _ _ hab]; exact hb
          have haa : (p.stepAt j).db.keys a = none := by rw [hdb, Db.setKey_keys_self]
          refine ⟨Or.inr haa, hrest, _, hself, Or.inl ⟨hab', ?_⟩⟩
          rcases h1 with h1 | h1
          · rw [h1]; exact Or.inr (Or.inr (Or.inr (Or.inl ⟨hbn, haa, rfl⟩)))
          · rw [h1]; exact Or.inr (Or.inr (Or.inr (Or.inr ⟨.keyNonexistent, ends_count env _⟩)))
        · simp only [renameLast, insertKey, Prog.andThen, Prog.step] at hself hdb
          have hab' : (p.stepAt j).db.keys b = some v := by rw [hdb, Db.setKey_keys_self]
          have haa : (p.stepAt j).db.keys a = none := by
            rw [hdb, Db.setKey_keys_ne _ _ (Ne.symm hab)]; exact han
          refine ⟨Or.inr haa, hrest, _, hself, Or.inr ⟨hbn, hab', haa, _, ends_count env _⟩⟩
        · obtain ⟨hk, he'⟩ := hends _ he
          rw [← hdb] at hk
          exact ⟨by rw [hk]; exact h1, hrest, _, hself, Or.inl ⟨by rw [hk]; exact hb,
            Or.inr (Or.inr (Or.inr (Or.inr ⟨e, he'⟩)))⟩⟩
        · obtain ⟨hk, he'⟩ := hends _ he
          rw [← hdb] at hk
          exact ⟨by rw [hk]; exact h1, hrest, _, hself, Or.inr ⟨hbn, by rw [hk]; exact hbv, by rw [hk]; exact han, r, he'⟩⟩
      · cases htj : p.threads[j]? with
        | none => rw [Pool.stepAt_none htj]; exact ⟨h1, h2, t, ht, h3⟩
        | some t' =>
          obtain ⟨hself, hdb⟩ := Pool.stepAt_self htj
          have hwj := Writes.step (h2 j t' htj e) p.db
          have hkb : (p.stepAt j).db.keys b = p.db.keys b := by rw [hdb]; exact hwj.2 b (by simp)
          have hrest : ∀ (j' : Nat) t'', (p.stepAt j).threads[j']? = some t'' → j' ≠ i → Writes (· ≠ b) t'' := by
            intro j' t'' ht'' hj'
            by_cases e' : j' = j
            · subst e'
              rw [hself] at ht''
              simp only [Option.some.injEq] at ht''
              subst ht''
              exact hwj.1
            · rw [Pool.stepAt_other _ e'] at ht''
              exact h2 j' t'' ht'' hj'
          have hka : (p.stepAt j).db.keys a = p.db.keys a ∨ (p.stepAt j).db.keys a = none := by
            have hjl : j < cs.length := by
              rw [← hl]
              have := (List.getElem?_eq_some_iff.mp htj).1
              omega
            by_cases hT : Taker a cs[j]
            · rw [hdb]; exact (hw.takers j t' _ htj (List.getElem?_eq_getElem hjl) hT).step_key p.db
            · left
              rw [hdb]
              exact (Writes.step (hw.others j t' _ htj (List.getElem?_eq_getElem hjl) hT) p.db).2 a (by simp)
          refine ⟨?_, hrest, t, by rw [Pool.stepAt_other _ (Ne.symm e)]; exact ht, ?_⟩
          · rcases hka with h | h
            · rw [h]; exact h1
            · exact Or.inr h
          · rw [hkb]
            rcases h3 with ⟨hb, h | h | h | ⟨hbn, han, h⟩ | h⟩ | ⟨hbn, hbv, han, r, he⟩
            · exact Or.inl ⟨hb, Or.inl h⟩
            · exact Or.inl ⟨hb, Or.inr (Or.inl h)⟩
            · exact Or.inl ⟨hb, Or.inr (Or.inr (Or.inl h))⟩
            · exact Or.inl ⟨hb, Or.inr (Or.inr (Or.inr (Or.inl ⟨hbn, hanone han, h⟩)))⟩
            · exact Or.inl ⟨hb, Or.inr (Or.inr (Or.inr (Or.inr h)))⟩
            · exact Or.inr ⟨hbn, hbv, hanone han, r, he⟩
  obtain ⟨-, -, t, ht, h⟩ := hinv sched
  rw [hd] at ht
  simp only [Option.some.injEq] at ht
  subst ht
  rcases h with ⟨-, h | h | ⟨-, h⟩ | ⟨-, -, h⟩ | ⟨e, h⟩⟩ | ⟨h1, h2, h3, -⟩
  · rw [hbegin] at h; cases h
  · cases h
  · cases h
  · cases h
  · cases h
  · exact ⟨h1, h2, h3⟩

/-- Beside C36: two Renames of the same key to different targets compete. -/
example : (sampleDb [([1], .boolean true)]).keys [3] = none ∧
    ((Pool.start (sampleEnv .debug) [(call .rename none [[1], [2]], []), (call .rename none [[1], [3]], [])]
      (sampleDb [([1], .boolean true)])).exec [0, 0, 1, 1, 1, 0, 1, 1, 0]).db.keys [3] = some (.boolean true) := by
  have hs : Sees [(call .rename none [[1], [2]], []), (call .rename none [[1], [3]], [])]
      [⟨.rename, none, [[1], [2]]⟩, ⟨.rename, none, [[1], [3]]⟩] :=
    .cons (call_views _ _ _ (by decide) (by decide) (by decide)) (.cons (call_views _ _ _ (by decide) (by decide) (by decide)) .nil)
  have := C36_success_partial (env := sampleEnv .debug) hs (sampleDb [([1], .boolean true)]) [1] [3] (by decide)
    (.boolean true) (by decide +kernel) 1 [] rfl (by
      intro j c hj hne
      rcases j with _ | _ | j
      · simp at hj; subst hj; exact ⟨Or.inl ⟨rfl, Or.inr (by decide)⟩, Or.inr (by decide)⟩
      · exact absurd rfl hne
      · simp at hj) (sampleDb_roomy _ _ (by decide)) [0, 0, 1, 1, 1, 0, 1, 1, 0] (frame (.value (.bytes [3]))) rfl
  exact ⟨this.1, this.2.1⟩

/-! ## Further concrete cases -/

/-- A Delete, a Rename and a Get at once: exactly one of the first two succeeds. -/
example (sched : List Nat) (hf : ((Pool.start (sampleEnv .debug) [(call .delete none [[1]], []), (call .rename none [[1], [2]], []),
    (call .get none [[1]], [])] (sampleDb [([1], .integer 5)])).exec sched).finished) :
    ((Pool.start (sampleEnv .debug) [(call .delete none [[1]], []), (call .rename none [[1], [2]], []), (call .get none [[1]], [])]
      (sampleDb [([1], .integer 5)])).exec sched).db.keys [1] = none := by
  refine (C59_exactly_one_taker (env := sampleEnv .debug) (cs := [⟨.delete, none, [[1]]⟩, ⟨.rename, none, [[1], [2]]⟩, ⟨.get, none, [[1]]⟩])
    (.cons (call_views _ _ _ (by decide) (by decide) (by decide)) (.cons (call_views _ _ _ (by decide) (by decide) (by decide))
      (.cons (call_views _ _ _ (by decide) (by decide) (by decide)) .nil))) (sampleDb [([1], .integer 5)]) [1] ?_ (by decide)
    (by intro m; simp [sampleDb]) sched hf 0 [] rfl).1
  intro c hc
  simp only [List.mem_cons, List.not_mem_nil, or_false] at hc
  rcases hc with rfl | rfl | rfl
  · exact .inl ⟨rfl, .inl rfl⟩
  · exact .inl ⟨rfl, .inr ⟨rfl, by decide⟩⟩
  · exact .inr (.inl (by decide))

example (sched : List Nat) (m : Metric) (h : m ≠ .commandsSuccessful) (h' : m ≠ .commandsErrored) :
    ((Pool.start (sampleEnv .debug) [(call .delete none [[1]], []), (call .rename none [[1], [2]], [])] (sampleDb [([1], .integer 5)])).exec
      sched).db.ctrs m = (sampleDb [([1], .integer 5)]).ctrs m :=
  (C60_concurrent_statistics _ _ (by intro m; simp [sampleDb]) sched).2.2 m h h'

end Hop
