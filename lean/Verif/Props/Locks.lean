import Verif.Model.Locks
import Verif.Props.Losing

/-! # C106, C107: locks -/

namespace Hop

open Spec Prog

/-- The requests, none of which has begun. -/
def Spec.waiting (env : Env) (rs : List (Request × Bytes)) (db : Db) : LPool Bytes :=
  { threads := rs.map fun r => .ready (dispatch env r.1 r.2), db := db }

theorem Db.put_get_self (db : Db) (c : Cell) (v : c.Val) : (db.put c v).get c = v := by
  cases c with
  | key k => exact Db.setKey_keys_self db k v
  | ctr m => exact if_pos rfl

theorem Db.put_get_ne (db : Db) {c c' : Cell} (v : c.Val) (h : c' ≠ c) : (db.put c v).get c' = db.get c' := by
  cases c with
  | key k =>
    cases c' with
    | key k' => exact Db.setKey_keys_ne db v fun e => h (by rw [e])
    | ctr m' => rfl
  | ctr m =>
    cases c' with
    | key k' => rfl
    | ctr m' => exact if_neg fun e => h (by rw [e])

theorem Db.put_self (db : Db) (c : Cell) : db.put c (db.get c) = db := by
  cases c with
  | key k => exact Db.setKey_self db k
  | ctr m => exact Db.setCtr_self db m

theorem Db.get_ext {d d' : Db} (h : ∀ c, d.get c = d'.get c) : d = d' := by
  obtain ⟨k, c⟩ := d
  obtain ⟨k', c'⟩ := d'
  have h1 : k = k' := funext fun x => h (.key x)
  have h2 : c = c' := funext fun x => h (.ctr x)
  rw [h1, h2]

theorem Prog.step_on {α : Type} (c : Cell) (upd : c.Val → c.Val) (next : c.Val → Prog α) (db : Db) :
    (Prog.on c upd next).step db = (next (db.get c), db.put c (upd (db.get c))) := by
  cases c <;> rfl

/-- What a thread still has to do: an access that reads counts from its beginning, one that writes from its end. -/
def LThread.rest {α : Type} : LThread α → Prog α
  | .ready p => p
  | .reading _ o next => next o
  | .writing c _ upd next => .on c upd next

/-- A pool with locks and one without are at corresponding points. -/
structure Covers {α : Type} (shard : Cell → Nat) (p : LPool α) (a : Pool α) : Prop where
  threads : a.threads = p.threads.map LThread.rest
  free : ∀ c, (∀ (i : Nat) t, p.threads[i]? = some t → t.owns ≠ some c) → a.db.get c = p.db.get c
  hidden : ∀ (i : Nat) c o upd next, p.threads[i]? = some (.writing c o upd next) → a.db.get c = o
  seen : ∀ (i : Nat) c o next, p.threads[i]? = some (.reading c o next) → p.db.get c = o
  apart : ∀ (i j : Nat) t t' c c', i ≠ j → p.threads[i]? = some t → p.threads[j]? = some t' → t.owns = some c → t'.holds = some c' →
    shard c' ≠ shard c

theorem LThread.holds_of_owns {α : Type} {t : LThread α} {c : Cell} (h : t.owns = some c) : t.holds = some c := by
  cases t <;> simp_all [LThread.owns, LThread.holds]

theorem getElem?_set_cases {α : Type} {l : List α} {i j : Nat} {a b : α} (h : (l.set i a)[j]? = some b) :
    (j = i ∧ b = a) ∨ (j ≠ i ∧ l[j]? = some b) := by
  by_cases e : j = i
  · subst e
    have hl := (List.getElem?_eq_some_iff.mp h).1
    rw [List.length_set] at hl
    rw [List.getElem?_set_self hl] at h
    exact Or.inl ⟨rfl, (Option.some.inj h).symm⟩
  · rw [List.getElem?_set_ne (fun e' => e e'.symm)] at h
    exact Or.inr ⟨e, h⟩

theorem set_map_rest {α : Type} {l : List (LThread α)} {i : Nat} {t t' : LThread α} (h : l[i]? = some t) (hr : t'.rest = t.rest) :
    (l.set i t').map LThread.rest = l.map LThread.rest := by
  rw [List.map_set, hr]
  obtain ⟨h1, h2⟩ := List.getElem?_eq_some_iff.mp h
  have : (l.map LThread.rest)[i]'(by simpa using h1) = t.rest := by simp [h2]
  rw [← this]
  exact List.set_getElem_self _

/-- A step with locks is no step, or one step without. -/
theorem Covers.step {α : Type} {shard : Cell → Nat} {p p' : LPool α} {a : Pool α} (h : Covers shard p a) (hs : LStep shard p p') :
    Covers shard p' a ∨ ∃ i, Covers shard p' (a.stepAt i) := by
  have hget : ∀ (i : Nat) t, p.threads[i]? = some t → a.threads[i]? = some t.rest := by
    intro i t ht
    rw [h.threads, List.getElem?_map, ht]; rfl
  cases hs with
  | @share i k upd next ht hid hno =>
    right
    refine ⟨i, ?_⟩
    have hk : a.db.get k = p.db.get k := h.free k fun j t htj ho => hno j t k htj ho rfl
    have hst := Pool.stepAt_some (hget i _ ht)
    have hdb : (a.stepAt i).db = a.db := by
      rw [hst]
      simp only [LThread.rest, Prog.step_on, hid, Db.put_self]
    have hth : (a.stepAt i).threads = a.threads.set i (next (p.db.get k)) := by
      rw [hst]
      simp only [LThread.rest, Prog.step_on, hk]
    refine ⟨?_, ?_, ?_, ?_, ?_⟩
    · rw [hth, h.threads, List.map_set]; rfl
    · intro k' hk'
      rw [hdb]
      refine h.free k' fun j t htj ho => ?_
      by_cases e : j = i
      · subst e; rw [ht] at htj; cases htj; simp [LThread.owns] at ho
      · exact hk' j t (by rw [List.getElem?_set_ne (fun e' => e e'.symm)]; exact htj) ho
    · intro j k' o u n htj
      rcases getElem?_set_cases htj with ⟨-, e⟩ | ⟨-, htj⟩
      · cases e
      · rw [hdb]; exact h.hidden j k' o u n htj
    · intro j k' o n htj
      rcases getElem?_set_cases htj with ⟨-, e⟩ | ⟨-, htj⟩
      · cases e; rfl
      · exact h.seen j k' o n htj
    · intro j j' t t' k1 k2 hne h1 h2 ho hh
      rcases getElem?_set_cases h1 with ⟨rfl, rfl⟩ | ⟨e1, g1⟩
      · simp [LThread.owns] at ho
      · rcases getElem?_set_cases h2 with ⟨rfl, rfl⟩ | ⟨e2, g2⟩
        · simp only [LThread.holds, Option.some.injEq] at hh
          subst hh
          exact fun e => hno j t k1 g1 ho e.symm
        · exact h.apart j j' t t' k1 k2 hne g1 g2 ho hh
  | @lock i k upd next ht hno =>
    left
    have hk : a.db.get k = p.db.get k := h.free k fun j t htj ho => hno j t k htj (LThread.holds_of_owns ho) rfl
    refine ⟨?_, ?_, ?_, ?_, ?_⟩
    · rw [h.threads]
      exact (set_map_rest (t' := .writing k (p.db.get k) upd next) ht rfl).symm
    · intro k' hk'
      refine h.free k' fun j t htj ho => ?_
      by_cases e : j = i
      · subst e; rw [ht] at htj; cases htj; simp [LThread.owns] at ho
      · exact hk' j t (by rw [List.getElem?_set_ne (fun e' => e e'.symm)]; exact htj) ho
    · intro j k' o u n htj
      rcases getElem?_set_cases htj with ⟨-, e⟩ | ⟨-, htj⟩
      · cases e; exact hk
      · exact h.hidden j k' o u n htj
    · intro j k' o n htj
      rcases getElem?_set_cases htj with ⟨-, e⟩ | ⟨-, htj⟩
      · cases e
      · exact h.seen j k' o n htj
    · intro j j' t t' k1 k2 hne h1 h2 ho hh
      rcases getElem?_set_cases h1 with ⟨rfl, rfl⟩ | ⟨e1, g1⟩
      · rcases getElem?_set_cases h2 with ⟨e2, -⟩ | ⟨e2, g2⟩
        · exact absurd e2.symm hne
        · simp only [LThread.owns, Option.some.injEq] at ho
          subst ho
          exact hno j' t' k2 g2 hh
      · rcases getElem?_set_cases h2 with ⟨rfl, rfl⟩ | ⟨e2, g2⟩
        · simp only [LThread.holds, Option.some.injEq] at hh
          subst hh
          exact fun e => hno j t k1 g1 (LThread.holds_of_owns ho) e.symm
        · exact h.apart j j' t t' k1 k2 hne g1 g2 ho hh
  | @draft i k o upd next v ht =>
    left
    refine ⟨h.threads, ?_, h.hidden, ?_, h.apart⟩
    · intro k' hk'
      have : k' ≠ k := fun e => hk' i _ ht (by subst e; rfl)
      rw [Db.put_get_ne _ _ this]
      exact h.free k' hk'
    · intro j k' o' n htj
      have hij : i ≠ j := by rintro rfl; rw [ht] at htj; cases htj
      have : k' ≠ k := fun e => h.apart i j _ _ k k' hij ht htj rfl rfl (by rw [e])
      rw [Db.put_get_ne _ _ this]
      exact h.seen j k' o' n htj
  | @commit i k o upd next ht =>
    right
    refine ⟨i, ?_⟩
    have hk : a.db.get k = o := h.hidden i k o upd next ht
    have hst := Pool.stepAt_some (hget i _ ht)
    have hdb : (a.stepAt i).db = a.db.put k (upd o) := by
      rw [hst]
      simp only [LThread.rest, Prog.step_on, hk]
    have hth : (a.stepAt i).threads = a.threads.set i (next o) := by
      rw [hst]
      simp only [LThread.rest, Prog.step_on, hk]
    have hother : ∀ (j : Nat) t k', j ≠ i → p.threads[j]? = some t → t.holds = some k' → k' ≠ k := by
      intro j t k' hji htj hh e
      exact h.apart i j _ _ k k' (Ne.symm hji) ht htj rfl hh (by rw [e])
    refine ⟨?_, ?_, ?_, ?_, ?_⟩
    · rw [hth, h.threads, List.map_set]; rfl
    · intro k' hk'
      rw [hdb]
      by_cases e : k' = k
      · subst e; rw [Db.put_get_self, Db.put_get_self]
      · rw [Db.put_get_ne _ _ e, Db.put_get_ne _ _ e]
        refine h.free k' fun j t htj ho => ?_
        by_cases e' : j = i
        · subst e'; rw [ht] at htj; cases htj; simp only [LThread.owns, Option.some.injEq] at ho; exact e ho.symm
        · exact hk' j t (by rw [List.getElem?_set_ne (fun e'' => e' e''.symm)]; exact htj) ho
    · intro j k' o' u n htj
      rcases getElem?_set_cases htj with ⟨-, e⟩ | ⟨hji, htj⟩
      · cases e
      · rw [hdb, Db.put_get_ne _ _ (hother j _ k' hji htj rfl)]
        exact h.hidden j k' o' u n htj
    · intro j k' o' n htj
      rcases getElem?_set_cases htj with ⟨-, e⟩ | ⟨hji, htj⟩
      · cases e
      · dsimp only
        rw [Db.put_get_ne _ _ (hother j _ k' hji htj rfl)]
        exact h.seen j k' o' n htj
    · intro j j' t t' k1 k2 hne h1 h2 ho hh
      rcases getElem?_set_cases h1 with ⟨rfl, rfl⟩ | ⟨e1, g1⟩
      · simp [LThread.owns] at ho
      · rcases getElem?_set_cases h2 with ⟨rfl, rfl⟩ | ⟨e2, g2⟩
        · simp [LThread.holds] at hh
        · exact h.apart j j' t t' k1 k2 hne g1 g2 ho hh
  | @release i k o next ht =>
    left
    have hk : p.db.get k = o := h.seen i k o next ht
    rw [hk]
    refine ⟨?_, ?_, ?_, ?_, ?_⟩
    · rw [h.threads]
      exact (set_map_rest (t' := .ready (next o)) ht rfl).symm
    · intro k' hk'
      refine h.free k' fun j t htj ho => ?_
      by_cases e : j = i
      · subst e; rw [ht] at htj; cases htj; simp [LThread.owns] at ho
      · exact hk' j t (by rw [List.getElem?_set_ne (fun e' => e e'.symm)]; exact htj) ho
    · intro j k' o u n htj
      rcases getElem?_set_cases htj with ⟨-, e⟩ | ⟨-, htj⟩
      · cases e
      · exact h.hidden j k' o u n htj
    · intro j k' o n htj
      rcases getElem?_set_cases htj with ⟨-, e⟩ | ⟨-, htj⟩
      · cases e
      · exact h.seen j k' o n htj
    · intro j j' t t' k1 k2 hne h1 h2 ho hh
      rcases getElem?_set_cases h1 with ⟨rfl, rfl⟩ | ⟨e1, g1⟩
      · simp [LThread.owns] at ho
      · rcases getElem?_set_cases h2 with ⟨rfl, rfl⟩ | ⟨e2, g2⟩
        · simp [LThread.holds] at hh
        · exact h.apart j j' t t' k1 k2 hne g1 g2 ho hh

theorem covers_start (shard : Cell → Nat) (env : Env) (rs : List (Request × Bytes)) (db : Db) :
    Covers shard (waiting env rs db) (Pool.start env rs db) := by
  have hw : ∀ (i : Nat) t, (waiting env rs db).threads[i]? = some t → ∃ q, t = .ready q := by
    intro i t ht
    simp only [waiting, List.getElem?_map, Option.map_eq_some_iff] at ht
    obtain ⟨r, -, rfl⟩ := ht
    exact ⟨_, rfl⟩
  refine ⟨?_, fun _ _ => rfl, ?_, ?_, ?_⟩
  · simp only [waiting, Pool.start, List.map_map]
    rfl
  · intro i k o upd next ht
    obtain ⟨q, hq⟩ := hw i _ ht
    cases hq
  · intro i k o next ht
    obtain ⟨q, hq⟩ := hw i _ ht
    cases hq
  · intro i j t t' k k' _ ht _ ho
    obtain ⟨q, rfl⟩ := hw i _ ht
    simp [LThread.owns] at ho

theorem covers_exec {shard : Cell → Nat} {env : Env} {rs : List (Request × Bytes)} {db : Db} {p : LPool Bytes}
    (hp : LSteps shard (waiting env rs db) p) : ∃ sched, Covers shard p ((Pool.start env rs db).exec sched) := by
  generalize hq : waiting env rs db = q at hp
  induction hp with
  | refl => subst hq; exact ⟨[], covers_start shard env rs db⟩
  | tail _ hs ih =>
    obtain ⟨sched, h⟩ := ih
    rcases h.step hs with h' | ⟨i, h'⟩
    · exact ⟨sched, h'⟩
    · exact ⟨sched ++ [i], by rw [Pool.exec_snoc]; exact h'⟩

/-- C106. Let accesses to keys and counters be spread out in time, with locks: the guard of an entry is acquired, the entry goes through
any states, the guard is dropped, and other threads run in between. Whenever all requests have finished, the answers, the
keys and the counters are those of an execution in which each access is a single step, so all claims about these
hold. -/
theorem C106_one_step (shard : Cell → Nat) (env : Env) (rs : List (Request × Bytes)) (db : Db) (p : LPool Bytes)
    (hp : LSteps shard (waiting env rs db) p) (hf : ∀ t ∈ p.threads, ∃ x, t = .ready (.done x)) :
    ∃ sched, ((Pool.start env rs db).exec sched).finished ∧ ((Pool.start env rs db).exec sched).db = p.db ∧
      ((Pool.start env rs db).exec sched).threads.map LThread.ready = p.threads := by
  obtain ⟨sched, h⟩ := covers_exec hp
  refine ⟨sched, ?_, ?_, ?_⟩
  · intro t ht
    rw [h.threads, List.mem_map] at ht
    obtain ⟨t', ht', rfl⟩ := ht
    obtain ⟨x, rfl⟩ := hf t' ht'
    exact ⟨x, rfl⟩
  · refine Db.get_ext fun c => h.free c fun i t ht ho => ?_
    obtain ⟨x, rfl⟩ := hf t (List.mem_of_getElem? ht)
    simp [LThread.owns] at ho
  · rw [h.threads, List.map_map]
    conv => rhs; rw [← List.map_id p.threads]
    refine List.map_congr_left fun t ht => ?_
    obtain ⟨x, rfl⟩ := hf t ht
    rfl

/-- C106 at every moment: a key or counter that no request is just modifying holds what it holds after some execution in
which each access is a single step; so does the entry a guard gives access to, for as long as it is held. -/
theorem C106_moments (shard : Cell → Nat) (env : Env) (rs : List (Request × Bytes)) (db : Db) (p : LPool Bytes)
    (hp : LSteps shard (waiting env rs db) p) :
    ∃ sched, (∀ c, (∀ t ∈ p.threads, t.owns ≠ some c) → p.db.get c = ((Pool.start env rs db).exec sched).db.get c) ∧
      (∀ c o upd next, .writing c o upd next ∈ p.threads → o = ((Pool.start env rs db).exec sched).db.get c) ∧
      (∀ c o next, .reading c o next ∈ p.threads → p.db.get c = o) := by
  obtain ⟨sched, h⟩ := covers_exec hp
  refine ⟨sched, ?_, ?_, ?_⟩
  · intro c hc
    exact (h.free c fun i t ht => hc t (List.mem_of_getElem? ht)).symm
  · intro c o upd next hm
    obtain ⟨i, hi⟩ := List.getElem?_of_mem hm
    exact (h.hidden i c o upd next hi).symm
  · intro c o next hm
    obtain ⟨i, hi⟩ := List.getElem?_of_mem hm
    exact h.seen i c o next hi

/-- An unfinished program begins with an access. -/
theorem Prog.cases_on {α : Type} (q : Prog α) : (∃ x, q = .done x) ∨ ∃ c upd next, q = .on c upd next := by
  cases q with
  | done x => exact .inl ⟨x, rfl⟩
  | onKey k upd next => exact .inr ⟨.key k, upd, next, rfl⟩
  | onCtr m upd next => exact .inr ⟨.ctr m, upd, next, rfl⟩

theorem lsteps_exec {α : Type} (shard : Cell → Nat) (q0 : Pool α) (sched : List Nat) :
    LSteps shard { threads := q0.threads.map .ready, db := q0.db }
      { threads := (q0.exec sched).threads.map .ready, db := (q0.exec sched).db } := by
  induction sched using snoc_induction with
  | h0 => exact .refl
  | h1 s i ih =>
    rw [Pool.exec_snoc]
    generalize q0.exec s = q at ih
    have hready : ∀ (j : Nat) t k', (q.threads.map LThread.ready)[j]? = some t → t.holds = some k' → False := by
      intro j t k' ht hh
      simp only [List.getElem?_map, Option.map_eq_some_iff] at ht
      obtain ⟨p, -, rfl⟩ := ht
      simp [LThread.holds] at hh
    cases ht : q.threads[i]? with
    | none => rw [Pool.stepAt_none ht]; exact ih
    | some t =>
      have ht' : (q.threads.map LThread.ready)[i]? = some (.ready t) := by simp [ht]
      have hil : i < q.threads.length := (List.getElem?_eq_some_iff.mp ht).1
      rcases t.cases_on with ⟨x, rfl⟩ | ⟨c, upd, next, rfl⟩
      · rw [Pool.stepAt_done ht]; exact ih
      · rw [Pool.stepAt_some ht]
        have h1 := LStep.lock (shard := shard) (p := { threads := q.threads.map .ready, db := q.db }) ht' (by
          intro j t k' htj hh
          exact (hready j t k' htj hh).elim)
        have h2 := LStep.commit (shard := shard) (p := { threads := (q.threads.map .ready).set i (.writing c (q.db.get c) upd next), db := q.db })
          (i := i) (c := c) (o := q.db.get c) (upd := upd) (next := next) (by simp [hil])
        have h3 := LSteps.tail (LSteps.tail ih h1) h2
        simpa only [Prog.step_on, List.map_set, List.set_set] using h3

/-- C106, the other way round: every execution in which each access is a single step is possible with locks. -/
theorem C106_all_possible (shard : Cell → Nat) (env : Env) (rs : List (Request × Bytes)) (db : Db) (sched : List Nat) :
    LSteps shard (waiting env rs db)
      { threads := ((Pool.start env rs db).exec sched).threads.map .ready, db := ((Pool.start env rs db).exec sched).db } := by
  have h := lsteps_exec shard (Pool.start env rs db) sched
  have e : waiting env rs db = { threads := (Pool.start env rs db).threads.map .ready, db := (Pool.start env rs db).db } := by
    simp only [waiting, Pool.start, List.map_map]
    rfl
  rw [e]
  exact h

/-! ## No deadlock -/

/-- Thread `i` can take a step, and not just go on with a modification: if it holds a guard it drops it. -/
def Spec.Moves {α : Type} (shard : Cell → Nat) (p : LPool α) (i : Nat) : Prop :=
  ∃ t t' db', p.threads[i]? = some t ∧ LStep shard p { threads := p.threads.set i t', db := db' } ∧
    (t.holds ≠ none → t'.holds = none)

theorem moves_of_holds {α : Type} (shard : Cell → Nat) {p : LPool α} {i : Nat} {t : LThread α} {c : Cell}
    (ht : p.threads[i]? = some t) (hh : t.holds = some c) : Moves shard p i := by
  cases t with
  | ready q => simp [LThread.holds] at hh
  | reading k' o next => exact ⟨_, _, _, ht, .release ht, fun _ => rfl⟩
  | writing k' o upd next => exact ⟨_, _, _, ht, .commit ht, fun _ => rfl⟩

/-- C107. A request that has not finished can take a step, or waits for the lock of a key or counter that is held by another request,
which can take the step that drops it. So nobody waits in a circle, whatever keys and counters share a lock. -/
theorem C107_no_deadlock {α : Type} (shard : Cell → Nat) (p : LPool α) (i : Nat) (t : LThread α) (ht : p.threads[i]? = some t) :
    (∃ x, t = .ready (.done x)) ∨ Moves shard p i ∨
    ∃ (c c' : Cell) (upd : c.Val → c.Val) (next : c.Val → Prog α) (j : Nat) (t' : LThread α),
      t = .ready (.on c upd next) ∧ p.threads[j]? = some t' ∧ t'.holds = some c' ∧ shard c' = shard c ∧ Moves shard p j := by
  cases t with
  | reading c o next => exact Or.inr (Or.inl (moves_of_holds shard ht rfl))
  | writing c o upd next => exact Or.inr (Or.inl (moves_of_holds shard ht rfl))
  | ready q =>
    rcases q.cases_on with ⟨x, rfl⟩ | ⟨c, upd, next, rfl⟩
    · exact Or.inl ⟨x, rfl⟩
    · right
      by_cases hno : ∀ (j : Nat) t c', p.threads[j]? = some t → t.holds = some c' → shard c' ≠ shard c
      · exact Or.inl ⟨_, _, _, ht, .lock ht hno, fun h => absurd rfl h⟩
      · right
        simp only [Classical.not_forall, Decidable.not_not] at hno
        obtain ⟨j, t', c', h1, h2, h3⟩ := hno
        exact ⟨c, c', upd, next, j, t', rfl, h1, h2, h3, moves_of_holds shard h1 h2⟩

theorem LSteps.trans {α : Type} {shard : Cell → Nat} {p q r : LPool α} (h1 : LSteps shard p q) (h2 : LSteps shard q r) : LSteps shard p r := by
  induction h2 with
  | refl => exact h1
  | tail _ hs ih => exact .tail ih hs

/-- All guards can be dropped. -/
theorem drops_all {α : Type} (shard : Cell → Nat) (n : Nat) (p : LPool α) (hn : p.threads.countP (fun t => t.holds.isSome) = n) :
    ∃ q : Pool α, LSteps shard p { threads := q.threads.map .ready, db := q.db } := by
  induction n generalizing p with
  | zero =>
    refine ⟨{ threads := p.threads.map LThread.rest, db := p.db }, ?_⟩
    have : (p.threads.map LThread.rest).map LThread.ready = p.threads := by
      rw [List.map_map]
      conv => rhs; rw [← List.map_id p.threads]
      refine List.map_congr_left fun t ht => ?_
      rw [List.countP_eq_zero] at hn
      have := hn t ht
      cases t with
      | ready q => rfl
      | reading k o next => simp [LThread.holds] at this
      | writing k o upd next => simp [LThread.holds] at this
    simp only [this]
    exact .refl
  | succ n ih =>
    have hpos : 0 < p.threads.countP (fun t => t.holds.isSome) := by omega
    rw [List.countP_pos_iff] at hpos
    obtain ⟨t, hm, hh⟩ := hpos
    obtain ⟨i, hi⟩ := List.getElem?_of_mem hm
    obtain ⟨k, hk⟩ := Option.isSome_iff_exists.mp hh
    obtain ⟨t0, t', db', h0, hs, hd⟩ := moves_of_holds shard hi hk
    rw [hi] at h0
    cases h0
    have hil := (List.getElem?_eq_some_iff.mp hi)
    have hcount := (countP_set_le (fun t : LThread α => t.holds.isSome) p.threads i t' hil.1 (by rw [hil.2]; exact hh)).1
      (by rw [hd (by rw [hk]; simp)]; rfl)
    obtain ⟨q, hq⟩ := ih { threads := p.threads.set i t', db := db' } (by simp only; omega)
    exact ⟨q, LSteps.trans (.tail .refl hs) hq⟩

/-- C107: from every situation all requests can still finish. -/
theorem C107_can_finish {α : Type} (shard : Cell → Nat) (p : LPool α) :
    ∃ p', LSteps shard p p' ∧ ∀ t ∈ p'.threads, ∃ x, t = .ready (.done x) := by
  obtain ⟨q, hq⟩ := drops_all shard _ p rfl
  obtain ⟨s, h1, -⟩ := Pool.solos (List.range q.threads.length) q (fun i hi => List.mem_range.mp hi)
  refine ⟨_, LSteps.trans hq (lsteps_exec shard q s), ?_⟩
  intro t ht
  simp only [List.mem_map] at ht
  obtain ⟨t0, ht0, rfl⟩ := ht
  obtain ⟨i, hi⟩ := List.getElem?_of_mem ht0
  have hil := (List.getElem?_eq_some_iff.mp hi).1
  rw [Pool.exec_length] at hil
  obtain ⟨r, hr⟩ := h1 i (List.mem_range.mpr hil)
  rw [hi] at hr
  cases hr
  exact ⟨r, rfl⟩

/-- Locks by the length of a key, and one more for each counter. -/
private def byLength : Cell → Nat
  | .key k => k.length
  | .ctr m => 10 + m.name.length

/-- Beside C106 and C107: an Increment that leaves its key empty for a while, and a Get of another key, with another
lock, in between; then one counts a success and the other, meanwhile, an error. -/
example : ∃ p, LSteps byLength (waiting (sampleEnv .debug) [(call .increment none [[1]], []), (call .get none [[1, 2]], [])]
      (sampleDb [([1], .integer 5)])) p ∧
    (∀ t ∈ p.threads, ∃ x, t = .ready (.done x)) ∧ p.db.keys [1] = some (.integer 6) ∧ p.db.ctrs .commandsSuccessful = some 1 ∧
    p.db.ctrs .commandsErrored = some 1 := by
  have no : ∀ {p : LPool Bytes} {n : Nat}, (∀ t ∈ p.threads, ∀ k, t.holds = some k → byLength k ≠ n) →
      ∀ (j : Nat) t k', p.threads[j]? = some t → t.holds = some k' → byLength k' ≠ n :=
    fun h j t k' ht hk => h t (List.mem_of_getElem? ht) k' hk
  have no0 : ∀ {a b : Prog Bytes} {n : Nat}, ∀ t ∈ [LThread.ready a, .ready b], ∀ k, t.holds = some k → byLength k ≠ n := by
    intro a b n t ht k hk
    rcases List.mem_cons.mp ht with rfl | ht
    · cases hk
    · rcases List.mem_cons.mp ht with rfl | ht
      · cases hk
      · cases ht
  have h1 := LSteps.tail (LSteps.refl (shard := byLength) (p := waiting (sampleEnv .debug)
    [(call .increment none [[1]], []), (call .get none [[1, 2]], [])] (sampleDb [([1], .integer 5)])))
    (.lock (i := 0) (c := .key [1]) rfl (no no0))
  have h2 := LSteps.tail h1 (.draft (i := 0) (c := .key [1]) none rfl)
  have h3 := LSteps.tail h2 (.lock (i := 1) (c := .key [1, 2]) rfl (no (by
    intro t ht k hk
    rcases List.mem_cons.mp ht with rfl | ht
    · cases hk; decide
    · rcases List.mem_cons.mp ht with rfl | ht
      · cases hk
      · cases ht)))
  have h4 := LSteps.tail h3 (.commit (i := 1) (c := .key [1, 2]) rfl)
  have h5 := LSteps.tail h4 (.commit (i := 0) (c := .key [1]) rfl)
  have h6 := LSteps.tail h5 (.lock (i := 0) (c := .ctr .commandsSuccessful) rfl (no no0))
  have h7 := LSteps.tail h6 (.draft (i := 0) (c := .ctr .commandsSuccessful) (some 0) rfl)
  have h8 := LSteps.tail h7 (.lock (i := 1) (c := .ctr .commandsErrored) rfl (no (by
    intro t ht k hk
    rcases List.mem_cons.mp ht with rfl | ht
    · cases hk; decide
    · rcases List.mem_cons.mp ht with rfl | ht
      · cases hk
      · cases ht)))
  have h9 := LSteps.tail h8 (.commit (i := 1) (c := .ctr .commandsErrored) rfl)
  have h10 := LSteps.tail h9 (.commit (i := 0) (c := .ctr .commandsSuccessful) rfl)
  refine ⟨_, h10, ?_, by decide +kernel, by decide +kernel, by decide +kernel⟩
  intro t ht
  rcases List.mem_cons.mp ht with rfl | ht
  · exact ⟨_, rfl⟩
  · rcases List.mem_cons.mp ht with rfl | ht
    · exact ⟨_, rfl⟩
    · cases ht

/-! ## Further concrete cases -/

/-- Nobody has begun: the keys are what they are at some moment of some schedule. -/
example (rs : List (Request × Bytes)) (db : Db) : ∃ sched, ∀ c, (∀ t ∈ (waiting (sampleEnv .debug) rs db).threads, t.owns ≠ some c) →
    db.get c = ((Pool.start (sampleEnv .debug) rs db).exec sched).db.get c := by
  obtain ⟨sched, h, -⟩ := C106_moments (fun _ => 0) (sampleEnv .debug) rs db _ .refl
  exact ⟨sched, h⟩

/-- A thread of two that have only begun. -/
example : let p := waiting (sampleEnv .debug) [(call .increment none [[1]], []), (call .get none [[1, 2]], [])] (sampleDb [([1], .integer 5)])
    ∃ t, p.threads[1]? = some t ∧ ((∃ x, t = .ready (.done x)) ∨ Moves (fun _ => 0) p 1 ∨ ∃ c c' : Cell, ∃ (j : Nat) (t' : LThread Bytes),
      p.threads[j]? = some t' ∧ t'.holds = some c' ∧ 0 = 0) := by
  refine ⟨_, rfl, ?_⟩
  rcases C107_no_deadlock (fun _ => 0) (waiting (sampleEnv .debug) [(call .increment none [[1]], []), (call .get none [[1, 2]], [])]
    (sampleDb [([1], .integer 5)])) 1 _ rfl with h | h | ⟨c, c', _, _, j, t', _, h1, h2, -⟩
  · exact .inl h
  · exact .inr (.inl h)
  · exact .inr (.inr ⟨c, c', j, t', h1, h2, rfl⟩)

end Hop
