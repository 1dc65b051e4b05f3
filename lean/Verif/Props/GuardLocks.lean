import Verif.Model.GuardLocks
import Verif.Lemmas.Engine
import Verif.Lemmas.Fair
import Verif.Props.Guards

/-! # C171, C172: guards held by users of the library, with accesses that take time -/

namespace Hop
open Spec

/-- Threads that hold no guards yet. -/
def Spec.setOff (progs : List GProg) (db : Db) : GLPool := { threads := progs.map fun q => ⟨⟨[], q⟩, none⟩, db := db }

/-! ## What an access does -/

/-- An access under a lock. -/
theorem GThread.step_wants {t : GThread} {k : Bytes} {e : Bool} (h : t.prog.wants = some (k, e)) (o : Option Value) :
    ∃ t' v, (e = false → v = o) ∧ (t'.held = t.held ∨ t'.held = (k, e) :: t.held) ∧
      ∀ db : Db, db.keys k = o → t.step db = (t', db.setKey k v) := by
  obtain ⟨held, prog⟩ := t
  cases prog with
  | access k' e' upd next =>
    cases h
    cases e with
    | true => exact ⟨⟨held, next o⟩, upd o, by simp, .inl rfl, fun db hd => by simp [GThread.step, hd]⟩
    | false =>
      refine ⟨⟨held, next o⟩, o, by simp, .inl rfl, fun db hd => ?_⟩
      rw [← hd, Db.setKey_self]
      rfl
  | acquire k' e' next =>
    cases h
    cases o with
    | none =>
      refine ⟨⟨held, next none⟩, none, by simp, .inl rfl, fun db hd => ?_⟩
      rw [← hd, Db.setKey_self]
      simp [GThread.step, hd]
    | some v =>
      refine ⟨⟨(k, e) :: held, next (some v)⟩, some v, by simp, .inr rfl, fun db hd => ?_⟩
      rw [← hd, Db.setKey_self]
      simp [GThread.step, hd]
  | _ => simp [GProg.wants] at h

/-- A write through a guard. -/
theorem GThread.step_writes {t : GThread} {k : Bytes} (h : t.writes = some k) :
    (k, true) ∈ t.held ∧ ∃ t' v, t'.held = t.held ∧ ∀ db : Db, t.step db = (t', db.setKey k v) := by
  obtain ⟨held, prog⟩ := t
  cases prog with
  | write k' v next =>
    simp only [GThread.writes] at h
    by_cases hc : held.contains (k', true) = true
    · rw [if_pos hc, Option.some.injEq] at h
      subst h
      refine ⟨by simpa using hc, ⟨held, next⟩, some v, rfl, fun db => ?_⟩
      simp only [GThread.step, hc, if_true]
    · rw [if_neg hc] at h; cases h
  | _ => simp [GThread.writes] at h

theorem GThread.writes_wants {t : GThread} {k : Bytes} (h : t.writes = some k) : t.prog.wants = none := by
  obtain ⟨held, prog⟩ := t
  cases prog <;> simp [GThread.writes, GProg.wants] at *

/-- Both. -/
theorem GThread.step_engaged {t : GThread} {k : Bytes} {e : Bool}
    (h : t.prog.wants = some (k, e) ∨ (e = true ∧ t.writes = some k)) (o : Option Value) :
    ∃ t' v, (e = false → v = o) ∧ (t'.held = t.held ∨ t'.held = (k, e) :: t.held) ∧
      ∀ db : Db, db.keys k = o → t.step db = (t', db.setKey k v) := by
  rcases h with h | ⟨rfl, h⟩
  · exact GThread.step_wants h o
  · obtain ⟨-, t', v, hh, he⟩ := GThread.step_writes h
    exact ⟨t', v, by simp, .inl hh, fun db _ => he db⟩

/-- Other steps change no key, and depend on those of the thread's guards only. -/
theorem GThread.step_plain {t : GThread} (h : t.prog.wants = none) (h' : t.writes = none) (db : Db) :
    ∃ t' c, t'.held.Sublist t.held ∧ ∀ keys : Bytes → Option Value, (∀ g ∈ t.held, keys g.1 = db.keys g.1) →
      t.step { db with keys } = (t', { keys, ctrs := c }) := by
  obtain ⟨held, prog⟩ := t
  cases prog with
  | done => exact ⟨⟨[], .done⟩, db.ctrs, List.nil_sublist _, fun keys _ => rfl⟩
  | access k e upd next => simp [GProg.wants] at h
  | acquire k e next => simp [GProg.wants] at h
  | look k next =>
    refine ⟨⟨held, next (if held.any (·.1 == k) then db.keys k else none)⟩, db.ctrs, List.Sublist.refl _, fun keys hk => ?_⟩
    simp only [GThread.step]
    by_cases hc : held.any (·.1 == k) = true
    · rw [if_pos hc, if_pos hc]
      obtain ⟨⟨k', e⟩, he, hkk⟩ := List.any_eq_true.mp hc
      have : k' = k := by simpa using hkk
      subst this
      rw [hk _ he]
    · rw [if_neg hc, if_neg hc]
  | write k v next =>
    simp only [GThread.writes] at h'
    by_cases hc : held.contains (k, true) = true
    · rw [if_pos hc] at h'; cases h'
    · refine ⟨⟨held, next⟩, db.ctrs, List.Sublist.refl _, fun keys _ => ?_⟩
      simp only [GThread.step]
      rw [if_neg hc]
  | drop k next => exact ⟨⟨held.eraseP (·.1 == k), next⟩, db.ctrs, List.eraseP_sublist, fun keys _ => rfl⟩
  | count m upd next =>
    exact ⟨⟨held, next (db.ctrs m)⟩, fun m' => if m' = m then upd (db.ctrs m) else db.ctrs m', List.Sublist.refl _, fun keys _ => rfl⟩

/-! ## The execution whose accesses take no time -/

/-- What holds of a situation with accesses that take time and the corresponding one without. -/
structure Staged (shard : Bytes → Nat) (p : GLPool) (q : GPool) : Prop where
  threads : q.threads = p.threads.map (·.base)
  guarded : Guarded shard q
  ctrs : q.db.ctrs = p.db.ctrs
  found : ∀ (n : Nat) t k o, p.threads[n]? = some ⟨t, some (k, true, o)⟩ → q.db.keys k = o
  others : ∀ k, (∀ (n : Nat) t k' o, p.threads[n]? = some ⟨t, some (k', true, o)⟩ → k' ≠ k) → q.db.keys k = p.db.keys k
  busy : ∀ (n : Nat) t k e o, p.threads[n]? = some ⟨t, some (k, e, o)⟩ →
    (t.prog.wants = some (k, e) ∧ ∀ (j : Nat) u, p.threads[j]? = some u → ∀ g ∈ u.base.held, conflicts shard g (k, e) = false) ∨
    (e = true ∧ t.writes = some k)
  apart : ∀ (n j : Nat) t t' k k' e e' o o', n ≠ j → p.threads[n]? = some ⟨t, some (k, e, o)⟩ →
    p.threads[j]? = some ⟨t', some (k', e', o')⟩ → conflicts shard (k, e) (k', e') = false

variable {shard : Bytes → Nat} {p p' : GLPool} {q : GPool} {n : Nat} {t : GThread} {k : Bytes} {e : Bool} {o : Option Value}

theorem Staged.base (h : Staged shard p q) {u : GLThread} (hu : p.threads[n]? = some u) : q.threads[n]? = some u.base := by
  rw [h.threads, List.getElem?_map, hu]; rfl

theorem Staged.engaged (h : Staged shard p q) (ht : p.threads[n]? = some ⟨t, some (k, e, o)⟩) :
    t.prog.wants = some (k, e) ∨ (e = true ∧ t.writes = some k) := (h.busy n t k e o ht).imp_left And.left

/-- The guards of others do not interfere with an access. -/
theorem Staged.locked (h : Staged shard p q) (ht : p.threads[n]? = some ⟨t, some (k, e, o)⟩) {j : Nat} (hj : j ≠ n)
    {u : GLThread} (hu : p.threads[j]? = some u) : ∀ g ∈ u.base.held, conflicts shard g (k, e) = false := by
  intro g hg
  rcases h.busy n t k e o ht with ⟨-, h1⟩ | ⟨rfl, h1⟩
  · exact h1 j u hu g hg
  · exact h.guarded.apart j n _ _ hj (h.base hu) (h.base ht) g hg _ (GThread.step_writes h1).1

theorem conflicts_self (k : Bytes) (e : Bool) : conflicts shard (k, true) (k, e) = true := by simp [conflicts]

private theorem map_set_thread (l : List GLThread) (n : Nat) (t : GLThread) : (l.set n t).map (·.base) = (l.map (·.base)).set n t.base := by
  rw [List.map_set]

/-- Beginning an access. -/
theorem Staged.begin (h : Staged shard p q) (ht : p.threads[n]? = some ⟨t, none⟩)
    (hb : (t.prog.wants = some (k, e) ∧ ∀ (j : Nat) u, p.threads[j]? = some u → ∀ g ∈ u.locks, conflicts shard g (k, e) = false) ∨
      (e = true ∧ t.writes = some k)) :
    Staged shard { p with threads := p.threads.set n ⟨t, some (k, e, p.db.keys k)⟩ } q := by
  -- nobody else is in the middle of an access that interferes
  have hfree : ∀ (j : Nat) u k' e' o, p.threads[j]? = some ⟨u, some (k', e', o)⟩ → conflicts shard (k', e') (k, e) = false := by
    intro j u k' e' o hu
    rcases hb with ⟨-, h1⟩ | ⟨rfl, h1⟩
    · exact h1 j _ hu (k', e') (by simp [GLThread.locks])
    · have hj : n ≠ j := fun e => by subst e; rw [ht] at hu; cases hu
      rw [conflicts_comm]
      exact h.locked hu hj ht _ (GThread.step_writes h1).1
  have hself : q.db.keys k = p.db.keys k := h.others k fun j u k' o hu hk => by
    subst hk
    have := hfree j u _ _ _ hu
    rw [conflicts_self] at this
    cases this
  refine ⟨?_, h.guarded, h.ctrs, ?_, ?_, ?_, ?_⟩
  · rw [map_set_thread, h.threads]
    exact (set_same (by rw [List.getElem?_map, ht]; rfl)).symm
  · intro j u k' o hu
    rcases getElem?_set_cases hu with ⟨-, e⟩ | ⟨-, hu⟩
    · cases e; exact hself
    · exact h.found j u k' o hu
  · intro k' hk'
    refine h.others k' fun j u k'' o hu => ?_
    by_cases hj : n = j
    · subst hj; rw [ht] at hu; cases hu
    · exact hk' j u k'' o (by rw [List.getElem?_set_ne hj]; exact hu)
  · have hbase : ∀ (i : Nat) x, (p.threads.set n ⟨t, some (k, e, p.db.keys k)⟩)[i]? = some x →
        ∃ y, p.threads[i]? = some y ∧ y.base = x.base := by
      intro i x hx
      rcases getElem?_set_cases hx with ⟨rfl, rfl⟩ | ⟨-, hx⟩
      · exact ⟨_, ht, rfl⟩
      · exact ⟨x, hx, rfl⟩
    intro j u k' e' o hu
    rcases getElem?_set_cases hu with ⟨-, he⟩ | ⟨-, hu⟩
    · cases he
      rcases hb with ⟨h1, h2⟩ | h1
      · refine .inl ⟨h1, fun i x hx g hg => ?_⟩
        obtain ⟨y, hy, hyx⟩ := hbase i x hx
        exact h2 i y hy g (List.mem_append_right _ (hyx ▸ hg))
      · exact .inr h1
    · rcases h.busy j u k' e' o hu with ⟨h1, h2⟩ | h1
      · refine .inl ⟨h1, fun i x hx g hg => ?_⟩
        obtain ⟨y, hy, hyx⟩ := hbase i x hx
        exact h2 i y hy g (hyx ▸ hg)
      · exact .inr h1
  · intro i j u u' k1 k2 e1 e2 o1 o2 hij hu hu'
    rcases getElem?_set_cases hu with ⟨hi, he⟩ | ⟨hi, hu⟩
    · rcases getElem?_set_cases hu' with ⟨hj, -⟩ | ⟨-, hu'⟩
      · exact absurd (hi.trans hj.symm) hij
      · cases he
        rw [conflicts_comm]
        exact hfree j _ _ _ _ hu'
    · rcases getElem?_set_cases hu' with ⟨-, he⟩ | ⟨-, hu'⟩
      · cases he; exact hfree i _ _ _ _ hu
      · exact h.apart i j _ _ _ _ _ _ _ _ hij hu hu'

/-- The thread may take its step in the corresponding situation. -/
theorem Staged.stepAt (h : Staged shard p q) (ht : p.threads[n]? = some ⟨t, some (k, e, o)⟩) :
    q.stepAt shard n = { threads := q.threads.set n (t.step q.db).1, db := (t.step q.db).2 } := by
  refine GPool.stepAt_free (h.base ht) fun w hw => ?_
  rw [GPool.free_iff]
  intro j u hu g hg
  rw [h.threads, List.getElem?_map, Option.map_eq_some_iff] at hu
  obtain ⟨x, hx, rfl⟩ := hu
  rcases h.busy n t k e o ht with ⟨h1, h2⟩ | ⟨-, h1⟩
  · rw [h1] at hw; cases hw
    exact h2 j x hx g hg
  · rw [GThread.writes_wants h1] at hw; cases hw

/-- Ending an access that found `o'`. -/
theorem Staged.finish (h : Staged shard p q) (ht : p.threads[n]? = some ⟨t, some (k, e, o)⟩) (db : Db)
    (hk : db.keys k = q.db.keys k) (hne : ∀ i, i ≠ k → db.keys i = p.db.keys i) (hc : db.ctrs = p.db.ctrs) :
    Staged shard { threads := p.threads.set n ⟨(t.step db).1, none⟩, db := (t.step db).2 } (q.stepAt shard n) := by
  have hg' := h.guarded.step n
  rw [h.stepAt ht] at hg' ⊢
  obtain ⟨t', v, hv, hheld, he⟩ := GThread.step_engaged (h.engaged ht) (q.db.keys k)
  rw [he q.db rfl] at hg' ⊢
  rw [he db hk]
  have hheld' : ∀ g ∈ t'.held, g ∈ t.held ∨ g = (k, e) := by
    intro g hg
    rcases hheld with hh | hh
    · rw [hh] at hg; exact .inl hg
    · rw [hh, List.mem_cons] at hg; exact hg.symm
  refine ⟨?_, hg', h.ctrs.trans hc.symm, ?_, ?_, ?_, ?_⟩
  · rw [map_set_thread, h.threads]
  · intro j u k' o' hu
    rcases getElem?_set_cases hu with ⟨-, e⟩ | ⟨hj, hu⟩
    · cases e
    · have hkk : k' ≠ k := fun hkk => by
        have := h.apart j n _ _ _ _ _ _ _ _ hj hu ht
        rw [hkk, conflicts_self] at this
        cases this
      rw [Db.setKey_keys_ne _ _ hkk]
      exact h.found j u k' o' hu
  · intro k' hk'
    by_cases hkk : k' = k
    · subst hkk; rw [Db.setKey_keys_self, Db.setKey_keys_self]
    · rw [Db.setKey_keys_ne _ _ hkk, Db.setKey_keys_ne _ _ hkk, hne k' hkk]
      refine h.others k' fun j u k'' o' hu he => ?_
      by_cases hj : n = j
      · subst hj; rw [ht] at hu; cases hu; exact hkk he.symm
      · exact hk' j u k'' o' (by rw [List.getElem?_set_ne hj]; exact hu) he
  · intro j u k' e' o' hu
    rcases getElem?_set_cases hu with ⟨-, e⟩ | ⟨hj, hu⟩
    · cases e
    · have gu := hu
      rcases h.busy j u k' e' o' hu with ⟨h1, h2⟩ | h1
      · refine .inl ⟨h1, fun i x hx g hg => ?_⟩
        rcases getElem?_set_cases hx with ⟨rfl, rfl⟩ | ⟨-, hx⟩
        · rcases hheld' g hg with hg | rfl
          · exact h2 _ _ ht g hg
          · exact h.apart _ j _ _ _ _ _ _ _ _ (fun e => hj e.symm) ht gu
        · exact h2 i x hx g hg
      · exact .inr h1
  · intro i j u u' k1 k2 e1 e2 o1 o2 hij hu hu'
    rcases getElem?_set_cases hu with ⟨-, e⟩ | ⟨-, hu⟩
    · cases e
    · rcases getElem?_set_cases hu' with ⟨-, e⟩ | ⟨-, hu'⟩
      · cases e
      · exact h.apart i j _ _ _ _ _ _ _ _ hij hu hu'

/-- One step with accesses that take time is at most one without. -/
theorem Staged.step (h : Staged shard p q) (hs : GLStep shard p n p') : ∃ sched, Staged shard p' (q.exec shard sched) := by
  cases hs with
  | lock ht hw hf => exact ⟨[], h.begin ht (.inl ⟨hw, hf⟩)⟩
  | edit ht hw => exact ⟨[], h.begin ht (.inr ⟨rfl, hw⟩)⟩
  | @draft t k o v ht =>
    refine ⟨[], h.threads, h.guarded, h.ctrs, h.found, ?_, h.busy, h.apart⟩
    intro k' hk'
    have hne : k' ≠ k := (hk' n t k o ht).symm
    show q.db.keys k' = _
    rw [h.others k' hk', Db.setKey_keys_ne _ _ hne]
  | @commit t k o ht =>
    exact ⟨[n], h.finish ht (p.db.setKey k o) (by rw [Db.setKey_keys_self, h.found n t k o ht])
      (fun i hi => Db.setKey_keys_ne _ _ hi) rfl⟩
  | @release t k o ht =>
    refine ⟨[n], h.finish ht p.db (h.others k fun j u k' o' hu hk => ?_).symm (fun _ _ => rfl) rfl⟩
    subst hk
    have hj : j ≠ n := fun e => by subst e; rw [ht] at hu; cases hu
    have := h.apart j n _ _ _ _ _ _ _ _ hj hu ht
    rw [conflicts_self] at this
    cases this
  | @plain t ht hw hw' =>
    obtain ⟨t', c, hsub, he⟩ := GThread.step_plain hw hw' p.db
    have hheld : ∀ g ∈ t.held, q.db.keys g.1 = p.db.keys g.1 := by
      intro g hg
      refine h.others g.1 fun j u k' o hu hk => ?_
      subst hk
      have hj : n ≠ j := fun e => by subst e; rw [ht] at hu; cases hu
      have := h.locked hu hj ht g hg
      rw [conflicts_comm, conflicts_self] at this
      cases this
    have e1 := he p.db.keys (fun _ _ => rfl)
    have e2 := he q.db.keys hheld
    have hdb : ({ keys := q.db.keys, ctrs := p.db.ctrs } : Db) = q.db := by rw [← h.ctrs]
    rw [hdb] at e2
    rw [show ({ p.db with keys := p.db.keys } : Db) = p.db from rfl] at e1
    have hg' := h.guarded.step n
    have hstep : q.stepAt shard n = { threads := q.threads.set n (t.step q.db).1, db := (t.step q.db).2 } :=
      GPool.stepAt_free (h.base ht) fun w hw1 => by rw [hw] at hw1; cases hw1
    rw [hstep] at hg'
    refine ⟨[n], ?_⟩
    show Staged shard _ (q.stepAt shard n)
    rw [hstep, e1]
    rw [e2] at hg' ⊢
    refine ⟨?_, hg', rfl, ?_, ?_, ?_, ?_⟩
    · rw [map_set_thread, h.threads]
    · intro j u k' o' hu
      rcases getElem?_set_cases hu with ⟨-, e⟩ | ⟨hj, hu⟩
      · cases e
      · exact h.found j u k' o' hu
    · intro k' hk'
      refine h.others k' fun j u k'' o' hu => ?_
      by_cases hj : n = j
      · subst hj; rw [ht] at hu; cases hu
      · exact hk' j u k'' o' (by rw [List.getElem?_set_ne hj]; exact hu)
    · intro j u k' e' o' hu
      rcases getElem?_set_cases hu with ⟨-, e⟩ | ⟨hj, hu⟩
      · cases e
      · rcases h.busy j u k' e' o' hu with ⟨h1, h2⟩ | h1
        · refine .inl ⟨h1, fun i x hx g hg => ?_⟩
          rcases getElem?_set_cases hx with ⟨rfl, rfl⟩ | ⟨-, hx⟩
          · exact h2 _ _ ht g (hsub.subset hg)
          · exact h2 i x hx g hg
        · exact .inr h1
    · intro i j u u' k1 k2 e1 e2 o1 o2 hij hu hu'
      rcases getElem?_set_cases hu with ⟨-, e⟩ | ⟨-, hu⟩
      · cases e
      · rcases getElem?_set_cases hu' with ⟨-, e⟩ | ⟨-, hu'⟩
        · cases e
        · exact h.apart i j _ _ _ _ _ _ _ _ hij hu hu'

theorem Staged.steps (h : Staged shard p q) (hs : GLSteps shard p p') : ∃ sched, Staged shard p' (q.exec shard sched) := by
  induction hs with
  | refl => exact ⟨[], h⟩
  | tail _ hstep ih =>
    obtain ⟨s, hs⟩ := ih
    obtain ⟨s', hs'⟩ := hs.step hstep
    exact ⟨s ++ s', by rw [GPool.exec_append]; exact hs'⟩

theorem Staged.start (shard : Bytes → Nat) (progs : List GProg) (db : Db) : Staged shard (setOff progs db) (begun progs db) := by
  have hno : ∀ (n : Nat) t b, (setOff progs db).threads[n]? = some ⟨t, some b⟩ → False := by
    intro n t b h
    simp only [setOff, List.getElem?_map, Option.map_eq_some_iff] at h
    obtain ⟨x, -, e⟩ := h
    cases e
  refine ⟨?_, Guarded.begun shard progs db, rfl, ?_, ?_, ?_, ?_⟩
  · simp [setOff, begun]
  · intro n t k o h; exact (hno n t _ h).elim
  · intro k _; rfl
  · intro n t k e o h; exact (hno n t _ h).elim
  · intro n j t t' k k' e e' o o' _ h; exact (hno n t _ h).elim

/-- C171. Threads use the key space and keep guards. Their accesses take any time, in any order, and entries to which one has
exclusive access look like anything meanwhile. Then at every moment the threads are where they would be in an execution of the
same programs in which every access is made at one moment; the counters and all keys that nobody is just accessing exclusively
are as they are there, and the others are there as they were found. -/
theorem C171_moments (shard : Bytes → Nat) (progs : List GProg) (db : Db) (p : GLPool) (h : GLSteps shard (setOff progs db) p) :
    ∃ sched q, q = (begun progs db).exec shard sched ∧ q.threads = p.threads.map (·.base) ∧ q.db.ctrs = p.db.ctrs ∧
      (∀ k, (∀ t ∈ p.threads, ∀ k' o, t.busy = some (k', true, o) → k' ≠ k) → p.db.keys k = q.db.keys k) ∧
      ∀ t ∈ p.threads, ∀ k o, t.busy = some (k, true, o) → q.db.keys k = o := by
  obtain ⟨sched, hs⟩ := (Staged.start shard progs db).steps h
  refine ⟨sched, _, rfl, hs.threads, hs.ctrs, ?_, ?_⟩
  · intro k hk
    exact (hs.others k fun n t k' o ht => hk _ (List.mem_of_getElem? ht) k' o rfl).symm
  · intro t ht k o hb
    obtain ⟨n, hn⟩ := List.getElem?_of_mem ht
    obtain ⟨b, c⟩ := t
    dsimp only at hb
    subst hb
    exact hs.found n b k o hn

/-- C171: when nobody is in the middle of an access, the whole situation is one of an execution in which every access is made
at one moment. -/
theorem C171_one_step (shard : Bytes → Nat) (progs : List GProg) (db : Db) (p : GLPool) (h : GLSteps shard (setOff progs db) p)
    (hq : ∀ t ∈ p.threads, t.busy = none) :
    ∃ sched, (begun progs db).exec shard sched = ⟨p.threads.map (·.base), p.db⟩ := by
  obtain ⟨sched, q, e, h1, h2, h3, -⟩ := C171_moments shard progs db p h
  refine ⟨sched, ?_⟩
  rw [← e]
  have hs : q.db.keys = p.db.keys := by
    funext k
    exact (h3 k fun t ht k' o hb => by rw [hq t ht] at hb; cases hb).symm
  obtain ⟨th, ks, cs⟩ := q
  dsimp only at *
  subst h1 h2 hs
  rfl

/-- C171: while a thread keeps a guard, the entry is changed by nobody else: not even for a moment. -/
theorem C171_guarded (shard : Bytes → Nat) (progs : List GProg) (db : Db) (p p' : GLPool) (h : GLSteps shard (setOff progs db) p)
    (i j : Nat) (t : GLThread) (ht : p.threads[i]? = some t) (g : Bytes × Bool) (hg : g ∈ t.base.held)
    (hs : GLStep shard p j p') (hij : i ≠ j) : p'.db.keys g.1 = p.db.keys g.1 ∧ p'.threads[i]? = p.threads[i]? := by
  obtain ⟨sched, ha⟩ := (Staged.start shard progs db).steps h
  generalize (begun progs db).exec shard sched = q at ha
  have hoff : ∀ {u : GThread} {k : Bytes} {o : Option Value}, p.threads[j]? = some ⟨u, some (k, true, o)⟩ → g.1 ≠ k := by
    intro u k o hu hk
    have := ha.locked hu hij ht g hg
    rw [conflicts_comm, ← hk, conflicts_self (shard := shard) g.1 g.2] at this
    cases this
  have hset : ∀ x : GLThread, (p.threads.set j x)[i]? = p.threads[i]? := fun x => List.getElem?_set_ne (Ne.symm hij)
  cases hs with
  | lock hu hw hf => exact ⟨rfl, hset _⟩
  | edit hu hw => exact ⟨rfl, hset _⟩
  | draft v hu => exact ⟨Db.setKey_keys_ne _ _ (hoff hu), rfl⟩
  | @commit u k o hu =>
    refine ⟨?_, hset _⟩
    obtain ⟨t', v, -, -, he⟩ := GThread.step_engaged (ha.engaged hu) o
    show (u.step (p.db.setKey k o)).2.keys g.1 = _
    rw [he _ (Db.setKey_keys_self _ _ _), Db.setKey_keys_ne _ _ (hoff hu), Db.setKey_keys_ne _ _ (hoff hu)]
  | @release u k o hu =>
    refine ⟨?_, hset _⟩
    obtain ⟨t', v, hv, -, he⟩ := GThread.step_engaged (ha.engaged hu) (p.db.keys k)
    show (u.step p.db).2.keys g.1 = _
    rw [he _ rfl, hv rfl, Db.setKey_self]
  | @plain u hu hw hw' =>
    refine ⟨?_, hset _⟩
    obtain ⟨t', c, -, he⟩ := GThread.step_plain hw hw' p.db
    show (u.step p.db).2.keys g.1 = _
    rw [show u.step p.db = _ from he p.db.keys fun _ _ => rfl]

/-- The same situation, with nobody in the middle of an access. -/
def Spec.calm (q : GPool) : GLPool := { threads := q.threads.map fun t => ⟨t, none⟩, db := q.db }

theorem GLSteps.trans {p q r : GLPool} (h : GLSteps shard p q) (h' : GLSteps shard q r) : GLSteps shard p r := by
  induction h' with
  | refl => exact h
  | tail _ hs ih => exact .tail ih hs

theorem calm_step (shard : Bytes → Nat) (q : GPool) (n : Nat) : GLSteps shard (calm q) (calm (q.stepAt shard n)) := by
  rcases GPool.stepAt_cases shard q n with e | ⟨t, ht, hw, e⟩
  · rw [e]; exact .refl
  rw [e]
  have hlt := (List.getElem?_eq_some_iff.mp ht).1
  have hn : (calm q).threads[n]? = some ⟨t, none⟩ := by
    simp only [calm, List.getElem?_map, ht]; rfl
  have hset : ∀ t', (calm q).threads.set n ⟨t', none⟩ = (q.threads.set n t').map fun t => (⟨t, none⟩ : GLThread) := by
    intro t'; simp only [calm]; rw [List.map_set]
  -- an access: begin and end it
  have hbusy : ∀ k e, (t.prog.wants = some (k, e) ∨ (e = true ∧ t.writes = some k)) →
      GLSteps shard (calm q) (calm ⟨q.threads.set n (t.step q.db).1, (t.step q.db).2⟩) := by
    intro k e hk
    have h1 : GLStep shard (calm q) n { calm q with threads := (calm q).threads.set n ⟨t, some (k, e, (calm q).db.keys k)⟩ } := by
      rcases hk with hk | ⟨rfl, hk⟩
      · refine .lock hn hk fun j u hu g hg => ?_
        simp only [calm, List.getElem?_map, Option.map_eq_some_iff] at hu
        obtain ⟨x, hx, rfl⟩ := hu
        exact GPool.free_iff.mp (hw _ hk) j x hx g (by simpa [GLThread.locks] using hg)
      · exact .edit hn hk
    have hget : ((calm q).threads.set n ⟨t, some (k, e, (calm q).db.keys k)⟩)[n]? = some ⟨t, some (k, e, (calm q).db.keys k)⟩ :=
      List.getElem?_set_self (by simpa [calm] using hlt)
    refine .tail (.tail .refl h1) (n := n) ?_
    have hend : calm ⟨q.threads.set n (t.step q.db).1, (t.step q.db).2⟩ =
        { threads := ((calm q).threads.set n ⟨t, some (k, e, (calm q).db.keys k)⟩).set n ⟨(t.step q.db).1, none⟩, db := (t.step q.db).2 } := by
      rw [List.set_set, hset]; rfl
    rw [hend]
    cases e with
    | true =>
      have h2 := GLStep.commit (shard := shard) (n := n) (t := t) (k := k) (o := (calm q).db.keys k)
        (p := { calm q with threads := (calm q).threads.set n ⟨t, some (k, true, (calm q).db.keys k)⟩ }) hget
      dsimp only at h2
      rw [Db.setKey_self] at h2
      exact h2
    | false =>
      exact GLStep.release (shard := shard) (n := n) (t := t) (k := k) (o := (calm q).db.keys k)
        (p := { calm q with threads := (calm q).threads.set n ⟨t, some (k, false, (calm q).db.keys k)⟩ }) hget
  cases hw1 : t.prog.wants with
  | some w => exact hbusy w.1 w.2 (.inl hw1)
  | none =>
    cases hw2 : t.writes with
    | some k => exact hbusy k true (.inr ⟨rfl, hw2⟩)
    | none =>
      have h1 := GLStep.plain (shard := shard) hn hw1 hw2
      rw [hset] at h1
      exact .tail .refl h1

theorem calm_exec (shard : Bytes → Nat) (q : GPool) (sched : List Nat) : GLSteps shard (calm q) (calm (q.exec shard sched)) := by
  induction sched generalizing q with
  | nil => exact .refl
  | cons n ns ih => exact (calm_step shard q n).trans (ih _)

theorem calm_begun (progs : List GProg) (db : Db) : calm (begun progs db) = setOff progs db := by
  simp [calm, begun, setOff]

/-- C171: conversely, every execution in which every access is made at one moment is possible. -/
theorem C171_all_possible (shard : Bytes → Nat) (progs : List GProg) (db : Db) (sched : List Nat) :
    GLSteps shard (setOff progs db) (calm ((begun progs db).exec shard sched)) := by
  have := calm_exec shard (begun progs db) sched
  rwa [calm_begun] at this

/-! ## Who can go on -/

/-- Thread `n` can go on. -/
def Spec.MovesOn (shard : Bytes → Nat) (p : GLPool) (n : Nat) : Prop :=
  ∃ p', GLStep shard p n p' ∧ p'.threads[n]? ≠ p.threads[n]?

/-- C172: threads each of which needs a lock that a guard of one of them keeps from being taken stay where they are for ever. -/
theorem C172_deadlock (shard : Bytes → Nat) (progs : List GProg) (db : Db) (p p' : GLPool)
    (h : GLSteps shard (setOff progs db) p) (h' : GLSteps shard p p') (s : List Nat)
    (hs : Stalled shard ⟨p.threads.map (·.base), p.db⟩ s) :
    ∀ i ∈ s, ∃ t t', p.threads[i]? = some t ∧ p'.threads[i]? = some t' ∧ t'.base = t.base := by
  obtain ⟨sched, ha⟩ := (Staged.start shard progs db).steps h
  obtain ⟨more, hb⟩ := ha.steps h'
  have hs' : Stalled shard ((begun progs db).exec shard sched) s := by
    intro i hi
    obtain ⟨t, w, j, u, g, h1, h2, h3, h4, h5, h6⟩ := hs i hi
    exact ⟨t, w, j, u, g, by rw [ha.threads]; exact h1, h2, h3, by rw [ha.threads]; exact h4, h5, h6⟩
  intro i hi
  have e := C117_deadlock shard _ s hs' more i hi
  rw [hb.threads, ha.threads, List.getElem?_map, List.getElem?_map] at e
  obtain ⟨t, w, j, u, g, h1, -⟩ := hs i hi
  simp only [List.getElem?_map, Option.map_eq_some_iff] at h1
  obtain ⟨x, hx, rfl⟩ := h1
  rw [hx, Option.map_some, Option.map_eq_some_iff] at e
  obtain ⟨y, hy, e⟩ := e
  exact ⟨x, y, hx, hy, e⟩

/-- How a thread goes on. -/
inductive GLLater : GLThread → GLThread → Prop
  | onward {t t' b b'} : Later t' t → GLLater ⟨t', b'⟩ ⟨t, b⟩
  | begun {t b} : GLLater ⟨t, some b⟩ ⟨t, none⟩

theorem GLLater.acc (a : GLThread) : Acc GLLater a := by
  obtain ⟨t, b⟩ := a
  have ht : Acc Later t := Later.acc t.prog t.held
  induction ht generalizing b with
  | intro t _ ih =>
    have hsome : ∀ c, Acc GLLater ⟨t, some c⟩ := fun c => ⟨_, fun x hx => by
      cases hx with
      | onward h => exact ih _ h _⟩
    cases b with
    | some c => exact hsome c
    | none =>
      refine ⟨_, fun x hx => ?_⟩
      cases hx with
      | onward h => exact ih _ h _
      | begun => exact hsome _

theorem GThread.not_gone (h : t.prog.wants = some (k, e) ∨ (e = true ∧ t.writes = some k)) : ¬ Gone t := by
  rintro ⟨h1, -⟩
  obtain ⟨held, prog⟩ := t
  dsimp only at h1
  subst h1
  simp [GProg.wants, GThread.writes] at h

theorem GThread.step_gone (h : Gone t) (db : Db) : (t.step db).1 = t := by
  obtain ⟨held, prog⟩ := t
  obtain ⟨h1, h2⟩ := h
  dsimp only at h1 h2
  subst h1 h2
  rfl

theorem Later.ne {t t' : GThread} (h : Later t' t) : t' ≠ t := fun e => by
  subst e
  exact acc_irrefl (Later.acc t'.prog t'.held) h

theorem GLStep.later (ha : Staged shard p q) (h : GLStep shard p n p') : p'.threads = p.threads ∨ OneOf GLLater p'.threads p.threads := by
  cases h with
  | lock ht _ _ => exact .inr (OneOf.set ht .begun)
  | edit ht _ => exact .inr (OneOf.set ht .begun)
  | draft => exact .inl rfl
  | commit ht => exact .inr (OneOf.set ht (.onward (GThread.step_later _ (GThread.not_gone (ha.engaged ht)))))
  | release ht => exact .inr (OneOf.set ht (.onward (GThread.step_later _ (GThread.not_gone (ha.engaged ht)))))
  | @plain t ht _ _ =>
    by_cases hd : Gone t
    · left
      show p.threads.set n _ = _
      rw [GThread.step_gone hd]
      exact set_same ht
    · exact .inr (OneOf.set ht (.onward (GThread.step_later _ hd)))

/-- Whether a thread can go on depends on the threads only. -/
theorem movesOn_iff :
    MovesOn shard p n ↔ ∃ t, p.threads[n]? = some t ∧ (t.busy ≠ none ∨ (¬ Gone t.base ∧
      ∀ w, t.base.prog.wants = some w → ∀ (j : Nat) u, p.threads[j]? = some u → ∀ g ∈ u.locks, conflicts shard g w = false)) := by
  constructor
  · rintro ⟨p', hs, hne⟩
    cases hs with
    | @lock t k e ht hw hf =>
      exact ⟨_, ht, .inr ⟨GThread.not_gone (.inl hw), fun w hk => by rw [hw] at hk; cases hk; exact hf⟩⟩
    | @edit t k ht hw =>
      exact ⟨_, ht, .inr ⟨GThread.not_gone (.inr ⟨rfl, hw⟩), fun w hk => by rw [GThread.writes_wants hw] at hk; cases hk⟩⟩
    | draft => exact absurd rfl hne
    | commit ht => exact ⟨_, ht, .inl (by simp)⟩
    | release ht => exact ⟨_, ht, .inl (by simp)⟩
    | @plain t ht hw _ =>
      refine ⟨_, ht, .inr ⟨fun hd => hne ?_, fun k hk => by rw [hw] at hk; cases hk⟩⟩
      show (p.threads.set n _)[n]? = _
      rw [GThread.step_gone hd, set_same ht]
  · rintro ⟨⟨t, b⟩, ht, h⟩
    have hlt := (List.getElem?_eq_some_iff.mp ht).1
    have hself : ∀ x, (p.threads.set n x)[n]? = some x := fun x => List.getElem?_set_self hlt
    cases b with
    | some b =>
      obtain ⟨k, e, o⟩ := b
      cases e with
      | true => refine ⟨_, .commit ht, ?_⟩; rw [hself, ht]; simp
      | false => refine ⟨_, .release ht, ?_⟩; rw [hself, ht]; simp
    | none =>
      obtain ⟨hd, hf⟩ := h.resolve_left (by simp)
      dsimp only at hd hf
      cases hw : t.prog.wants with
      | some w =>
        refine ⟨_, .lock (k := w.1) (e := w.2) ht hw (hf w hw), ?_⟩
        rw [hself, ht]; simp
      | none =>
        cases hw' : t.writes with
        | some k =>
          refine ⟨_, .edit ht hw', ?_⟩
          rw [hself, ht]; simp
        | none =>
          refine ⟨_, .plain ht hw hw', ?_⟩
          rw [hself, ht]
          intro e
          simp only [Option.some.injEq, GLThread.mk.injEq, and_true] at e
          exact (GThread.step_later _ hd).ne e

/-- The thread has ended, holds no guard and is making no access. -/
def Spec.GoneHome (t : GLThread) : Prop := Gone t.base ∧ t.busy = none

/-- Some thread can go on, unless all have ended. -/
theorem Staged.able (ha : Staged shard p q) (ho : AllOrderly (ascending shard) q) (hne : ¬ ∀ t ∈ p.threads, GoneHome t) :
    ∃ n, MovesOn shard p n := by
  by_cases hb : ∃ (n : Nat) (t : GLThread), p.threads[n]? = some t ∧ t.busy ≠ none
  · obtain ⟨n, t, ht, hb⟩ := hb
    exact ⟨n, movesOn_iff.mpr ⟨t, ht, .inl hb⟩⟩
  · have hnone : ∀ (n : Nat) t, p.threads[n]? = some t → t.busy = none := fun n t ht =>
      Classical.byContradiction fun h => hb ⟨n, t, ht, h⟩
    have hne' : ¬ ∀ t ∈ q.threads, Gone t := by
      intro h
      apply hne
      intro t ht
      obtain ⟨n, hn⟩ := List.getElem?_of_mem ht
      refine ⟨h t.base ?_, hnone n t hn⟩
      rw [ha.threads]
      exact List.mem_map_of_mem ht
    obtain ⟨t, ht, hd, hw⟩ := ho.able hne'
    rw [ha.threads, List.mem_map] at ht
    obtain ⟨x, hx, rfl⟩ := ht
    obtain ⟨n, hn⟩ := List.getElem?_of_mem hx
    refine ⟨n, movesOn_iff.mpr ⟨x, hn, .inr ⟨hd, fun w hk j u hu g hg => ?_⟩⟩⟩
    rw [GLThread.locks, hnone j u hu] at hg
    exact GPool.free_iff.mp (hw w hk) j u.base (ha.base hu) g (by simpa using hg)

theorem Staged.orderly {progs : List GProg} (hq : ∀ q ∈ progs, Orderly (ascending shard) [] q) {db : Db}
    (h : GLSteps shard (setOff progs db) p) : ∃ q, Staged shard p q ∧ AllOrderly (ascending shard) q := by
  obtain ⟨sched, ha⟩ := (Staged.start shard progs db).steps h
  refine ⟨_, ha, AllOrderly.exec ?_ sched⟩
  intro i t ht
  simp only [begun, List.getElem?_map, Option.map_eq_some_iff] at ht
  obtain ⟨q, hqm, rfl⟩ := ht
  exact hq q (List.mem_of_getElem? hqm)

/-- C172: if every thread asks for locks in increasing order only, then from every situation all can come to their end. -/
theorem C172_can_finish (shard : Bytes → Nat) (progs : List GProg) (hq : ∀ q ∈ progs, Orderly (ascending shard) [] q)
    (db : Db) (p : GLPool) (h : GLSteps shard (setOff progs db) p) :
    ∃ p', GLSteps shard p p' ∧ ∀ t ∈ p'.threads, GoneHome t := by
  have main : ∀ l, Acc (OneOf GLLater) l → ∀ p, p.threads = l → GLSteps shard (setOff progs db) p →
      ∃ p', GLSteps shard p p' ∧ ∀ t ∈ p'.threads, GoneHome t := by
    intro l hl
    induction hl with
    | intro l _ ih =>
      intro p hp h
      by_cases hne : ∀ t ∈ p.threads, GoneHome t
      · exact ⟨p, .refl, hne⟩
      · obtain ⟨q, ha, hc⟩ := Staged.orderly hq h
        obtain ⟨n, p1, hs, hch⟩ := ha.able hc hne
        rcases hs.later ha with e | e
        · exact absurd (by rw [e]) hch
        · obtain ⟨p', h1, h2⟩ := ih _ (hp ▸ e) p1 rfl (.tail h hs)
          exact ⟨p', (GLSteps.tail .refl hs).trans h1, h2⟩
  exact main _ (OneOf.acc GLLater.acc _) p rfl h

/-- An infinite execution in which no thread that can go on is passed over for ever. -/
structure Spec.GuardedRun (shard : Bytes → Nat) (progs : List GProg) (db : Db) (run : Nat → GLPool) : Prop where
  start : run 0 = setOff progs db
  steps : ∀ k, run (k + 1) = run k ∨ ∃ n, GLStep shard (run k) n (run (k + 1))
  fair : ∀ (n k : Nat), ∃ k', k ≤ k' ∧ (¬ MovesOn shard (run k') n ∨ (run (k' + 1)).threads[n]? ≠ (run k').threads[n]?)

/-- C172: and they do come to their end, if no thread that can go on is passed over for ever. -/
theorem C172_all_finish (shard : Bytes → Nat) (progs : List GProg) (hq : ∀ q ∈ progs, Orderly (ascending shard) [] q)
    (db : Db) (run : Nat → GLPool) (h : GuardedRun shard progs db run) :
    ∃ N, ∀ k, N ≤ k → ∀ t ∈ (run k).threads, GoneHome t := by
  have hreach : ∀ k, GLSteps shard (setOff progs db) (run k) := by
    intro k
    induction k with
    | zero => rw [h.start]; exact .refl
    | succ k ih =>
      rcases h.steps k with e | ⟨n, e⟩
      · rw [e]; exact ih
      · exact .tail ih e
  obtain ⟨N, hN⟩ := settles (r := OneOf GLLater) (fun k => (run k).threads) (OneOf.acc GLLater.acc _) (by
    intro k
    rcases h.steps k with e | ⟨n, e⟩
    · left; show (run (k + 1)).threads = _; rw [e]
    · obtain ⟨q, ha, -⟩ := Staged.orderly hq (hreach k)
      exact e.later ha)
  refine ⟨N, fun k hk => Classical.byContradiction fun hne => ?_⟩
  obtain ⟨q, ha, hc⟩ := Staged.orderly hq (hreach k)
  obtain ⟨n, hn⟩ := ha.able hc hne
  obtain ⟨k', hk', h2⟩ := h.fair n N
  have hth : (run k').threads = (run k).threads := (hN k' hk').trans (hN k hk).symm
  rcases h2 with h2 | h2
  · obtain ⟨q', ha', -⟩ := Staged.orderly hq (hreach k')
    refine h2 (movesOn_iff.mpr ?_)
    rw [hth]
    exact movesOn_iff.mp hn
  · exact h2 (by rw [show (run (k' + 1)).threads = _ from hN (k' + 1) (by omega), show (run k').threads = _ from hN k' hk'])

/-! ## Concrete cases -/

/-- A thread that keeps an exclusive guard of one key and writes through it, and one that replaces another key. -/
private def editors : List GProg :=
  [.keyMut (sampleEnv .debug) [1] fun _ => .write [1] (.integer 9) (.drop [1] .done), .insert [1, 2] (.integer 6) fun _ => .done]

/-- Beside C171: both are in the middle of a change, and the key of the first, of which it has a guard, looks like it never
does between accesses. -/
example : ∃ p, GLSteps List.length (setOff editors (sampleDb [([1], .integer 5)])) p ∧
    p.threads.map (·.busy) = [some ([1], true, some (.integer 5)), some ([1, 2], true, none)] ∧
    p.threads.map (·.base.held) = [[([1], true)], []] ∧ p.db.keys [1] = none := by
  have h0 := C171_all_possible List.length editors (sampleDb [([1], .integer 5)]) [0]
  refine ⟨_, .tail (.tail (.tail h0 (.edit (n := 0) (t := ⟨[([1], true)], .write [1] (.integer 9) (.drop [1] .done)⟩) (k := [1]) rfl
    (by decide))) (.draft (n := 0) (t := ⟨[([1], true)], .write [1] (.integer 9) (.drop [1] .done)⟩) (k := [1])
      (o := some (.integer 5)) none rfl)) (.lock (n := 1) (t := ⟨[], .insert [1, 2] (.integer 6) fun _ => .done⟩) (k := [1, 2])
      (e := true) rfl rfl ?_), rfl, rfl, rfl⟩
  intro j u hu g hg
  match j with
  | 0 =>
    cases hu
    have : g = ([1], true) := by simpa [GLThread.locks, GThread.step, begun, calm, GPool.exec] using hg
    subst this
    decide
  | 1 => cases hu; simp [GLThread.locks] at hg
  | j + 2 => cases hu

/-- Beside C172_deadlock: each of two threads has a guard and asks for one of the other's key. -/
example : ∃ p, GLSteps List.length (setOff [nested [1] [1, 2], nested [1, 2] [1]] (sampleDb [([1], .integer 5), ([1, 2], .boolean true)])) p ∧
    Stalled List.length ⟨p.threads.map (·.base), p.db⟩ [0, 1] := by
  refine ⟨_, C171_all_possible List.length _ _ [0, 1], ?_⟩
  intro j hj
  simp only [List.mem_cons, List.not_mem_nil, or_false] at hj
  rcases hj with rfl | rfl
  · exact ⟨_, ([1, 2], true), 1, _, ([1, 2], true), rfl, rfl, by simp, rfl, by decide, rfl, .inl rfl⟩
  · exact ⟨_, ([1], true), 0, _, ([1], true), rfl, rfl, by simp, rfl, by decide, rfl, .inl rfl⟩

/-- A thread alone that replaces a key. -/
private def replacing : Nat → GLPool
  | 0 => setOff [.insert [1] (.integer 6) fun _ => .done] Db.empty
  | 1 => { threads := [⟨⟨[], .insert [1] (.integer 6) fun _ => .done⟩, some ([1], true, none)⟩], db := Db.empty }
  | _ + 2 => { threads := [⟨⟨[], .done⟩, none⟩], db := (Db.empty.setKey [1] none).setKey [1] (some (.integer 6)) }

/-- Beside C172_all_finish: a fair execution of a program that asks for locks in order. -/
example : GuardedRun List.length [.insert [1] (.integer 6) fun _ => .done] Db.empty replacing ∧
    ∀ q ∈ [GProg.insert [1] (.integer 6) fun _ => .done], Orderly (ascending List.length) [] q := by
  refine ⟨⟨rfl, ?_, ?_⟩, ?_⟩
  · intro k
    match k with
    | 0 =>
      refine .inr ⟨0, .lock (t := ⟨[], .insert [1] (.integer 6) fun _ => .done⟩) (k := [1]) (e := true) rfl rfl ?_⟩
      intro j u hu g hg
      match j with
      | 0 => cases hu; simp [GLThread.locks] at hg
      | j + 1 => cases hu
    | 1 => exact .inr ⟨0, GLStep.commit (shard := List.length) (p := replacing 1) (n := 0) (t := ⟨[], .insert [1] (.integer 6) fun _ => .done⟩) (k := [1]) (o := none) rfl⟩
    | k + 2 => exact .inl rfl
  · intro n k
    refine ⟨k + 2, by omega, .inl ?_⟩
    rintro ⟨p', hs, hne⟩
    have hone : ∀ t, (replacing (k + 2)).threads[n]? = some t → n = 0 ∧ t = ⟨⟨[], .done⟩, none⟩ := by
      intro t ht
      match n with
      | 0 => cases ht; exact ⟨rfl, rfl⟩
      | n + 1 => cases ht
    cases hs with
    | lock ht hw _ => cases (hone _ ht).2; cases hw
    | edit ht hw => cases (hone _ ht).2; cases hw
    | draft => exact hne rfl
    | commit ht => cases (hone _ ht).2
    | release ht => cases (hone _ ht).2
    | plain ht _ _ =>
      obtain ⟨rfl, e⟩ := hone _ ht
      cases e
      exact hne rfl
  · intro q hq
    simp only [List.mem_singleton] at hq
    subst hq
    exact ⟨(by intro h hh; cases hh), fun _ => trivial⟩

end Hop
