import Verif.Model.Guards
import Verif.Props.Locks

/-! # C117: guards held by users of the library -/

namespace Hop

open Spec

/-- Threads that hold no guards yet. -/
def Spec.begun (progs : List GProg) (db : Db) : GPool := { threads := progs.map fun q => { held := [], prog := q }, db := db }

theorem conflicts_comm (shard : Bytes → Nat) (g h : Bytes × Bool) : conflicts shard g h = conflicts shard h g := by
  unfold conflicts
  rw [Bool.or_comm, Bool.beq_comm]

/-- What holds of the guards at every moment. -/
structure Guarded (shard : Bytes → Nat) (p : GPool) : Prop where
  apart : ∀ (i j : Nat) t u, i ≠ j → p.threads[i]? = some t → p.threads[j]? = some u → ∀ g ∈ t.held, ∀ h ∈ u.held,
    conflicts shard g h = false
  own : ∀ (i : Nat) t, p.threads[i]? = some t → t.held.Pairwise fun g h => conflicts shard g h = false
  present : ∀ (i : Nat) t, p.threads[i]? = some t → ∀ g ∈ t.held, (p.db.keys g.1).isSome

theorem GPool.free_iff {shard : Bytes → Nat} {p : GPool} {w : Bytes × Bool} :
    p.free shard w = true ↔ ∀ (i : Nat) t, p.threads[i]? = some t → ∀ g ∈ t.held, conflicts shard g w = false := by
  simp only [GPool.free, List.all_eq_true, Bool.not_eq_true']
  constructor
  · intro h i t ht
    exact h t (List.mem_of_getElem? ht)
  · intro h t ht
    obtain ⟨i, hi⟩ := List.getElem?_of_mem ht
    exact h i t hi

/-- Thread `i` takes the step `t'`. -/
theorem GPool.stepAt_cases (shard : Bytes → Nat) (p : GPool) (i : Nat) :
    p.stepAt shard i = p ∨ ∃ t, p.threads[i]? = some t ∧ (∀ w, t.prog.wants = some w → p.free shard w = true) ∧
      p.stepAt shard i = { threads := p.threads.set i (t.step p.db).1, db := (t.step p.db).2 } := by
  unfold GPool.stepAt
  cases h : p.threads[i]? with
  | none => exact .inl rfl
  | some t =>
    dsimp only
    by_cases hw : (t.prog.wants.map (p.free shard)).getD true = true
    · rw [if_pos hw]
      refine .inr ⟨t, rfl, ?_, rfl⟩
      intro w hw'
      rw [hw'] at hw
      exact hw
    · rw [if_neg hw]; exact .inl rfl

theorem GPool.stepAt_free {shard : Bytes → Nat} {p : GPool} {i : Nat} {t : GThread} (hi : p.threads[i]? = some t)
    (hw : ∀ w, t.prog.wants = some w → p.free shard w = true) :
    p.stepAt shard i = { threads := p.threads.set i (t.step p.db).1, db := (t.step p.db).2 } := by
  unfold GPool.stepAt
  rw [hi]
  dsimp only
  rw [if_pos]
  cases hwt : t.prog.wants with
  | none => rfl
  | some w => exact hw w hwt

/-- The guards of a thread after its step: some of those it had, and possibly the one it asked for. -/
theorem GThread.step_held (t : GThread) (db : Db) : (t.step db).1.held.Sublist t.held ∨
    ∃ w v, t.prog.wants = some w ∧ db.keys w.1 = some v ∧ (t.step db).1.held = w :: t.held ∧ (t.step db).2 = db := by
  unfold GThread.step
  split
  · exact .inl (List.nil_sublist _)
  · exact .inl (List.Sublist.refl _)
  · rename_i k e next hp
    cases hk : db.keys k with
    | none => exact .inl (List.Sublist.refl _)
    | some v => exact .inr ⟨(k, e), v, by rw [hp]; rfl, hk, rfl, rfl⟩
  · exact .inl (List.Sublist.refl _)
  · exact .inl (List.Sublist.refl _)
  · exact .inl List.eraseP_sublist
  · exact .inl (List.Sublist.refl _)

/-- A step changes no entry, or that of the key it has exclusive access to, or the one it holds an exclusive guard
of, which it leaves present. -/
theorem GThread.step_keys (t : GThread) (db : Db) (k : Bytes) : (t.step db).2.keys k = db.keys k ∨
    t.prog.wants = some (k, true) ∨ ((k, true) ∈ t.held ∧ ((t.step db).2.keys k).isSome) := by
  unfold GThread.step
  split
  · exact .inl rfl
  · rename_i k' e upd next hp
    cases e with
    | false => exact .inl rfl
    | true =>
      by_cases hk : k = k'
      · subst hk; exact .inr (.inl (by rw [hp]; rfl))
      · left; simp [Db.setKey, hk]
  · split <;> exact .inl rfl
  · exact .inl rfl
  · rename_i k' v next hp
    by_cases hc : t.held.contains (k', true) = true
    · by_cases hk : k = k'
      · subst hk
        right; right
        refine ⟨by simpa using hc, ?_⟩
        simp only [if_pos hc, Db.setKey, if_true, Option.isSome_some]
      · left; simp only [if_pos hc, Db.setKey, if_neg hk]
    · left; simp only [if_neg hc]
  · exact .inl rfl
  · exact .inl rfl

theorem Guarded.step {shard : Bytes → Nat} {p : GPool} (h : Guarded shard p) (i : Nat) : Guarded shard (p.stepAt shard i) := by
  rcases GPool.stepAt_cases shard p i with e | ⟨t, ht, hw, e⟩
  · rw [e]; exact h
  rw [e]
  -- every guard of the new thread is an old one or free
  have hnew : ∀ g ∈ (t.step p.db).1.held, g ∈ t.held ∨ (p.free shard g = true ∧ (p.db.keys g.1).isSome ∧ (t.step p.db).2 = p.db) := by
    intro g hg
    rcases t.step_held p.db with hs | ⟨w, v, h1, h2, h3, h4⟩
    · exact .inl (hs.subset hg)
    · rw [h3, List.mem_cons] at hg
      rcases hg with rfl | hg
      · exact .inr ⟨hw _ h1, by rw [h2]; rfl, h4⟩
      · exact .inl hg
  have hpres : ∀ (j : Nat) u, p.threads[j]? = some u → ∀ g ∈ u.held, ((t.step p.db).2.keys g.1).isSome := by
    intro j u hu g hg
    rcases t.step_keys p.db g.1 with h1 | h1 | ⟨h1, h2⟩
    · rw [h1]; exact h.present j u hu g hg
    · have := (GPool.free_iff.mp (hw _ h1)) j u hu g hg
      simp [conflicts] at this
    · exact h2
  refine ⟨?_, ?_, ?_⟩
  · intro a b x y hab hx hy g hg g' hg'
    rcases getElem?_set_cases hx with ⟨ha, hxt⟩ | ⟨ha, hx'⟩
    · rcases getElem?_set_cases hy with ⟨hb, -⟩ | ⟨hb, hy'⟩
      · exact absurd (ha.trans hb.symm) hab
      · subst hxt
        rcases hnew g hg with h1 | ⟨h1, -, -⟩
        · exact h.apart i b t y (fun e => hb e.symm) ht hy' g h1 g' hg'
        · rw [conflicts_comm]; exact GPool.free_iff.mp h1 b y hy' g' hg'
    · rcases getElem?_set_cases hy with ⟨hb, hyt⟩ | ⟨hb, hy'⟩
      · subst hyt
        rcases hnew g' hg' with h1 | ⟨h1, -, -⟩
        · exact h.apart a i x t ha hx' ht g hg g' h1
        · exact GPool.free_iff.mp h1 a x hx' g hg
      · exact h.apart a b x y hab hx' hy' g hg g' hg'
  · intro a x hx
    rcases getElem?_set_cases hx with ⟨rfl, rfl⟩ | ⟨ha, hx⟩
    · rcases t.step_held p.db with hs | ⟨w, v, h1, h2, h3, h4⟩
      · exact (h.own _ t ht).sublist hs
      · rw [h3]
        refine List.Pairwise.cons ?_ (h.own _ t ht)
        intro g hg
        rw [conflicts_comm]
        exact GPool.free_iff.mp (hw _ h1) _ t ht g hg
    · exact h.own a x hx
  · intro a x hx g hg
    rcases getElem?_set_cases hx with ⟨rfl, rfl⟩ | ⟨ha, hx⟩
    · rcases hnew g hg with h1 | ⟨-, h1, h2⟩
      · exact hpres _ t ht g h1
      · simp only [h2]; exact h1
    · exact hpres a x hx g hg

theorem Guarded.exec {shard : Bytes → Nat} {p : GPool} (h : Guarded shard p) (sched : List Nat) :
    Guarded shard (p.exec shard sched) := by
  induction sched generalizing p with
  | nil => exact h
  | cons i is ih => exact ih (h.step i)

theorem Guarded.begun (shard : Bytes → Nat) (progs : List GProg) (db : Db) : Guarded shard (begun progs db) := by
  have none_held : ∀ (i : Nat) t, (Spec.begun progs db).threads[i]? = some t → t.held = [] := by
    intro i t ht
    simp only [Spec.begun, List.getElem?_map, Option.map_eq_some_iff] at ht
    obtain ⟨q, -, rfl⟩ := ht
    rfl
  refine ⟨?_, ?_, ?_⟩
  · intro i j t u _ ht _ g hg
    rw [none_held i t ht] at hg; cases hg
  · intro i t ht
    rw [none_held i t ht]; exact .nil
  · intro i t ht g hg
    rw [none_held i t ht] at hg; cases hg

theorem GPool.exec_append (shard : Bytes → Nat) (p : GPool) (s s' : List Nat) :
    p.exec shard (s ++ s') = (p.exec shard s).exec shard s' := by
  induction s generalizing p with
  | nil => rfl
  | cons i is ih => exact ih _

theorem GPool.stepAt_other {shard : Bytes → Nat} {p : GPool} {i j : Nat} (h : i ≠ j) :
    (p.stepAt shard i).threads[j]? = p.threads[j]? := by
  rcases GPool.stepAt_cases shard p i with e | ⟨t, -, -, e⟩
  · rw [e]
  · rw [e]; exact List.getElem?_set_ne h

/-! ## What a guard protects -/

/-- C117. At every moment, whatever any number of threads do: of two guards for keys that share a lock, held by two
threads, neither is exclusive; nor is any of two such guards of the same thread; and the keys of all guards exist. -/
theorem C117_guards (shard : Bytes → Nat) (progs : List GProg) (db : Db) (sched : List Nat) (i : Nat) (t : GThread)
    (ht : ((begun progs db).exec shard sched).threads[i]? = some t) :
    (∀ (j : Nat) u, i ≠ j → ((begun progs db).exec shard sched).threads[j]? = some u → ∀ g ∈ t.held, ∀ h ∈ u.held,
      shard g.1 = shard h.1 → g.2 = false ∧ h.2 = false) ∧
    (∀ (a b : Nat) g h, a ≠ b → t.held[a]? = some g → t.held[b]? = some h → shard g.1 = shard h.1 → g.2 = false ∧ h.2 = false) ∧
    ∀ g ∈ t.held, (((begun progs db).exec shard sched).db.keys g.1).isSome := by
  have hg := (Guarded.begun shard progs db).exec sched
  have hc : ∀ {g h : Bytes × Bool}, conflicts shard g h = false → shard g.1 = shard h.1 → g.2 = false ∧ h.2 = false := by
    intro g h hn he
    simpa [conflicts, he] using hn
  refine ⟨?_, ?_, hg.present i t ht⟩
  · intro j u hij hu g hgm h hhm he
    exact hc (hg.apart i j t u hij ht hu g hgm h hhm) he
  · intro a b g h hab ha hb he
    have hp := hg.own i t ht
    rw [List.pairwise_iff_getElem] at hp
    obtain ⟨ha1, rfl⟩ := List.getElem?_eq_some_iff.mp ha
    obtain ⟨hb1, rfl⟩ := List.getElem?_eq_some_iff.mp hb
    rcases Nat.lt_or_gt_of_ne hab with hl | hl
    · exact hc (hp a b ha1 hb1 hl) he
    · exact (hc (hp b a hb1 ha1 hl) he.symm).symm

theorem Guarded.keeps {shard : Bytes → Nat} {p : GPool} (h : Guarded shard p) {i j : Nat} (hij : i ≠ j) {t : GThread}
    (ht : p.threads[i]? = some t) {g : Bytes × Bool} (hg : g ∈ t.held) : (p.stepAt shard j).db.keys g.1 = p.db.keys g.1 := by
  rcases GPool.stepAt_cases shard p j with e | ⟨u, hu, hw, e⟩
  · rw [e]
  · rw [e]
    rcases u.step_keys p.db g.1 with h1 | h1 | ⟨h1, -⟩
    · exact h1
    · have := GPool.free_iff.mp (hw _ h1) i t ht g hg
      simp [conflicts] at this
    · have := h.apart i j t u hij ht hu g hg _ h1
      simp [conflicts] at this

/-- C117. While a thread holds a guard of a key, shared or exclusive, nothing the other threads do, in any order,
changes the entry of the key. -/
theorem C117_protects (shard : Bytes → Nat) (progs : List GProg) (db : Db) (before after : List Nat) (i : Nat) (t : GThread)
    (ht : ((begun progs db).exec shard before).threads[i]? = some t) (g : Bytes × Bool) (hg : g ∈ t.held) (hi : i ∉ after) :
    ((begun progs db).exec shard (before ++ after)).db.keys g.1 = ((begun progs db).exec shard before).db.keys g.1 ∧
    ((begun progs db).exec shard (before ++ after)).threads[i]? = some t := by
  rw [GPool.exec_append]
  have hp := (Guarded.begun shard progs db).exec before
  generalize (begun progs db).exec shard before = p at *
  induction after generalizing p with
  | nil => exact ⟨rfl, ht⟩
  | cons j js ih =>
    simp only [List.mem_cons, not_or] at hi
    have hj : i ≠ j := hi.1
    obtain ⟨h1, h2⟩ := ih hi.2 (p.stepAt shard j) (by rw [GPool.stepAt_other (Ne.symm hj)]; exact ht) (hp.step j)
    exact ⟨h1.trans (hp.keeps hj ht hg), h2⟩

/-- C117. The holder of a shared guard cannot change the entry either. -/
theorem C117_shared (shard : Bytes → Nat) (progs : List GProg) (db : Db) (before : List Nat) (i : Nat) (t : GThread)
    (ht : ((begun progs db).exec shard before).threads[i]? = some t) (k : Bytes) (hg : (k, false) ∈ t.held) (j : Nat) :
    ((begun progs db).exec shard (before ++ [j])).db.keys k = ((begun progs db).exec shard before).db.keys k := by
  rw [GPool.exec_append]
  have hp := (Guarded.begun shard progs db).exec before
  have h2 := (C117_guards shard progs db before i t ht).2.1
  generalize (begun progs db).exec shard before = p at *
  by_cases hij : i = j
  · subst hij
    show (p.stepAt shard i).db.keys k = p.db.keys k
    rcases GPool.stepAt_cases shard p i with e | ⟨u, hu, hw, e⟩
    · rw [e]
    · rw [e]
      rw [ht] at hu; cases hu
      rcases t.step_keys p.db k with h1 | h1 | ⟨h1, -⟩
      · exact h1
      · have := GPool.free_iff.mp (hw _ h1) i t ht _ hg
        simp [conflicts] at this
      · obtain ⟨a, ha⟩ := List.getElem?_of_mem hg
        obtain ⟨b, hb⟩ := List.getElem?_of_mem h1
        have hab : a ≠ b := by
          rintro rfl
          rw [ha] at hb; simp at hb
        have := (h2 a b _ _ hab ha hb rfl).2
        cases this
  · exact hp.keeps hij ht hg

/-- C117. A thread reads through a guard what is stored, and nothing without one. -/
theorem C117_reads (shard : Bytes → Nat) (progs : List GProg) (db : Db) (before : List Nat) (i : Nat) (held : List (Bytes × Bool))
    (k : Bytes) (next : Option Value → GProg) (ht : ((begun progs db).exec shard before).threads[i]? = some ⟨held, .look k next⟩) :
    ∃ o, ((begun progs db).exec shard (before ++ [i])).threads[i]? = some ⟨held, next o⟩ ∧
      (∀ e, (k, e) ∈ held → o = ((begun progs db).exec shard before).db.keys k ∧ o.isSome) ∧
      ((∀ e, (k, e) ∉ held) → o = none) := by
  have hpres := (C117_guards shard progs db before i _ ht).2.2
  rw [GPool.exec_append]
  generalize (begun progs db).exec shard before = p at *
  have hlt := (List.getElem?_eq_some_iff.mp ht).1
  refine ⟨if held.any (·.1 == k) then p.db.keys k else none, ?_, fun e he => ?_, fun hn => ?_⟩
  · show (p.stepAt shard i).threads[i]? = _
    simp only [GPool.stepAt, ht, GProg.wants, Option.map_none, Option.getD_none, if_true, GThread.step]
    rw [List.getElem?_set_self hlt]
  · have h1 : held.any (·.1 == k) = true := List.any_eq_true.mpr ⟨_, he, by simp⟩
    rw [if_pos h1]
    exact ⟨rfl, hpres _ he⟩
  · rw [if_neg]
    intro h1
    obtain ⟨⟨k', e⟩, he, hk⟩ := List.any_eq_true.mp h1
    have : k' = k := by simpa using hk
    subst this
    exact hn e he

/-- C117. What a thread writes through an exclusive guard it reads back, whatever others do in between. -/
theorem C117_written (shard : Bytes → Nat) (progs : List GProg) (db : Db) (before between : List Nat) (i : Nat)
    (held : List (Bytes × Bool)) (k : Bytes) (v : Value) (next : Option Value → GProg)
    (ht : ((begun progs db).exec shard before).threads[i]? = some ⟨held, .write k v (.look k next)⟩) (hk : (k, true) ∈ held)
    (hi : i ∉ between) :
    ((begun progs db).exec shard (before ++ [i] ++ between ++ [i])).threads[i]? = some ⟨held, next (some v)⟩ := by
  have hlt := (List.getElem?_eq_some_iff.mp ht).1
  have h1 : ((begun progs db).exec shard (before ++ [i])).threads[i]? = some ⟨held, .look k next⟩ ∧
      ((begun progs db).exec shard (before ++ [i])).db.keys k = some v := by
    rw [GPool.exec_append]
    generalize (begun progs db).exec shard before = p at *
    show (p.stepAt shard i).threads[i]? = _ ∧ (p.stepAt shard i).db.keys k = _
    simp only [GPool.stepAt, ht, GProg.wants, Option.map_none, Option.getD_none, if_true, GThread.step]
    rw [List.getElem?_set_self hlt, if_pos (by simpa using hk)]
    exact ⟨rfl, by simp [Db.setKey]⟩
  obtain ⟨h2, h3⟩ := C117_protects shard progs db (before ++ [i]) between i _ h1.1 (k, true) hk hi
  obtain ⟨o, h4, h5, -⟩ := C117_reads shard progs db (before ++ [i] ++ between) i held k next h3
  rw [h4, (h5 true hk).1, h2, h1.2]

/-! ## Waiting for ever -/

/-- Each of these threads needs a lock that a guard held by one of them keeps from being taken. -/
def Spec.Stalled (shard : Bytes → Nat) (p : GPool) (s : List Nat) : Prop :=
  ∀ i ∈ s, ∃ (t : GThread) (w : Bytes × Bool) (j : Nat) (u : GThread) (g : Bytes × Bool),
    p.threads[i]? = some t ∧ t.prog.wants = some w ∧ j ∈ s ∧ p.threads[j]? = some u ∧ g ∈ u.held ∧
    shard g.1 = shard w.1 ∧ (g.2 = true ∨ w.2 = true)

/-- C117. Threads that wait for one another (or for themselves) wait for ever, whatever the others do. -/
theorem C117_deadlock (shard : Bytes → Nat) (p : GPool) (s : List Nat) (hs : Stalled shard p s) (sched : List Nat) :
    ∀ i ∈ s, (p.exec shard sched).threads[i]? = p.threads[i]? := by
  induction sched generalizing p with
  | nil => intro i _; rfl
  | cons n ns ih =>
    have hstep : ∀ i ∈ s, (p.stepAt shard n).threads[i]? = p.threads[i]? := by
      intro i hi
      by_cases hn : n = i
      · subst hn
        obtain ⟨t, w, j, u, g, h1, h2, h3, h4, h5, h6, h7⟩ := hs n hi
        rcases GPool.stepAt_cases shard p n with e | ⟨t', ht', hw, -⟩
        · rw [e]
        · rw [h1] at ht'; cases ht'
          have := GPool.free_iff.mp (hw w h2) j u h4 g h5
          rcases h7 with h7 | h7 <;> simp [conflicts, h6, h7] at this
      · exact GPool.stepAt_other hn
    intro i hi
    refine (ih (p.stepAt shard n) ?_ i hi).trans (hstep i hi)
    intro a ha
    obtain ⟨t, w, j, u, g, h1, h2, h3, h4, h5, h6, h7⟩ := hs a ha
    exact ⟨t, w, j, u, g, (hstep a ha).trans h1, h2, h3, (hstep j h3).trans h4, h5, h6, h7⟩

/-! ## When nobody waits for ever -/

/-- A program that asks for a lock only when `ok` allows it, given the keys of the guards it holds. -/
def Spec.Orderly (ok : List Bytes → Bytes → Prop) : List Bytes → GProg → Prop
  | _, .done => True
  | held, .access k _ _ next => ok held k ∧ ∀ o, Orderly ok held (next o)
  | held, .acquire k _ next => ok held k ∧ Orderly ok held (next none) ∧ ∀ v, Orderly ok (k :: held) (next (some v))
  | held, .look _ next => ∀ o, Orderly ok held (next o)
  | held, .write _ _ next => Orderly ok held next
  | held, .drop k next => Orderly ok (held.erase k) next
  | held, .count _ _ next => ∀ o, Orderly ok held (next o)

/-- Locks are asked for in increasing order only. -/
def Spec.ascending (shard : Bytes → Nat) (held : List Bytes) (k : Bytes) : Prop := ∀ h ∈ held, shard h < shard k

/-- Nothing is asked for while a guard is held. -/
def Spec.oneAtATime (held : List Bytes) (_ : Bytes) : Prop := held = []

theorem Spec.Orderly.mono {ok ok' : List Bytes → Bytes → Prop} (h : ∀ held k, ok held k → ok' held k) (q : GProg) :
    ∀ {held}, Orderly ok held q → Orderly ok' held q := by
  induction q with
  | done => intro _ _; trivial
  | access k e upd next ih => intro _ hq; exact ⟨h _ _ hq.1, fun o => ih o (hq.2 o)⟩
  | acquire k e next ih => intro _ hq; exact ⟨h _ _ hq.1, ih _ hq.2.1, fun v => ih _ (hq.2.2 v)⟩
  | look k next ih => intro _ hq o; exact ih o (hq o)
  | write k v next ih => intro _ hq; exact ih hq
  | drop k next ih => intro _ hq; exact ih hq
  | count m upd next ih => intro _ hq o; exact ih o (hq o)

/-- All threads go on in an orderly way. -/
def AllOrderly (ok : List Bytes → Bytes → Prop) (p : GPool) : Prop :=
  ∀ (i : Nat) t, p.threads[i]? = some t → Orderly ok (t.held.map Prod.fst) t.prog

theorem GThread.step_orderly {ok : List Bytes → Bytes → Prop} {t : GThread} (h : Orderly ok (t.held.map Prod.fst) t.prog) (db : Db) :
    Orderly ok ((t.step db).1.held.map Prod.fst) (t.step db).1.prog := by
  obtain ⟨held, prog⟩ := t
  dsimp only at h
  cases prog with
  | done => trivial
  | access k e upd next => exact h.2 _
  | acquire k e next =>
    simp only [GThread.step]
    cases hk : db.keys k with
    | none => exact h.2.1
    | some v => exact h.2.2 v
  | look k next => exact h _
  | write k v next => exact h
  | drop k next =>
    have e : (held.eraseP (·.1 == k)).map Prod.fst = (held.map Prod.fst).erase k := by
      rw [List.erase_eq_eraseP, List.eraseP_map]
      congr 1
      congr 1
      funext a
      exact Bool.beq_comm
    show Orderly ok ((held.eraseP (·.1 == k)).map Prod.fst) next
    rw [e]; exact h
  | count m upd next => exact h _

theorem AllOrderly.step {ok : List Bytes → Bytes → Prop} {shard : Bytes → Nat} {p : GPool} (h : AllOrderly ok p) (i : Nat) :
    AllOrderly ok (p.stepAt shard i) := by
  rcases GPool.stepAt_cases shard p i with e | ⟨t, ht, -, e⟩
  · rw [e]; exact h
  · rw [e]
    intro a x hx
    rcases getElem?_set_cases hx with ⟨rfl, rfl⟩ | ⟨-, hx⟩
    · exact GThread.step_orderly (h _ t ht) p.db
    · exact h a x hx

theorem AllOrderly.exec {ok : List Bytes → Bytes → Prop} {shard : Bytes → Nat} {p : GPool} (h : AllOrderly ok p) (sched : List Nat) :
    AllOrderly ok (p.exec shard sched) := by
  induction sched generalizing p with
  | nil => exact h
  | cons i is ih => exact ih (h.step i)

/-- The thread has ended and holds no guard. -/
def Spec.Gone (t : GThread) : Prop := t.prog = .done ∧ t.held = []

/-- The thread can take a step. -/
def Spec.Able (shard : Bytes → Nat) (p : GPool) (t : GThread) : Prop :=
  ¬ Gone t ∧ ∀ w, t.prog.wants = some w → p.free shard w = true

theorem exists_max_of_mem {α : Type} (f : α → Nat) : ∀ (l : List α) (a : α), a ∈ l → ∃ b ∈ l, ∀ c ∈ l, f c ≤ f b := by
  intro l
  induction l with
  | nil => intro a ha; cases ha
  | cons x l ih =>
    intro a _
    cases l with
    | nil => exact ⟨x, by simp, by simp⟩
    | cons y l =>
      obtain ⟨b, hb, hmax⟩ := ih y (by simp)
      by_cases hx : f b ≤ f x
      · refine ⟨x, by simp, ?_⟩
        intro c hc
        rcases List.mem_cons.mp hc with rfl | hc
        · exact Nat.le_refl _
        · exact Nat.le_trans (hmax c hc) hx
      · refine ⟨b, List.mem_cons_of_mem _ hb, ?_⟩
        intro c hc
        rcases List.mem_cons.mp hc with rfl | hc
        · omega
        · exact hmax c hc

theorem AllOrderly.able {shard : Bytes → Nat} {p : GPool} (h : AllOrderly (ascending shard) p) (hne : ¬ ∀ t ∈ p.threads, Gone t) :
    ∃ t ∈ p.threads, Able shard p t := by
  refine Classical.byContradiction fun hno => ?_
  have blocked : ∀ t ∈ p.threads, ¬ Gone t → ∃ w, t.prog.wants = some w ∧ p.free shard w = false := by
    intro t ht he
    refine Classical.byContradiction fun hb => hno ⟨t, ht, he, ?_⟩
    intro w hw
    cases hf : p.free shard w with
    | true => rfl
    | false => exact absurd ⟨w, hw, hf⟩ hb
  have h0 : ∃ t ∈ p.threads, ¬ Gone t := by
    refine Classical.byContradiction fun hb => hne fun t ht => Classical.byContradiction fun he => hb ⟨t, ht, he⟩
  obtain ⟨t0, ht0, he0⟩ := h0
  classical
  let live := p.threads.filter fun t => decide (¬ Gone t)
  have mem_live : ∀ {t}, t ∈ live ↔ t ∈ p.threads ∧ ¬ Gone t := by intro t; simp [live]
  obtain ⟨b, hb, hmax⟩ := exists_max_of_mem (fun t : GThread => (t.prog.wants.map fun w => shard w.1).getD 0) live t0 (mem_live.mpr ⟨ht0, he0⟩)
  obtain ⟨hb1, hb2⟩ := mem_live.mp hb
  obtain ⟨w, hw, hf⟩ := blocked b hb1 hb2
  have asks : ∀ t ∈ p.threads, ∀ w, t.prog.wants = some w → ascending shard (t.held.map Prod.fst) w.1 := by
    intro t ht w hw
    obtain ⟨i, hi⟩ := List.getElem?_of_mem ht
    have := h i t hi
    cases hp : t.prog <;> rw [hp] at hw this <;> simp [GProg.wants] at hw
    · subst hw; exact this.1
    · subst hw; exact this.1
  have hfree : ¬ ∀ (i : Nat) t, p.threads[i]? = some t → ∀ g ∈ t.held, conflicts shard g w = false := by
    rw [← GPool.free_iff, hf]; simp
  simp only [Classical.not_forall] at hfree
  obtain ⟨j, u, hu, g, hg, hcon⟩ := hfree
  have hsame : shard g.1 = shard w.1 := by
    simp only [Bool.not_eq_false, conflicts, Bool.and_eq_true, beq_iff_eq] at hcon
    exact hcon.1
  have hum := List.mem_of_getElem? hu
  have hue : ¬ Gone u := by
    intro he
    rw [he.2] at hg; cases hg
  obtain ⟨w', hw', -⟩ := blocked u hum hue
  have h1 := asks u hum w' hw' g.1 (List.mem_map_of_mem hg)
  have h2 := hmax u (mem_live.mpr ⟨hum, hue⟩)
  simp only [hw, hw', Option.map_some, Option.getD_some] at h2
  omega

/-- C117. If every thread asks for locks in increasing order only, then at every moment one that has not ended can
take a step. -/
theorem C117_ordered (shard : Bytes → Nat) (progs : List GProg) (db : Db) (ho : ∀ q ∈ progs, Orderly (ascending shard) [] q)
    (sched : List Nat) (hne : ¬ ∀ t ∈ ((begun progs db).exec shard sched).threads, Gone t) :
    ∃ t ∈ ((begun progs db).exec shard sched).threads, Able shard ((begun progs db).exec shard sched) t := by
  refine AllOrderly.able (AllOrderly.exec ?_ sched) hne
  intro i t ht
  simp only [begun, List.getElem?_map, Option.map_eq_some_iff] at ht
  obtain ⟨q, hq, rfl⟩ := ht
  exact ho q (List.mem_of_getElem? hq)

/-! ## All threads can finish -/

/-- One step of a thread that has not ended. -/
inductive Later : GThread → GThread → Prop
  | access {held held' k e upd next o} : Later ⟨held', next o⟩ ⟨held, .access k e upd next⟩
  | acquire {held held' k e next o} : Later ⟨held', next o⟩ ⟨held, .acquire k e next⟩
  | look {held held' k next o} : Later ⟨held', next o⟩ ⟨held, .look k next⟩
  | write {held held' k v next} : Later ⟨held', next⟩ ⟨held, .write k v next⟩
  | drop {held held' k next} : Later ⟨held', next⟩ ⟨held, .drop k next⟩
  | count {held held' m upd next o} : Later ⟨held', next o⟩ ⟨held, .count m upd next⟩
  | done {held} : held ≠ [] → Later ⟨[], .done⟩ ⟨held, .done⟩

theorem Later.acc (q : GProg) : ∀ held, Acc Later ⟨held, q⟩ := by
  induction q with
  | done =>
    intro held
    refine ⟨_, fun t h => ?_⟩
    cases h with
    | done _ => exact ⟨_, fun t h => by cases h with | done h => exact absurd rfl h⟩
  | access k e upd next ih => intro held; refine ⟨_, fun t h => ?_⟩; cases h with | access => exact ih _ _
  | acquire k e next ih => intro held; refine ⟨_, fun t h => ?_⟩; cases h with | acquire => exact ih _ _
  | look k next ih => intro held; refine ⟨_, fun t h => ?_⟩; cases h with | look => exact ih _ _
  | write k v next ih => intro held; refine ⟨_, fun t h => ?_⟩; cases h with | write => exact ih _
  | drop k next ih => intro held; refine ⟨_, fun t h => ?_⟩; cases h with | drop => exact ih _
  | count m upd next ih => intro held; refine ⟨_, fun t h => ?_⟩; cases h with | count => exact ih _ _

theorem GThread.step_later {t : GThread} (db : Db) (h : ¬ Gone t) : Later (t.step db).1 t := by
  obtain ⟨held, prog⟩ := t
  cases prog with
  | done => exact .done fun e => h ⟨rfl, e⟩
  | access k e upd next => exact .access
  | acquire k e next =>
    simp only [GThread.step]
    split <;> exact .acquire
  | look k next => exact .look
  | write k v next => exact .write
  | drop k next => exact .drop
  | count m upd next => exact .count

/-- One thread of a list goes on. -/
inductive SomeLater : List GThread → List GThread → Prop
  | head {a b l} : Later a b → SomeLater (a :: l) (b :: l)
  | tail {a l l'} : SomeLater l l' → SomeLater (a :: l) (a :: l')

theorem SomeLater.acc_cons {a : GThread} (ha : Acc Later a) : ∀ {l}, Acc SomeLater l → Acc SomeLater (a :: l) := by
  induction ha with
  | intro a ha iha =>
    intro l hl
    induction hl with
    | intro l hl ihl =>
      refine ⟨_, fun l' h => ?_⟩
      cases h with
      | head h => exact iha _ h ⟨l, hl⟩
      | tail h => exact ihl _ h

theorem SomeLater.acc (l : List GThread) : Acc SomeLater l := by
  induction l with
  | nil => exact ⟨_, fun _ h => by cases h⟩
  | cons a l ih => exact SomeLater.acc_cons (Later.acc a.prog a.held) ih

theorem SomeLater.set {l : List GThread} {i : Nat} {t t' : GThread} (hi : l[i]? = some t) (h : Later t' t) :
    SomeLater (l.set i t') l := by
  induction l generalizing i with
  | nil => simp at hi
  | cons a l ih =>
    cases i with
    | zero =>
      simp only [List.getElem?_cons_zero, Option.some.injEq] at hi
      subst hi
      exact .head h
    | succ i =>
      simp only [List.getElem?_cons_succ] at hi
      exact .tail (ih hi)

theorem AllOrderly.finish {shard : Bytes → Nat} (l : List GThread) (h : Acc SomeLater l) : ∀ (p : GPool), p.threads = l →
    AllOrderly (ascending shard) p → ∃ sched, ∀ t ∈ (p.exec shard sched).threads, Gone t := by
  induction h with
  | intro l _ ih =>
    intro p hp ho
    by_cases he : ∀ t ∈ p.threads, Gone t
    · exact ⟨[], he⟩
    · obtain ⟨t, ht, hne, hw⟩ := ho.able he
      obtain ⟨i, hi⟩ := List.getElem?_of_mem ht
      have hstep := GPool.stepAt_free hi hw
      obtain ⟨s, hs⟩ := ih _ (by rw [← hp]; exact SomeLater.set hi (GThread.step_later p.db hne)) (p.stepAt shard i)
        (by rw [hstep]) (ho.step i)
      exact ⟨i :: s, hs⟩

/-- C117. And from every moment on all of them can still come to their end. -/
theorem C117_can_finish (shard : Bytes → Nat) (progs : List GProg) (db : Db) (ho : ∀ q ∈ progs, Orderly (ascending shard) [] q)
    (sched : List Nat) : ∃ more, ∀ t ∈ ((begun progs db).exec shard (sched ++ more)).threads, Gone t := by
  obtain ⟨s, hs⟩ := AllOrderly.finish _ (SomeLater.acc _) ((begun progs db).exec shard sched) rfl (by
    refine AllOrderly.exec ?_ sched
    intro i t ht
    simp only [begun, List.getElem?_map, Option.map_eq_some_iff] at ht
    obtain ⟨q, hq, rfl⟩ := ht
    exact ho q (List.mem_of_getElem? hq))
  exact ⟨s, by rw [GPool.exec_append]; exact hs⟩

/-- C117. Threads that ask for nothing while they hold a guard are fine however keys are put into shards. -/
theorem C117_one_at_a_time (shard : Bytes → Nat) (progs : List GProg) (db : Db) (ho : ∀ q ∈ progs, Orderly oneAtATime [] q)
    (sched : List Nat) : ∃ more, ∀ t ∈ ((begun progs db).exec shard (sched ++ more)).threads, Gone t :=
  C117_can_finish shard progs db (fun q hq => (ho q hq).mono (fun held k h => by
    unfold oneAtATime at h; subst h; intro _ h; cases h) q) sched

/-! ## Concrete cases -/

/-- Keep a mutable guard of one key, and then ask for one of another. -/
def nested (a b : Bytes) : GProg :=
  .keyMut (sampleEnv .debug) a fun _ => .keyMut (sampleEnv .debug) b fun _ => .write b (.integer 9) (.drop b (.drop a .done))

/-- Two threads that do so in opposite orders, for keys with different locks: once each has its first guard, both wait
for ever. -/
example (sched : List Nat) (i : Nat) (hi : i < 2) :
    ((begun [nested [1] [1, 2], nested [1, 2] [1]] (sampleDb [([1], .integer 5), ([1, 2], .boolean true)])).exec List.length
      ([0, 1] ++ sched)).threads[i]?.map GThread.held = [some [([1], true)], some [([1, 2], true)]][i]?.join := by
  rw [GPool.exec_append, C117_deadlock List.length _ [0, 1] _ sched i (by simp; omega)]
  · match i, hi with
    | 0, _ => rfl
    | 1, _ => rfl
  · intro j hj
    simp only [List.mem_cons, List.not_mem_nil, or_false] at hj
    rcases hj with rfl | rfl
    · exact ⟨_, ([1, 2], true), 1, _, ([1, 2], true), rfl, rfl, by simp, rfl, by decide, rfl, .inl rfl⟩
    · exact ⟨_, ([1], true), 0, _, ([1], true), rfl, rfl, by simp, rfl, by decide, rfl, .inl rfl⟩

/-- In the same order they cannot block one another, if the locks are numbered that way. -/
example (sched : List Nat) : ∃ more, ∀ t ∈ ((begun [nested [1] [1, 2], nested [1] [1, 2]]
    (sampleDb [([1], .integer 5), ([1, 2], .boolean true)])).exec List.length (sched ++ more)).threads, Gone t := by
  refine C117_can_finish _ _ _ ?_ sched
  intro q hq
  have h : Orderly (ascending List.length) [] (nested [1] [1, 2]) := by
    refine ⟨(by intro h hh; cases hh), ⟨(by intro h hh; cases hh), trivial, fun _ => trivial⟩, fun _ => ⟨?_, trivial, fun _ => trivial⟩⟩
    intro h hh
    simp only [List.mem_singleton] at hh
    subst hh
    decide
  simp only [List.mem_cons, List.not_mem_nil, or_false, or_self] at hq
  rw [hq]; exact h

/-- A thread looks at a key twice through a guard, while another wants to replace it. -/
example : ((begun [.keyRef (sampleEnv .debug) [1] fun _ => .look [1] fun _ => .look [1] fun _ => .done, .insert [1] (.integer 6) fun _ => .done]
    (sampleDb [([1], .integer 5)])).exec List.length ([0] ++ [1, 1])).db.keys [1] = some (.integer 5) :=
  ((C117_protects List.length _ _ [0] [1, 1] 0 _ rfl ([1], false) (by decide) (by decide)).1).trans rfl

/-- After the guard is dropped, at the end of the thread, it can. -/
example : ((begun [.keyRef (sampleEnv .debug) [1] fun _ => .look [1] fun _ => .done, .insert [1] (.integer 6) fun _ => .done]
    (sampleDb [([1], .integer 5)])).exec List.length [0, 1, 0, 1, 0, 1]).db.keys [1] = some (.integer 6) := rfl

/-- A counter kept by hand, one guard at a time. -/
example (shard : Bytes → Nat) (sched : List Nat) : ∃ more, ∀ t ∈ ((begun (List.replicate 3
      (.keyOrInsertWith (sampleEnv .release) [1] (.integer 0) fun _ => .write [1] (.integer 1) (.drop [1] (.containsKey [1] fun _ => .done))))
    (sampleDb [])).exec shard (sched ++ more)).threads, Gone t := by
  refine C117_one_at_a_time shard _ _ ?_ sched
  intro q hq
  rw [(List.mem_replicate.mp hq).2]
  have h : ∀ n, Orderly oneAtATime [] (GProg.orInsert [1] (.integer 0)
      (fun _ => .write [1] (.integer 1) (.drop [1] (.containsKey [1] fun _ => .done))) n) := by
    intro n
    induction n with
    | zero => trivial
    | succ n ih => exact ⟨rfl, ⟨rfl, fun _ => ih⟩, fun _ => ⟨rfl, fun _ => trivial⟩⟩
  exact h _

/-- Beside C117_written: a value written through a guard while another thread tries to insert. -/
example (between : List Nat) (hi : 0 ∉ between) :
    ((begun [.keyMut (sampleEnv .debug) [1] fun _ => .write [1] (.integer 7) (.look [1] fun o => .insert [2] (o.getD (.integer 0)) fun _ => .done),
      .insert [1] (.integer 6) fun _ => .done] (sampleDb [([1], .integer 5)])).exec (fun k => k.length)
        ([0] ++ [0] ++ between ++ [0])).threads[0]? = some ⟨[([1], true)], .insert [2] (.integer 7) fun _ => .done⟩ :=
  C117_written (fun k => k.length) _ _ [0] between 0 [([1], true)] [1] (.integer 7)
    (fun o => .insert [2] (o.getD (.integer 0)) fun _ => .done) rfl (by simp) hi

/-- The key of a guard exists. -/
example : (((begun [nested [1] [1, 2], nested [1, 2] [1]] (sampleDb [([1], .integer 5), ([1, 2], .boolean true)])).exec List.length
    [0, 1]).db.keys [1]).isSome :=
  (C117_guards List.length _ _ [0, 1] 0 _ rfl).2.2 ([1], true) (by decide)

/-- As long as not all have finished, one can go on. -/
example : ∃ t ∈ ((begun [nested [1] [1, 2], nested [1] [1, 2]] (sampleDb [([1], .integer 5), ([1, 2], .boolean true)])).exec List.length
    [0, 1]).threads, Able List.length ((begun [nested [1] [1, 2], nested [1] [1, 2]] (sampleDb [([1], .integer 5), ([1, 2], .boolean true)])).exec
      List.length [0, 1]) t := by
  refine C117_ordered List.length _ _ (fun q hq => ?_) [0, 1] (fun h => ?_)
  · have h : Orderly (ascending List.length) [] (nested [1] [1, 2]) := by
      refine ⟨(by intro h hh; cases hh), ⟨(by intro h hh; cases hh), trivial, fun _ => trivial⟩, fun _ => ⟨?_, trivial, fun _ => trivial⟩⟩
      intro h hh
      simp only [List.mem_singleton] at hh
      subst hh
      decide
    simp only [List.mem_cons, List.not_mem_nil, or_false, or_self] at hq
    rw [hq]; exact h
  · have := (h _ (.head _)).1
    cases this

/-- What is read through a guard. -/
example : ∃ o, ((begun [.keyRef (sampleEnv .debug) [1] fun _ => .look [1] fun _ => .done, .insert [1] (.integer 6) fun _ => .done]
    (sampleDb [([1], .integer 5)])).exec List.length ([0] ++ [0])).threads[0]? = some ⟨[([1], false)], .done⟩ ∧ o = some (Value.integer 5) := by
  obtain ⟨o, h1, h2, -⟩ := C117_reads List.length [.keyRef (sampleEnv .debug) [1] fun _ => .look [1] fun _ => .done,
    .insert [1] (.integer 6) fun _ => .done] (sampleDb [([1], .integer 5)]) [0] 0 [([1], false)] [1] (fun _ => .done) rfl
  exact ⟨o, h1, (h2 false (by decide)).1⟩

/-- A shared guard, whoever takes the next step. -/
example (j : Nat) : ((begun [.keyRef (sampleEnv .debug) [1] fun _ => .write [1] (.integer 7) .done, .insert [1] (.integer 6) fun _ => .done]
    (sampleDb [([1], .integer 5)])).exec List.length ([0] ++ [j])).db.keys [1] = some (.integer 5) :=
  (C117_shared List.length _ _ [0] 0 _ rfl [1] (by decide) j).trans rfl

end Hop
