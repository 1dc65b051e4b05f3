import Verif.Spec.SessionGuards
import Verif.Props.Hop
import Verif.Props.Guards

/-! # C135 to C138: session guards in users' hands -/

namespace Hop
open Spec

/-! ## The steps of a thread, one by one -/

/-- The thread is where a thread can be: within an addition only if it is making one. -/
inductive SThread.Wf : SThread → Prop
  | idle {held prog} : Wf ⟨held, none, prog⟩
  | made {held token next i} : Wf ⟨held, some (.made ⟨token, i⟩), .add token next⟩
  | keyed {held token next i k} : Wf ⟨held, some (.keyed ⟨token, i⟩ k), .add token next⟩
  | inserted {held token next i k} : Wf ⟨held, some (.inserted ⟨token, i⟩ k), .add token next⟩
  | counted {held token next i k} : Wf ⟨held, some (.counted ⟨token, i⟩ k), .add token next⟩
  | advancing {held token next i k old} : Wf ⟨held, some (.advancing ⟨token, i⟩ k old), .add token next⟩

/-- What a step does. -/
inductive SMove (free : UInt32 → Bool) (m : SessionMgr) : SThread → SThread → SessionMgr → Prop
  | ended {held} : SMove free m ⟨held, none, .done⟩ ⟨[], none, .done⟩ m
  | make {held token next} :
    SMove free m ⟨held, none, .add token next⟩ ⟨held, some (.made ⟨token, m.nextId⟩), .add token next⟩ m
  | key {held token next i} : SMove free m ⟨held, some (.made ⟨token, i⟩), .add token next⟩
      ⟨held, some (.keyed ⟨token, i⟩ m.nextId), .add token next⟩ m
  | wait {held token next i k} : free k = false → SMove free m ⟨held, some (.keyed ⟨token, i⟩ k), .add token next⟩
      ⟨held, some (.keyed ⟨token, i⟩ k), .add token next⟩ m
  | taken {held token next i k o} : free k = true → m.sessions k = some o →
      SMove free m ⟨held, some (.keyed ⟨token, i⟩ k), .add token next⟩ ⟨[], none, .done⟩ m
  | insert {held token next i k} : free k = true → m.sessions k = none →
      SMove free m ⟨held, some (.keyed ⟨token, i⟩ k), .add token next⟩
        ⟨held, some (.inserted ⟨token, i⟩ k), .add token next⟩
        { m with sessions := fun j => if j = k then some ⟨token, i⟩ else m.sessions j }
  | overflow {held token next i k c} : SMove free m ⟨held, some (.inserted ⟨token, i⟩ k), .add token next⟩
      ⟨[], none, .done⟩ { m with metrics := c }
  | count {held token next i k c} : SMove free m ⟨held, some (.inserted ⟨token, i⟩ k), .add token next⟩
      ⟨held, some (.counted ⟨token, i⟩ k), .add token next⟩ { m with metrics := c }
  | read {held token next i k} : SMove free m ⟨held, some (.counted ⟨token, i⟩ k), .add token next⟩
      ⟨held, some (.advancing ⟨token, i⟩ k m.nextId), .add token next⟩ m
  | finish {held token next i k old} : SMove free m ⟨held, some (.advancing ⟨token, i⟩ k old), .add token next⟩
      ⟨k :: held, none, next k ⟨token, i⟩⟩ { m with nextId := old + 1 }
  | stay {held id next} : free id = false → SMove free m ⟨held, none, .remove id next⟩ ⟨held, none, .remove id next⟩ m
  | removed {held id next} : free id = true → SMove free m ⟨held, none, .remove id next⟩
      ⟨held, none, next (m.sessions id).isSome⟩ { m with sessions := fun i => if i = id then none else m.sessions i }
  | look {held id next o} : SMove free m ⟨held, none, .look id next⟩ ⟨held, none, next o⟩ m
  | write {held id s next} : id ∈ held → SMove free m ⟨held, none, .write id s next⟩ ⟨held, none, next⟩
      { m with sessions := fun i => if i = id then some s else m.sessions i }
  | skip {held id s next} : SMove free m ⟨held, none, .write id s next⟩ ⟨held, none, next⟩ m
  | drop {held id next} : SMove free m ⟨held, none, .drop id next⟩ ⟨held.erase id, none, next⟩ m

theorem SThread.Wf.move {t : SThread} (h : t.Wf) (mode : Mode) (free : UInt32 → Bool) (m : SessionMgr) :
    SMove free m t (t.step mode free m).1 (t.step mode free m).2 := by
  cases h with
  | idle =>
    rename_i held prog
    cases prog with
    | done => exact .ended
    | add token next => exact .make
    | remove id next =>
      by_cases hf : free id = true
      · have e : SThread.step mode free m ⟨held, none, .remove id next⟩ = (⟨held, none, next (m.sessions id).isSome⟩,
            { m with sessions := fun i => if i = id then none else m.sessions i }) := by
          simp only [SThread.step, SessionThread.step, if_pos hf, SessionMgr.remove]
        rw [e]; exact .removed hf
      · have e : SThread.step mode free m ⟨held, none, .remove id next⟩ = (⟨held, none, .remove id next⟩, m) := by
          simp only [SThread.step, SessionThread.step, if_neg hf]
        rw [e]; exact .stay (by simpa using hf)
    | look id next => exact .look
    | write id s next =>
      by_cases hc : held.contains id = true
      · have e : SThread.step mode free m ⟨held, none, .write id s next⟩ = (⟨held, none, next⟩,
            { m with sessions := fun i => if i = id then some s else m.sessions i }) := by
          simp only [SThread.step, if_pos hc]
        rw [e]; exact .write (by simpa using hc)
      · have e : SThread.step mode free m ⟨held, none, .write id s next⟩ = (⟨held, none, next⟩, m) := by
          simp only [SThread.step, if_neg hc]
        rw [e]; exact .skip
    | drop id next => exact .drop
  | made => exact .key
  | keyed =>
    rename_i held token next i k
    by_cases hf : free k = true
    · cases hs : m.sessions k with
      | none =>
        have e : SThread.step mode free m ⟨held, some (.keyed ⟨token, i⟩ k), .add token next⟩ =
            (⟨held, some (.inserted ⟨token, i⟩ k), .add token next⟩,
              { m with sessions := fun j => if j = k then some ⟨token, i⟩ else m.sessions j }) := by
          simp only [SThread.step, Option.getD_some, SessionThread.step, if_pos hf, hs]
        rw [e]; exact .insert hf hs
      | some o =>
        have e : SThread.step mode free m ⟨held, some (.keyed ⟨token, i⟩ k), .add token next⟩ = (⟨[], none, .done⟩, m) := by
          simp only [SThread.step, Option.getD_some, SessionThread.step, if_pos hf, hs]
        rw [e]; exact .taken hf hs
    · have e : SThread.step mode free m ⟨held, some (.keyed ⟨token, i⟩ k), .add token next⟩ =
          (⟨held, some (.keyed ⟨token, i⟩ k), .add token next⟩, m) := by
        simp only [SThread.step, Option.getD_some, SessionThread.step, if_neg hf]
      rw [e]; exact .wait (by simpa using hf)
  | inserted =>
    rename_i held token next i k
    cases hr : (m.metrics.increment mode .sessionsStarted).1 with
    | none =>
      have e : SThread.step mode free m ⟨held, some (.inserted ⟨token, i⟩ k), .add token next⟩ = (⟨[], none, .done⟩,
          { m with metrics := (m.metrics.increment mode .sessionsStarted).2 }) := by
        simp only [SThread.step, Option.getD_some, SessionThread.step, hr]
      rw [e]; exact .overflow
    | some b =>
      have e : SThread.step mode free m ⟨held, some (.inserted ⟨token, i⟩ k), .add token next⟩ =
          (⟨held, some (.counted ⟨token, i⟩ k), .add token next⟩,
          { m with metrics := (m.metrics.increment mode .sessionsStarted).2 }) := by
        simp only [SThread.step, Option.getD_some, SessionThread.step, hr]
      rw [e]; exact .count
  | counted => exact .read
  | advancing => exact .finish

theorem SMove.wf {free : UInt32 → Bool} {m m' : SessionMgr} {t t' : SThread} (h : SMove free m t t' m') : t'.Wf := by
  cases h <;> constructor

theorem SPool.stepAt_cases (mode : Mode) (shard : UInt32 → Nat) (p : SPool) (i : Nat) :
    p.stepAt mode shard i = p ∨ ∃ t, p.threads[i]? = some t ∧ p.stepAt mode shard i =
      { threads := p.threads.set i (t.step mode (p.free shard) p.mgr).1, mgr := (t.step mode (p.free shard) p.mgr).2 } := by
  unfold SPool.stepAt
  split
  · exact .inl rfl
  · rename_i t ht; exact .inr ⟨t, ht, rfl⟩

theorem SPool.free_iff {shard : UInt32 → Nat} {p : SPool} {w : UInt32} : p.free shard w = true ↔
    ∀ (i : Nat) t, p.threads[i]? = some t → ∀ g ∈ t.locks, shard g ≠ shard w := by
  simp only [SPool.free, List.all_eq_true, bne_iff_ne, ne_eq]
  constructor
  · intro h i t ht; exact h t (List.mem_of_getElem? ht)
  · intro h t ht
    obtain ⟨i, hi⟩ := List.getElem?_of_mem ht
    exact h i t hi

theorem SPool.stepAt_other {mode : Mode} {shard : UInt32 → Nat} {p : SPool} {i j : Nat} (h : i ≠ j) :
    (p.stepAt mode shard i).threads[j]? = p.threads[j]? := by
  rcases SPool.stepAt_cases mode shard p i with e | ⟨t, -, e⟩
  · rw [e]
  · rw [e]; exact List.getElem?_set_ne h

theorem SPool.exec_append (mode : Mode) (shard : UInt32 → Nat) (p : SPool) (s s' : List Nat) :
    p.exec mode shard (s ++ s') = (p.exec mode shard s).exec mode shard s' := by
  induction s generalizing p with
  | nil => rfl
  | cons i is ih => exact ih _

/-- The locks of a thread after its step: some of those it had, or also the one it asked for. -/
theorem SMove.locks {free : UInt32 → Bool} {m m' : SessionMgr} {t t' : SThread} (h : SMove free m t t' m') :
    t'.locks.Sublist t.locks ∨ ∃ k, free k = true ∧ t'.locks = k :: t.locks ∧ (m'.sessions k).isSome := by
  cases h with
  | insert hf hs => right; exact ⟨_, hf, rfl, by simp⟩
  | ended => left; exact List.nil_sublist _
  | taken => left; exact List.nil_sublist _
  | overflow => left; exact List.nil_sublist _
  | drop => left; exact List.erase_sublist
  | _ => left; exact List.Sublist.refl _

/-- A step changes no entry but one whose lock is free, or one the thread has a guard of, which it leaves present. -/
theorem SMove.sessions {free : UInt32 → Bool} {m m' : SessionMgr} {t t' : SThread} (h : SMove free m t t' m') (g : UInt32) :
    m'.sessions g = m.sessions g ∨ free g = true ∨ (g ∈ t.locks ∧ (m'.sessions g).isSome) := by
  cases h with
  | insert hf hs =>
    rename_i held token next i k
    by_cases hk : g = k
    · subst hk; exact .inr (.inl hf)
    · left; simp [hk]
  | removed hf =>
    rename_i held id next
    by_cases hk : g = id
    · subst hk; exact .inr (.inl hf)
    · left; simp [hk]
  | write hm =>
    rename_i held id s next
    by_cases hk : g = id
    · subst hk; exact .inr (.inr ⟨by simpa [SThread.locks] using hm, by simp⟩)
    · left; simp [hk]
  | _ => exact .inl rfl

/-! ## What a guard protects -/

/-- What holds at every moment. -/
structure Attended (shard : UInt32 → Nat) (p : SPool) : Prop where
  wf : ∀ (i : Nat) t, p.threads[i]? = some t → t.Wf
  apart : ∀ (i j : Nat) t u, i ≠ j → p.threads[i]? = some t → p.threads[j]? = some u →
    ∀ g ∈ t.locks, ∀ h ∈ u.locks, shard g ≠ shard h
  own : ∀ (i : Nat) t, p.threads[i]? = some t → (t.locks.map shard).Nodup
  present : ∀ (i : Nat) t, p.threads[i]? = some t → ∀ g ∈ t.locks, (p.mgr.sessions g).isSome
  stored : ∀ (i : Nat) t, p.threads[i]? = some t → ∀ c k s, t.call = some c →
    c = .inserted s k ∨ c = .counted s k ∨ (∃ old, c = .advancing s k old) → p.mgr.sessions k = some s

theorem SThread.lock_of_stage {t : SThread} {c : SessionThread} {k : UInt32} {s : Session} (hc : t.call = some c)
    (h : c = .inserted s k ∨ c = .counted s k ∨ (∃ old, c = .advancing s k old)) : k ∈ t.locks := by
  rcases h with rfl | rfl | ⟨old, rfl⟩ <;> simp [SThread.locks, hc, SessionThread.holds]

theorem Attended.keeps {mode : Mode} {shard : UInt32 → Nat} {p : SPool} (h : Attended shard p) {i j : Nat} (hij : i ≠ j) {t : SThread}
    (ht : p.threads[i]? = some t) {g : UInt32} (hg : g ∈ t.locks) :
    (p.stepAt mode shard j).mgr.sessions g = p.mgr.sessions g := by
  rcases SPool.stepAt_cases mode shard p j with e | ⟨u, hu, e⟩
  · rw [e]
  · rw [e]
    rcases ((h.wf j u hu).move mode (p.free shard) p.mgr).sessions g with h1 | h1 | ⟨h1, -⟩
    · exact h1
    · exact absurd rfl (SPool.free_iff.mp h1 i t ht g hg)
    · exact absurd rfl (h.apart i j t u hij ht hu g hg g h1)

theorem Attended.step {mode : Mode} {shard : UInt32 → Nat} {p : SPool} (h : Attended shard p) (i : Nat) :
    Attended shard (p.stepAt mode shard i) := by
  have hkeep : ∀ (j : Nat) u, i ≠ j → p.threads[j]? = some u → ∀ g ∈ u.locks,
      (p.stepAt mode shard i).mgr.sessions g = p.mgr.sessions g :=
    fun j u hij hu g hg => h.keeps (Ne.symm hij) hu hg
  rcases SPool.stepAt_cases mode shard p i with e | ⟨t, ht, e⟩
  · rw [e]; exact h
  rw [e] at hkeep ⊢
  have hm := (h.wf i t ht).move mode (p.free shard) p.mgr
  generalize hr : t.step mode (p.free shard) p.mgr = r at *
  obtain ⟨t', m'⟩ := r
  dsimp only at hm hkeep ⊢
  have hnew : ∀ g ∈ t'.locks, g ∈ t.locks ∨ p.free shard g = true := by
    intro g hg
    rcases hm.locks with hs | ⟨w, h1, h2, -⟩
    · exact .inl (hs.subset hg)
    · rw [h2, List.mem_cons] at hg
      rcases hg with rfl | hg
      · exact .inr h1
      · exact .inl hg
  refine ⟨?_, ?_, ?_, ?_, ?_⟩
  · intro a x hx
    rcases getElem?_set_cases hx with ⟨rfl, rfl⟩ | ⟨ha, hx⟩
    · exact hm.wf
    · exact h.wf a x hx
  · intro a b x y hab hx hy g hg g' hg'
    rcases getElem?_set_cases hx with ⟨ha, hxt⟩ | ⟨ha, hx'⟩
    · rcases getElem?_set_cases hy with ⟨hb, -⟩ | ⟨hb, hy'⟩
      · exact absurd (ha.trans hb.symm) hab
      · subst hxt
        rcases hnew g hg with h1 | h1
        · exact h.apart i b t y (fun e => hb e.symm) ht hy' g h1 g' hg'
        · exact Ne.symm (SPool.free_iff.mp h1 b y hy' g' hg')
    · rcases getElem?_set_cases hy with ⟨hb, hyt⟩ | ⟨hb, hy'⟩
      · subst hyt
        rcases hnew g' hg' with h1 | h1
        · exact h.apart a i x t ha hx' ht g hg g' h1
        · exact SPool.free_iff.mp h1 a x hx' g hg
      · exact h.apart a b x y hab hx' hy' g hg g' hg'
  · intro a x hx
    rcases getElem?_set_cases hx with ⟨rfl, rfl⟩ | ⟨ha, hx⟩
    · rcases hm.locks with hs | ⟨w, h1, h2, -⟩
      · exact (h.own _ t ht).sublist (hs.map shard)
      · rw [h2, List.map_cons, List.nodup_cons]
        refine ⟨?_, h.own _ t ht⟩
        intro hmem
        obtain ⟨g, hg, he⟩ := List.mem_map.mp hmem
        exact SPool.free_iff.mp h1 _ t ht g hg he
    · exact h.own a x hx
  · intro a x hx g hg
    rcases getElem?_set_cases hx with ⟨rfl, rfl⟩ | ⟨ha, hx⟩
    · rcases hm.locks with hs | ⟨w, h1, h2, h3⟩
      · have hgt := hs.subset hg
        rcases hm.sessions g with h4 | h4 | ⟨-, h4⟩
        · show (m'.sessions g).isSome; rw [h4]; exact h.present _ t ht g hgt
        · exact absurd rfl (SPool.free_iff.mp h4 _ t ht g hgt)
        · exact h4
      · rw [h2, List.mem_cons] at hg
        rcases hg with rfl | hg
        · exact h3
        · rcases hm.sessions g with h4 | h4 | ⟨-, h4⟩
          · show (m'.sessions g).isSome; rw [h4]; exact h.present _ t ht g hg
          · exact absurd rfl (SPool.free_iff.mp h4 _ t ht g hg)
          · exact h4
    · show (m'.sessions g).isSome
      rw [hkeep a x (Ne.symm ha) hx g hg]; exact h.present a x hx g hg
  · intro a x hx c k s hc hcs
    rcases getElem?_set_cases hx with ⟨rfl, rfl⟩ | ⟨ha, hx⟩
    · have hst := h.stored _ t ht
      cases hm with
      | insert hf hs =>
        simp only [Option.some.injEq] at hc
        subst hc
        rcases hcs with hcs | hcs | ⟨old, hcs⟩ <;> cases hcs
        simp
      | count =>
        simp only [Option.some.injEq] at hc
        subst hc
        rcases hcs with hcs | hcs | ⟨old, hcs⟩ <;> cases hcs
        exact hst _ k _ rfl (.inl rfl)
      | read =>
        simp only [Option.some.injEq] at hc
        subst hc
        rcases hcs with hcs | hcs | ⟨old, hcs⟩ <;> cases hcs
        exact hst _ k _ rfl (.inr (.inl rfl))
      | make => simp only [Option.some.injEq] at hc; subst hc; rcases hcs with hcs | hcs | ⟨old, hcs⟩ <;> cases hcs
      | key => simp only [Option.some.injEq] at hc; subst hc; rcases hcs with hcs | hcs | ⟨old, hcs⟩ <;> cases hcs
      | wait => simp only [Option.some.injEq] at hc; subst hc; rcases hcs with hcs | hcs | ⟨old, hcs⟩ <;> cases hcs
      | _ => cases hc
    · show m'.sessions k = some s
      rw [hkeep a x (Ne.symm ha) hx k (SThread.lock_of_stage hc hcs)]
      exact h.stored a x hx c k s hc hcs

theorem Attended.exec {mode : Mode} {shard : UInt32 → Nat} {p : SPool} (h : Attended shard p) (sched : List Nat) :
    Attended shard (p.exec mode shard sched) := by
  induction sched generalizing p with
  | nil => exact h
  | cons i is ih => exact ih (h.step i)

theorem Attended.attending (shard : UInt32 → Nat) (progs : List SProg) (m : SessionMgr) : Attended shard (attending progs m) := by
  have hq : ∀ (i : Nat) t, (Spec.attending progs m).threads[i]? = some t → ∃ q, t = ⟨[], none, q⟩ := by
    intro i t ht
    simp only [Spec.attending, List.getElem?_map, Option.map_eq_some_iff] at ht
    obtain ⟨q, -, rfl⟩ := ht
    exact ⟨q, rfl⟩
  refine ⟨?_, ?_, ?_, ?_, ?_⟩
  · intro i t ht; obtain ⟨q, rfl⟩ := hq i t ht; exact .idle
  · intro i j t u _ ht _ g hg; obtain ⟨q, rfl⟩ := hq i t ht; cases hg
  · intro i t ht; obtain ⟨q, rfl⟩ := hq i t ht; exact .nil
  · intro i t ht g hg; obtain ⟨q, rfl⟩ := hq i t ht; cases hg
  · intro i t ht c k s hc; obtain ⟨q, rfl⟩ := hq i t ht; cases hc

/-- C135. At every moment, whatever any number of threads do with the manager and with the guards they are given: no two
guards, of two threads or of one, are for entries that share a lock, and the entries of all guards exist. -/
theorem C135_guards (mode : Mode) (shard : UInt32 → Nat) (progs : List SProg) (m : SessionMgr) (sched : List Nat) (i : Nat) (t : SThread)
    (ht : ((attending progs m).exec mode shard sched).threads[i]? = some t) :
    (∀ (j : Nat) u, i ≠ j → ((attending progs m).exec mode shard sched).threads[j]? = some u →
      ∀ g ∈ t.held, ∀ h ∈ u.held, shard g ≠ shard h) ∧
    (t.held.map shard).Nodup ∧
    ∀ g ∈ t.held, (((attending progs m).exec mode shard sched).mgr.sessions g).isSome := by
  have h := (Attended.attending shard progs m).exec (mode := mode) sched
  have hsub : ∀ u : SThread, u.held.Sublist u.locks := fun u => List.sublist_append_right _ _
  refine ⟨?_, ?_, ?_⟩
  · intro j u hij hu g hg k hk
    exact h.apart i j t u hij ht hu g ((hsub t).subset hg) k ((hsub u).subset hk)
  · exact (h.own i t ht).sublist ((hsub t).map shard)
  · intro g hg
    exact h.present i t ht g ((hsub t).subset hg)

/-- C135. While a thread keeps the guard of an entry, nothing the other threads do, in any order, changes the entry or
removes it. -/
theorem C135_protects (mode : Mode) (shard : UInt32 → Nat) (progs : List SProg) (m : SessionMgr) (before after : List Nat) (i : Nat)
    (t : SThread) (ht : ((attending progs m).exec mode shard before).threads[i]? = some t) (g : UInt32) (hg : g ∈ t.held)
    (hi : i ∉ after) :
    ((attending progs m).exec mode shard (before ++ after)).mgr.sessions g =
      ((attending progs m).exec mode shard before).mgr.sessions g ∧
    ((attending progs m).exec mode shard (before ++ after)).threads[i]? = some t := by
  rw [SPool.exec_append]
  have hp := (Attended.attending shard progs m).exec (mode := mode) before
  generalize (attending progs m).exec mode shard before = p at *
  have hgl : g ∈ t.locks := List.mem_append_right _ hg
  induction after generalizing p with
  | nil => exact ⟨rfl, ht⟩
  | cons j js ih =>
    simp only [List.mem_cons, not_or] at hi
    have hj : i ≠ j := hi.1
    obtain ⟨h1, h2⟩ := ih hi.2 (p.stepAt mode shard j) (by rw [SPool.stepAt_other (Ne.symm hj)]; exact ht) (hp.step j)
    exact ⟨h1.trans (hp.keeps hj ht hgl), h2⟩

/-- C135. A thread reads through a guard the session that is stored, and nothing without one. -/
theorem C135_reads (mode : Mode) (shard : UInt32 → Nat) (progs : List SProg) (m : SessionMgr) (before : List Nat) (i : Nat)
    (held : List UInt32) (c : Option SessionThread) (id : UInt32) (next : Option Session → SProg)
    (ht : ((attending progs m).exec mode shard before).threads[i]? = some ⟨held, c, .look id next⟩) :
    ∃ o, ((attending progs m).exec mode shard (before ++ [i])).threads[i]? = some ⟨held, c, next o⟩ ∧
      (id ∈ held → o = ((attending progs m).exec mode shard before).mgr.sessions id ∧ o.isSome) ∧ (id ∉ held → o = none) := by
  have hpres := (C135_guards mode shard progs m before i _ ht).2.2
  rw [SPool.exec_append]
  generalize (attending progs m).exec mode shard before = p at *
  have hlt := (List.getElem?_eq_some_iff.mp ht).1
  refine ⟨if held.contains id then p.mgr.sessions id else none, ?_, fun he => ?_, fun hn => ?_⟩
  · show (p.stepAt mode shard i).threads[i]? = _
    simp only [SPool.stepAt, ht, SThread.step]
    rw [List.getElem?_set_self hlt]
  · rw [if_pos (by simpa using he)]
    exact ⟨rfl, hpres _ he⟩
  · rw [if_neg (by simpa using hn)]

/-- C135. What a thread writes through a guard it reads back, whatever others do in between. -/
theorem C135_written (mode : Mode) (shard : UInt32 → Nat) (progs : List SProg) (m : SessionMgr) (before between : List Nat) (i : Nat)
    (held : List UInt32) (c : Option SessionThread) (id : UInt32) (s : Session) (next : Option Session → SProg)
    (ht : ((attending progs m).exec mode shard before).threads[i]? = some ⟨held, c, .write id s (.look id next)⟩) (hk : id ∈ held)
    (hi : i ∉ between) :
    ((attending progs m).exec mode shard (before ++ [i] ++ between ++ [i])).threads[i]? = some ⟨held, c, next (some s)⟩ := by
  have hlt := (List.getElem?_eq_some_iff.mp ht).1
  have h1 : ((attending progs m).exec mode shard (before ++ [i])).threads[i]? = some ⟨held, c, .look id next⟩ ∧
      ((attending progs m).exec mode shard (before ++ [i])).mgr.sessions id = some s := by
    rw [SPool.exec_append]
    generalize (attending progs m).exec mode shard before = p at *
    show (p.stepAt mode shard i).threads[i]? = _ ∧ (p.stepAt mode shard i).mgr.sessions id = _
    simp only [SPool.stepAt, ht, SThread.step]
    rw [List.getElem?_set_self hlt, if_pos (by simpa using hk)]
    exact ⟨rfl, by simp⟩
  obtain ⟨h2, h3⟩ := C135_protects mode shard progs m (before ++ [i]) between i _ h1.1 id hk hi
  obtain ⟨o, h4, h5, -⟩ := C135_reads mode shard progs m (before ++ [i] ++ between) i held c id next h3
  rw [h4, (h5 hk).1, h2, h1.2]

/-- C135. When an addition returns, the caller has one guard more, of an entry that contains a session with the given
token, and what the addition answers is this session. Until then it is still in the addition and its guards are those it
had, unless it panics, which ends it. -/
theorem C135_returned (mode : Mode) (shard : UInt32 → Nat) (progs : List SProg) (m : SessionMgr) (sched : List Nat) (i : Nat)
    (held : List UInt32) (c : Option SessionThread) (token : Bytes) (next : UInt32 → Session → SProg)
    (ht : ((attending progs m).exec mode shard sched).threads[i]? = some ⟨held, c, .add token next⟩) :
    ∃ t, ((attending progs m).exec mode shard (sched ++ [i])).threads[i]? = some t ∧
      ((t.held = held ∧ t.prog = .add token next) ∨ Departed t ∨
        ∃ k s, t = ⟨k :: held, none, next k s⟩ ∧ k ∉ held ∧ s.token = token ∧
          ((attending progs m).exec mode shard (sched ++ [i])).mgr.sessions k = some s) := by
  rw [SPool.exec_append]
  have hp := (Attended.attending shard progs m).exec (mode := mode) sched
  generalize (attending progs m).exec mode shard sched = p at *
  have hm := (hp.wf i _ ht).move mode (p.free shard) p.mgr
  have hlt : i < p.threads.length := (List.getElem?_eq_some_iff.mp ht).1
  have e : p.exec mode shard [i] =
      SPool.mk (p.threads.set i (SThread.step mode (p.free shard) p.mgr ⟨held, c, .add token next⟩).1)
        (SThread.step mode (p.free shard) p.mgr ⟨held, c, .add token next⟩).2 := by
    show p.stepAt mode shard i = _
    simp only [SPool.stepAt, ht]
  rw [e]
  have hown := hp.own i _ ht
  have hst := hp.stored i _ ht
  generalize SThread.step mode (p.free shard) p.mgr ⟨held, c, .add token next⟩ = r at *
  obtain ⟨t', m'⟩ := r
  dsimp only at hm ⊢
  refine ⟨t', by simp [hlt], ?_⟩
  cases hm with
  | finish =>
    right; right
    rename_i i0 k old
    refine ⟨k, _, rfl, ?_, rfl, hst _ k _ rfl (.inr (.inr ⟨old, rfl⟩))⟩
    intro hk
    simp only [SThread.locks, Option.bind_some, SessionThread.holds, Option.toList_some, List.singleton_append, List.map_cons,
      List.nodup_cons] at hown
    exact hown.1 (List.mem_map_of_mem hk)
  | taken => exact .inr (.inl ⟨rfl, rfl, rfl⟩)
  | overflow => exact .inr (.inl ⟨rfl, rfl, rfl⟩)
  | _ => exact .inl ⟨rfl, rfl⟩

theorem Attended.nodup {shard : UInt32 → Nat} {p : SPool} (h : Attended shard p) :
    ((p.threads.flatMap fun t => t.held).map shard).Nodup := by
  have hsub : ∀ u : SThread, u.held.Sublist u.locks := fun u => List.sublist_append_right _ _
  have own : ∀ t ∈ p.threads, (t.held.map shard).Nodup := by
    intro t ht
    obtain ⟨i, hi⟩ := List.getElem?_of_mem ht
    exact (h.own i t hi).sublist ((hsub t).map shard)
  have apart : p.threads.Pairwise fun t u => ∀ g ∈ t.held, ∀ k ∈ u.held, shard g ≠ shard k := by
    rw [List.pairwise_iff_getElem]
    intro i j hi hj hij g hg k hk
    exact h.apart i j _ _ (by omega) (List.getElem?_eq_getElem hi) (List.getElem?_eq_getElem hj) g ((hsub _).subset hg)
      k ((hsub _).subset hk)
  generalize p.threads = l at own apart
  induction l with
  | nil => exact .nil
  | cons t l ih =>
    rw [List.pairwise_cons] at apart
    rw [List.flatMap_cons, List.map_append, List.nodup_append]
    refine ⟨own t (by simp), ih (fun u hu => own u (List.mem_cons_of_mem _ hu)) apart.2, ?_⟩
    intro a ha b hb
    obtain ⟨g, hg, rfl⟩ := List.mem_map.mp ha
    obtain ⟨k, hk, rfl⟩ := List.mem_map.mp hb
    obtain ⟨u, hu, hku⟩ := List.mem_flatMap.mp hk
    exact apart.1 u hu g hg k hku

/-- C135. However the map spreads its entries over its locks, all threads together never hold more guards than there are
locks. -/
theorem C135_at_most (mode : Mode) (shard : UInt32 → Nat) (n : Nat) (hn : ∀ id, shard id < n) (progs : List SProg) (m : SessionMgr)
    (sched : List Nat) : (((attending progs m).exec mode shard sched).threads.flatMap fun t => t.held).length ≤ n := by
  have h := ((Attended.attending shard progs m).exec (mode := mode) sched).nodup
  rw [← List.length_map (f := shard)]
  refine length_le_of_nodup h ?_
  intro i hi
  obtain ⟨g, -, rfl⟩ := List.mem_map.mp hi
  exact hn g

/-! ## Waiting for ever -/

theorem SMove.needs {free : UInt32 → Bool} {m m' : SessionMgr} {t t' : SThread} (h : SMove free m t t' m') {w : UInt32}
    (hw : Needs t w) (hf : free w = false) : t' = t := by
  cases hw with
  | remove =>
    cases h with
    | stay => rfl
    | removed hf' => rw [hf'] at hf; cases hf
  | add =>
    cases h with
    | wait => rfl
    | taken hf' => rw [hf'] at hf; cases hf
    | insert hf' => rw [hf'] at hf; cases hf

/-- C136. Threads that wait for one another (or for themselves) wait for ever, whatever the others do. -/
theorem C136_deadlock (mode : Mode) (shard : UInt32 → Nat) (progs : List SProg) (m : SessionMgr) (before after : List Nat) (s : List Nat)
    (hs : Entangled shard ((attending progs m).exec mode shard before) s) :
    ∀ i ∈ s, ((attending progs m).exec mode shard (before ++ after)).threads[i]? =
      ((attending progs m).exec mode shard before).threads[i]? := by
  rw [SPool.exec_append]
  have hp := (Attended.attending shard progs m).exec (mode := mode) before
  generalize (attending progs m).exec mode shard before = p at *
  induction after generalizing p with
  | nil => intro i _; rfl
  | cons n ns ih =>
    have hstep : ∀ i ∈ s, (p.stepAt mode shard n).threads[i]? = p.threads[i]? := by
      intro i hi
      by_cases hn : n = i
      · subst hn
        obtain ⟨t, w, j, u, g, h1, h2, h3, h4, h5, h6⟩ := hs n hi
        rcases SPool.stepAt_cases mode shard p n with e | ⟨t', ht', e⟩
        · rw [e]
        · rw [h1] at ht'; cases ht'
          have hf : p.free shard w = false := by
            rw [Bool.eq_false_iff]
            intro hf
            exact SPool.free_iff.mp hf j u h4 g h5 h6
          have hm := ((hp.wf n t h1).move mode (p.free shard) p.mgr).needs h2 hf
          rw [e]
          show (p.threads.set n _)[n]? = _
          rw [hm, h1]
          have hlt : n < p.threads.length := (List.getElem?_eq_some_iff.mp h1).1
          simp [hlt]
      · exact SPool.stepAt_other hn
    intro i hi
    refine (ih (p.stepAt mode shard n) ?_ (hp.step n) i hi).trans (hstep i hi)
    intro a ha
    obtain ⟨t, w, j, u, g, h1, h2, h3, h4, h5, h6⟩ := hs a ha
    exact ⟨t, w, j, u, g, (hstep a ha).trans h1, h2, h3, (hstep j h3).trans h4, h5, h6⟩

/-- C136. A thread that removes a session while it keeps the guard of that session, or of one that shares its lock, never
gets an answer. -/
theorem C136_remove_own (mode : Mode) (shard : UInt32 → Nat) (progs : List SProg) (m : SessionMgr) (before after : List Nat) (i : Nat)
    (held : List UInt32) (c : Option SessionThread) (id g : UInt32) (next : Bool → SProg)
    (ht : ((attending progs m).exec mode shard before).threads[i]? = some ⟨held, c, .remove id next⟩) (hg : g ∈ held)
    (hs : shard g = shard id) :
    ((attending progs m).exec mode shard (before ++ after)).threads[i]? = some ⟨held, c, .remove id next⟩ := by
  rw [← ht]
  refine C136_deadlock mode shard progs m before after [i] ?_ i (by simp)
  intro j hj
  obtain rfl := List.mem_singleton.mp hj
  exact ⟨_, id, j, _, g, ht, .remove, by simp, ht, List.mem_append_right _ hg, hs⟩

/-! ## Additions that cannot go on -/

/-- What stays as it is while a guard is kept that shares its lock with the next number. -/
structure Halted (shard : UInt32 → Nat) (n : UInt32) (i : Nat) (g : UInt32) (p q : SPool) : Prop where
  next : q.mgr.nextId = n
  guard : ∃ t, q.threads[i]? = some t ∧ g ∈ t.held
  before : ∀ t ∈ q.threads, NotYet n t
  adding : ∀ (j : Nat) held c token next, p.threads[j]? = some ⟨held, c, .add token next⟩ →
    ∃ c', q.threads[j]? = some ⟨held, c', .add token next⟩
  held : ∀ (j : Nat) t u, p.threads[j]? = some t → q.threads[j]? = some u → u.held.Sublist t.held

/-- C137. Suppose a guard is kept that shares its lock with the number the next session is to get, and no addition has
got past reading that number. Then, as long as the guard is kept (its holder does nothing more, or is itself adding a
session), no addition of any thread ever returns, or panics, or does anything: every thread adding goes on adding, the
next number stays what it is, and nobody is given another guard. -/
theorem C137_additions_stop (mode : Mode) (shard : UInt32 → Nat) (progs : List SProg) (m : SessionMgr) (before after : List Nat)
    (i : Nat) (t : SThread) (g n : UInt32) (p : SPool) (hp : p = (attending progs m).exec mode shard before)
    (ht : p.threads[i]? = some t) (hg : g ∈ t.held) (hn : p.mgr.nextId = n) (hs : shard g = shard n)
    (hb : ∀ u ∈ p.threads, NotYet n u) (hi : i ∉ after ∨ ∃ token next, t.prog = .add token next) :
    (p.exec mode shard after).mgr.nextId = n ∧
    (∀ (j : Nat) held c token next, p.threads[j]? = some ⟨held, c, .add token next⟩ →
      ∃ c', (p.exec mode shard after).threads[j]? = some ⟨held, c', .add token next⟩) ∧
    ∀ (j : Nat) t u, p.threads[j]? = some t → (p.exec mode shard after).threads[j]? = some u → u.held.Sublist t.held := by
  have hat : Attended shard p := by rw [hp]; exact (Attended.attending shard progs m).exec before
  clear hp
  have key : ∀ (after : List Nat) (q : SPool), (i ∉ after ∨ ∃ held c token next, p.threads[i]? = some ⟨held, c, .add token next⟩) →
      Attended shard q → Halted shard n i g p q → Halted shard n i g p (q.exec mode shard after) := by
    intro after
    induction after with
    | nil => intro q _ _ h; exact h
    | cons j js ih =>
      intro q hij ha h
      refine ih (q.stepAt mode shard j) (hij.imp_left fun h => by simp only [List.mem_cons, not_or] at h; exact h.2) (ha.step j) ?_
      rcases SPool.stepAt_cases mode shard q j with e | ⟨u, hu, e⟩
      · rw [e]; exact h
      have hm := (ha.wf j u hu).move mode (q.free shard) q.mgr
      have hbu := h.before u (List.mem_of_getElem? hu)
      have hfn : q.free shard n = false := by
        rw [Bool.eq_false_iff]
        intro hf
        obtain ⟨t, ht, hg⟩ := h.guard
        exact SPool.free_iff.mp hf i t ht g (List.mem_append_right _ hg) hs
      rw [e]
      generalize SThread.step mode (q.free shard) q.mgr u = r at *
      obtain ⟨u', m'⟩ := r
      dsimp only at hm ⊢
      have hadd : ∀ held c token next, u = ⟨held, c, .add token next⟩ → ∃ c', u' = ⟨held, c', .add token next⟩ := by
        rintro held c token next rfl
        cases hbu with
        | idle => cases hm; exact ⟨_, rfl⟩
        | made => cases hm; exact ⟨_, rfl⟩
        | keyed =>
          cases hm with
          | wait => exact ⟨_, rfl⟩
          | taken hf => rw [hf] at hfn; cases hfn
          | insert hf => rw [hf] at hfn; cases hfn
      have hheld : u'.held.Sublist u.held := by
        cases hbu with
        | idle =>
          cases hm with
          | ended => exact List.nil_sublist _
          | drop => exact List.erase_sublist
          | _ => exact List.Sublist.refl _
        | made => cases hm; exact List.Sublist.refl _
        | keyed =>
          cases hm with
          | wait => exact List.Sublist.refl _
          | taken hf => rw [hf] at hfn; cases hfn
          | insert hf => rw [hf] at hfn; cases hfn
      have hlt : j < q.threads.length := (List.getElem?_eq_some_iff.mp hu).1
      refine ⟨?_, ?_, ?_, ?_, ?_⟩
      · show m'.nextId = n
        rw [← h.next]
        cases hbu with
        | idle => cases hm <;> rfl
        | made => cases hm; rfl
        | keyed => cases hm <;> rfl
      · obtain ⟨t, ht, hg⟩ := h.guard
        by_cases hji : j = i
        · subst hji
          rcases hij with hij | ⟨held, c, token, next, hij⟩
          · exact absurd List.mem_cons_self hij
          · obtain ⟨c', hc'⟩ := h.adding j held c token next hij
            rw [hu] at ht hc'; cases ht; cases hc'
            obtain ⟨c', rfl⟩ := hadd _ _ _ _ rfl
            exact ⟨⟨held, c', .add token next⟩, by simp [hlt], hg⟩
        · exact ⟨t, by rw [List.getElem?_set_ne hji]; exact ht, hg⟩
      · intro x hx
        rcases List.mem_or_eq_of_mem_set hx with hx | rfl
        · exact h.before x hx
        · have hnx := h.next
          cases hbu with
          | idle =>
            cases hm with
            | make => exact .made
            | _ => exact .idle
          | made => cases hm; rw [hnx]; exact .keyed
          | keyed =>
            cases hm with
            | wait => exact .keyed
            | taken hf => rw [hf] at hfn; cases hfn
            | insert hf => rw [hf] at hfn; cases hfn
      · intro a held c token next hpa
        obtain ⟨c', hc'⟩ := h.adding a held c token next hpa
        by_cases hja : j = a
        · subst hja
          rw [hu] at hc'
          cases hc'
          obtain ⟨c'', rfl⟩ := hadd _ _ _ _ rfl
          exact ⟨c'', by simp [hlt]⟩
        · exact ⟨c', by rw [List.getElem?_set_ne hja]; exact hc'⟩
      · intro a x y hx hy
        rcases getElem?_set_cases hy with ⟨rfl, rfl⟩ | ⟨-, hy⟩
        · exact hheld.trans (h.held _ x u hx hu)
        · exact h.held a x y hx hy
  have h0 : Halted shard n i g p p :=
    ⟨hn, ⟨t, ht, hg⟩, hb, fun j held c token next h => ⟨c, h⟩, fun j t u h1 h2 => by rw [h1] at h2; cases h2; exact List.Sublist.refl _⟩
  have h := key after p (hi.imp_right fun ⟨token, next, e⟩ => ⟨t.held, t.call, token, next, by rw [ht, ← e]⟩) hat h0
  exact ⟨h.next, h.adding, h.held⟩

/-! ## When nobody waits for ever -/

/-- All threads make calls only while they keep no guard. -/
def AllConsiderate (p : SPool) : Prop := ∀ (i : Nat) t, p.threads[i]? = some t → Considerate t.held t.prog

theorem SMove.considerate {free : UInt32 → Bool} {m m' : SessionMgr} {t t' : SThread} (h : SMove free m t t' m')
    (hc : Considerate t.held t.prog) : Considerate t'.held t'.prog := by
  cases h with
  | ended => trivial
  | taken => trivial
  | overflow => trivial
  | finish =>
    obtain ⟨h1, h2⟩ := hc
    dsimp only at h1 ⊢
    subst h1
    exact h2 _ _
  | removed => exact hc.2 _
  | look => exact hc _
  | write => exact hc
  | skip => exact hc
  | drop => exact hc
  | _ => exact hc

/-- How far a thread is within an addition. -/
def SThread.rank (t : SThread) : Nat :=
  match t.call with
  | none => 5
  | some (.made _) => 4
  | some (.keyed _ _) => 3
  | some (.inserted _ _) => 2
  | some (.counted _ _) => 1
  | some _ => 0

/-- One step of a thread that goes on. -/
inductive Onward : SThread → SThread → Prop
  | within {held c c' token next} : SThread.rank ⟨held, c', .add token next⟩ < SThread.rank ⟨held, c, .add token next⟩ →
      Onward ⟨held, c', .add token next⟩ ⟨held, c, .add token next⟩
  | added {held held' c k s token next} : Onward ⟨held', none, next k s⟩ ⟨held, c, .add token next⟩
  | panicked {held c token next} : Onward ⟨[], none, .done⟩ ⟨held, c, .add token next⟩
  | removed {held c b id next} : Onward ⟨held, c, next b⟩ ⟨held, c, .remove id next⟩
  | look {held c o id next} : Onward ⟨held, c, next o⟩ ⟨held, c, .look id next⟩
  | write {held c id s next} : Onward ⟨held, c, next⟩ ⟨held, c, .write id s next⟩
  | drop {held held' c id next} : Onward ⟨held', c, next⟩ ⟨held, c, .drop id next⟩
  | ended {held c} : held ≠ [] → Onward ⟨[], none, .done⟩ ⟨held, c, .done⟩

theorem Onward.acc_done (held : List UInt32) (c : Option SessionThread) : Acc Onward ⟨held, c, .done⟩ := by
  refine ⟨_, fun t h => ?_⟩
  cases h with
  | ended => exact ⟨_, fun t h => by cases h with | ended h => exact absurd rfl h⟩

theorem Onward.acc (q : SProg) : ∀ held c, Acc Onward ⟨held, c, q⟩ := by
  induction q with
  | done => exact Onward.acc_done
  | add token next ih =>
    intro held c
    generalize hr : SThread.rank ⟨held, c, .add token next⟩ = r
    induction r using Nat.strongRecOn generalizing c with
    | _ r ihr =>
      refine ⟨_, fun t h => ?_⟩
      cases h with
      | within hlt => exact ihr _ (hr ▸ hlt) _ rfl
      | added => exact ih _ _ _ _
      | panicked => exact Onward.acc_done _ _
  | remove id next ih => intro held c; refine ⟨_, fun t h => ?_⟩; cases h with | removed => exact ih _ _ _
  | look id next ih => intro held c; refine ⟨_, fun t h => ?_⟩; cases h with | look => exact ih _ _ _
  | write id s next ih => intro held c; refine ⟨_, fun t h => ?_⟩; cases h with | write => exact ih _ _
  | drop id next ih => intro held c; refine ⟨_, fun t h => ?_⟩; cases h with | drop => exact ih _ _

theorem SMove.onward {free : UInt32 → Bool} {m m' : SessionMgr} {t t' : SThread} (h : SMove free m t t' m') (hd : ¬ Departed t)
    (hf : ∀ w, Needs t w → free w = true) : Onward t' t := by
  cases h with
  | ended => exact .ended fun e => hd ⟨rfl, e, rfl⟩
  | wait h => rw [hf _ .add] at h; cases h
  | stay h => rw [hf _ .remove] at h; cases h
  | taken => exact .panicked
  | overflow => exact .panicked
  | finish => exact .added
  | removed => exact .removed
  | look => exact .look
  | write => exact .write
  | skip => exact .write
  | drop => exact .drop
  | make => exact .within (by simp [SThread.rank])
  | key => exact .within (by simp [SThread.rank])
  | insert => exact .within (by simp [SThread.rank])
  | count => exact .within (by simp [SThread.rank])
  | read => exact .within (by simp [SThread.rank])

/-- One thread of a list goes on. -/
inductive SomeOnward : List SThread → List SThread → Prop
  | head {a b l} : Onward a b → SomeOnward (a :: l) (b :: l)
  | tail {a l l'} : SomeOnward l l' → SomeOnward (a :: l) (a :: l')

theorem SomeOnward.acc_cons {a : SThread} (ha : Acc Onward a) : ∀ {l}, Acc SomeOnward l → Acc SomeOnward (a :: l) := by
  induction ha with
  | intro a ha iha =>
    intro l hl
    induction hl with
    | intro l hl ihl =>
      refine ⟨_, fun l' h => ?_⟩
      cases h with
      | head h => exact iha _ h ⟨l, hl⟩
      | tail h => exact ihl _ h

theorem SomeOnward.acc (l : List SThread) : Acc SomeOnward l := by
  induction l with
  | nil => exact ⟨_, fun _ h => by cases h⟩
  | cons a l ih => exact SomeOnward.acc_cons (Onward.acc a.prog a.held a.call) ih

theorem SomeOnward.set {l : List SThread} {i : Nat} {t t' : SThread} (hi : l[i]? = some t) (h : Onward t' t) :
    SomeOnward (l.set i t') l := by
  induction l generalizing i with
  | nil => simp at hi
  | cons a l ih =>
    cases i with
    | zero =>
      simp only [List.getElem?_cons_zero, Option.some.injEq] at hi
      subst hi
      exact .head h
    | succ i =>
      simp only [List.getElem?_cons_succ] at hi
      exact .tail (ih hi)

/-- Some thread can go on, unless all have ended. -/
theorem Attended.able {shard : UInt32 → Nat} {p : SPool} (h : Attended shard p) (hc : AllConsiderate p)
    (hne : ¬ ∀ t ∈ p.threads, Departed t) :
    ∃ (i : Nat) (t : SThread), p.threads[i]? = some t ∧ ¬ Departed t ∧ ∀ w, Needs t w → p.free shard w = true := by
  by_cases hl : ∃ (i : Nat) (t : SThread), p.threads[i]? = some t ∧ t.locks ≠ []
  · -- a thread with a lock needs no other
    obtain ⟨i, t, ht, hlk⟩ := hl
    have hcon := hc i t ht
    refine ⟨i, t, ht, ?_, ?_⟩
    · rintro ⟨-, h1, h2⟩
      apply hlk
      simp [SThread.locks, h1, h2]
    · intro w hw
      exfalso
      apply hlk
      cases hw with
      | remove =>
        have hwf := h.wf i _ ht
        cases hwf
        obtain ⟨e, -⟩ := hcon
        dsimp only at e
        subst e; rfl
      | add =>
        obtain ⟨e, -⟩ := hcon
        dsimp only at e
        subst e; rfl
  · have hfree : ∀ w, p.free shard w = true := by
      intro w
      rw [SPool.free_iff]
      intro i t ht g hg
      exact absurd ⟨i, t, ht, fun e => by rw [e] at hg; cases hg⟩ hl
    have : ∃ t ∈ p.threads, ¬ Departed t := by
      apply Classical.byContradiction
      intro hno
      apply hne
      intro t ht
      apply Classical.byContradiction
      intro hd
      exact hno ⟨t, ht, hd⟩
    obtain ⟨t, ht, hd⟩ := this
    obtain ⟨i, hi⟩ := List.getElem?_of_mem ht
    exact ⟨i, t, hi, hd, fun w _ => hfree w⟩

theorem AllConsiderate.step {mode : Mode} {shard : UInt32 → Nat} {p : SPool} (h : Attended shard p) (hc : AllConsiderate p) (i : Nat) :
    AllConsiderate (p.stepAt mode shard i) := by
  rcases SPool.stepAt_cases mode shard p i with e | ⟨t, ht, e⟩
  · rw [e]; exact hc
  · rw [e]
    intro a x hx
    rcases getElem?_set_cases hx with ⟨rfl, rfl⟩ | ⟨-, hx⟩
    · exact ((h.wf _ t ht).move mode (p.free shard) p.mgr).considerate (hc _ t ht)
    · exact hc a x hx

theorem AllConsiderate.exec {mode : Mode} {shard : UInt32 → Nat} {p : SPool} (h : Attended shard p) (hc : AllConsiderate p)
    (sched : List Nat) : AllConsiderate (p.exec mode shard sched) := by
  induction sched generalizing p with
  | nil => exact hc
  | cons i is ih => exact ih (h.step i) (hc.step h i)

theorem AllConsiderate.finish {mode : Mode} {shard : UInt32 → Nat} (l : List SThread) (hacc : Acc SomeOnward l) : ∀ (p : SPool), p.threads = l →
    Attended shard p → AllConsiderate p → ∃ sched, ∀ t ∈ (p.exec mode shard sched).threads, Departed t := by
  induction hacc with
  | intro l _ ih =>
    intro p hp h hc
    by_cases he : ∀ t ∈ p.threads, Departed t
    · exact ⟨[], he⟩
    · obtain ⟨i, t, hi, hd, hw⟩ := h.able hc he
      have hm := ((h.wf i t hi).move mode (p.free shard) p.mgr).onward hd hw
      have hstep : (p.stepAt mode shard i).threads = p.threads.set i (t.step mode (p.free shard) p.mgr).1 := by
        simp only [SPool.stepAt, hi]
      obtain ⟨s, hs⟩ := ih _ (by rw [← hp]; exact SomeOnward.set hi hm) (p.stepAt mode shard i) hstep (h.step i) (hc.step h i)
      exact ⟨i :: s, hs⟩

/-- C138. If every thread makes calls only while it keeps no guard, then nobody waits for ever: however the threads have
gone on so far, they can go on so that all of them end. -/
theorem C138_can_finish (mode : Mode) (shard : UInt32 → Nat) (progs : List SProg) (hq : ∀ q ∈ progs, Considerate [] q) (m : SessionMgr)
    (sched : List Nat) : ∃ more, ∀ t ∈ ((attending progs m).exec mode shard (sched ++ more)).threads, Departed t := by
  have hc : AllConsiderate (attending progs m) := by
    intro i t ht
    simp only [attending, List.getElem?_map, Option.map_eq_some_iff] at ht
    obtain ⟨q, hqm, rfl⟩ := ht
    exact hq q (List.mem_of_getElem? hqm)
  have ha := Attended.attending shard progs m
  obtain ⟨more, hm⟩ := AllConsiderate.finish (mode := mode) _ (SomeOnward.acc _) _ rfl (ha.exec sched) (hc.exec (mode := mode) ha sched)
  exact ⟨more, by rw [SPool.exec_append]; exact hm⟩

/-! ## Concrete cases -/

/-- Two threads add a session each and keep the guards; the second writes through its own. -/
private def keepers : List SProg :=
  [.add [1] fun _ _ => .look 0 fun _ => .done, .add [2] fun k _ => .write k ⟨[3], 7⟩ (.look k fun _ => .done)]

private def twoAdds : List Nat := [0, 0, 0, 0, 0, 0, 1, 1, 1, 1, 1, 1, 1]

/-- Both hold a guard, of two entries (C135_guards, C135_protects, C135_at_most). -/
example : (((attending keepers (.new .new)).exec .debug (·.toNat % 2) twoAdds).threads.map fun t => t.held) = [[0], [1]] ∧
    ((attending keepers (.new .new)).exec .debug (·.toNat % 2) twoAdds).mgr.sessions 0 = some ⟨[1], 0⟩ ∧
    ((attending keepers (.new .new)).exec .debug (·.toNat % 2) twoAdds).mgr.sessions 1 = some ⟨[3], 7⟩ := by
  refine ⟨rfl, rfl, rfl⟩

example : ∀ id : UInt32, id.toNat % 2 < 2 := fun _ => Nat.mod_lt _ (by decide)

/-- The addition of the first thread returns with its sixth step (C135_returned). -/
example : ((attending keepers (.new .new)).exec .debug (·.toNat % 2) [0, 0, 0, 0, 0]).threads[0]? =
      some ⟨[], some (.advancing ⟨[1], 0⟩ 0 0), .add [1] fun _ _ => .look 0 fun _ => .done⟩ ∧
    ((attending keepers (.new .new)).exec .debug (·.toNat % 2) [0, 0, 0, 0, 0, 0]).threads[0]? =
      some ⟨[0], none, .look 0 fun _ => .done⟩ := ⟨rfl, rfl⟩

/-- A thread that removes the session it has just been given (C136_remove_own). -/
example (after : List Nat) : ((attending [.add [1] fun k _ => .remove k fun _ => .done] (.new .new)).exec .debug (·.toNat)
      ([0, 0, 0, 0, 0, 0] ++ after)).threads[0]? = some ⟨[0], none, .remove 0 fun _ => .done⟩ :=
  C136_remove_own .debug (·.toNat) _ _ [0, 0, 0, 0, 0, 0] after 0 [0] none 0 0 _ rfl (by simp) rfl

/-- Two threads that each keep a guard and remove the session of the other (C136_deadlock). -/
private def rivals : List SProg :=
  [.add [1] fun _ _ => .remove 1 fun _ => .done, .add [2] fun _ _ => .remove 0 fun _ => .done]

example : Entangled (·.toNat) ((attending rivals (.new .new)).exec .debug (·.toNat) [0, 0, 0, 0, 0, 0, 1, 1, 1, 1, 1, 1]) [0, 1] := by
  intro i hi
  rcases List.mem_cons.mp hi with rfl | hi
  · exact ⟨_, 1, 1, _, 1, rfl, .remove, by simp, rfl, .head _, rfl⟩
  · obtain rfl := List.mem_singleton.mp hi
    exact ⟨_, 0, 0, _, 0, rfl, .remove, by simp, rfl, .head _, rfl⟩

/-- One thread keeps the guard of session 0 and adds another, while a second thread adds one: if sessions 0 and 1 share a
lock, neither addition ever returns (C137_additions_stop). -/
private def hoarders : List SProg :=
  [.add [1] fun _ _ => .add [2] fun _ _ => .done, .add [3] fun k _ => .drop k .done]

example (after : List Nat) : ∃ c c',
    (((attending hoarders (.new .new)).exec .debug (fun _ => 0) [0, 0, 0, 0, 0, 0]).exec .debug (fun _ => 0) after).threads[0]? =
      some ⟨[0], c, .add [2] fun _ _ => .done⟩ ∧
    (((attending hoarders (.new .new)).exec .debug (fun _ => 0) [0, 0, 0, 0, 0, 0]).exec .debug (fun _ => 0) after).threads[1]? =
      some ⟨[], c', .add [3] fun k _ => .drop k .done⟩ := by
  obtain ⟨-, h, -⟩ := C137_additions_stop .debug (fun _ => 0) hoarders (.new .new) [0, 0, 0, 0, 0, 0] after 0
    ⟨[0], none, .add [2] fun _ _ => .done⟩ 0 1 _ rfl rfl (by simp) rfl rfl
    (by
      intro u hu
      have e : ((attending hoarders (.new .new)).exec .debug (fun _ => 0) [0, 0, 0, 0, 0, 0]).threads =
        [⟨[0], none, .add [2] fun _ _ => .done⟩, ⟨[], none, .add [3] fun k _ => .drop k .done⟩] := rfl
      rw [e] at hu
      rcases List.mem_cons.mp hu with rfl | hu
      · exact .idle
      · obtain rfl := List.mem_singleton.mp hu; exact .idle)
    (.inr ⟨[2], _, rfl⟩)
  obtain ⟨c, hc⟩ := h 0 [0] none [2] _ rfl
  obtain ⟨c', hc'⟩ := h 1 [] none [3] _ rfl
  exact ⟨c, c', hc, hc'⟩

/-- A thread that drops the guard before it removes the session (C138_can_finish). -/
example : Considerate [] (.add [1] fun k _ => .look k fun _ => .drop k (.remove k fun _ => .done)) := by
  refine ⟨rfl, fun k s o => ?_⟩
  show Considerate ([k].erase k) _
  rw [List.erase_cons_head]
  exact ⟨rfl, fun _ => trivial⟩

/-- Beside C135_written: the token of a session replaced through its guard while another thread tries to remove it. -/
example (between : List Nat) (hi : 0 ∉ between) :
    ((attending [.add [1] fun k _ => .write k ⟨[2], 9⟩ (.look k fun o => .add ((o.map Session.token).getD []) fun _ _ => .done),
      .remove 0 fun _ => .done] (.new .new)).exec .debug (·.toNat) ([0, 0, 0, 0, 0, 0] ++ [0] ++ between ++ [0])).threads[0]? =
      some ⟨[0], none, .add [2] fun _ _ => .done⟩ :=
  C135_written .debug (·.toNat) _ _ [0, 0, 0, 0, 0, 0] between 0 [0] none 0 ⟨[2], 9⟩
    (fun o => .add ((o.map Session.token).getD []) fun _ _ => .done) rfl (by simp) hi

end Hop
