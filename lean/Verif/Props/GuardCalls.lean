import Verif.Props.Guards
import Verif.Props.Store

/-! # C129: what the functions of the key space do while others hold guards -/

namespace Hop

open Spec

/-- Somebody, possibly the caller, holds a guard that keeps a lock from being taken: any guard of a key with the same
lock if it is to be exclusive, an exclusive one if it is to be shared. -/
def Spec.Barred (shard : Bytes → Nat) (p : GPool) (k : Bytes) (excl : Bool) : Prop :=
  ∃ t ∈ p.threads, ∃ g ∈ t.held, shard g.1 = shard k ∧ (excl = true ∨ g.2 = true)

/-- A call, and the lock it needs. -/
inductive Spec.NeedsLock (env : Env) : GProg → Bytes → Bool → Prop
  | containsKey {k next} : NeedsLock env (.containsKey k next) k false
  | keyType {k next} : NeedsLock env (.keyType k next) k false
  | insert {k v next} : NeedsLock env (.insert k v next) k true
  | remove {k next} : NeedsLock env (.remove k next) k true
  | keyRef {k next} : ¬ unusable env.mode k → NeedsLock env (.keyRef env k next) k false
  | keyMut {k next} : ¬ unusable env.mode k → NeedsLock env (.keyMut env k next) k true
  | keyOrInsertWith {k mk next} : ¬ unusable env.mode k → NeedsLock env (.keyOrInsertWith env k mk next) k true

theorem free_iff_barred {shard : Bytes → Nat} {p : GPool} {k : Bytes} {e : Bool} :
    p.free shard (k, e) = true ↔ ¬ Barred shard p k e := by
  simp only [GPool.free, List.all_eq_true, Bool.not_eq_true', conflicts, Barred]
  constructor
  · rintro h ⟨t, ht, g, hg, hk, he⟩
    have := h t ht g hg
    rw [hk] at this
    rcases he with he | he <;> simp [he] at this
  · intro h t ht g hg
    cases hc : (shard g.1 == shard k && (g.2 || e)) with
    | false => rfl
    | true =>
      simp only [Bool.and_eq_true, beq_iff_eq, Bool.or_eq_true] at hc
      exact absurd ⟨t, ht, g, hg, hc.1, hc.2.symm⟩ h

theorem usable_key {env : Env} {k : Bytes} (h : ¬ unusable env.mode k) : isInternal k = false ∧ ¬ (env.mode = .debug ∧ k = []) := by
  refine ⟨?_, fun e => h (.inr e)⟩
  cases hi : isInternal k with
  | false => rfl
  | true => exact absurd (.inl ((isInternal_iff k).mp hi)) h

section

variable {shard : Bytes → Nat} {p : GPool} {i : Nat} {held : List (Bytes × Bool)} {env : Env} {k : Bytes}

theorem NeedsLock.wants {q : GProg} {e : Bool} (h : NeedsLock env q k e) : q.wants = some (k, e) := by
  cases h with
  | containsKey | keyType | insert | remove => rfl
  | keyRef h => obtain ⟨h1, h2⟩ := usable_key h; simp only [GProg.keyRef, h1, if_neg h2]; rfl
  | keyMut h => obtain ⟨h1, h2⟩ := usable_key h; simp only [GProg.keyMut, h1, if_neg h2]; rfl
  | keyOrInsertWith h => obtain ⟨h1, h2⟩ := usable_key h; simp only [GProg.keyOrInsertWith, h1, if_neg h2]; rfl

/-- C129. A call whose lock is kept by some guard waits: nothing happens. -/
theorem C129_waits {q : GProg} {e : Bool} (hi : p.threads[i]? = some ⟨held, q⟩) (ha : NeedsLock env q k e) (hb : Barred shard p k e) :
    p.stepAt shard i = p := by
  have hf : p.free shard (k, e) = false := by
    cases h : p.free shard (k, e) with
    | false => rfl
    | true => exact absurd hb (free_iff_barred.mp h)
  simp only [GPool.stepAt, hi, NeedsLock.wants ha, Option.map_some, Option.getD_some, hf]
  rfl

theorem stepAt_of_free {q : GProg} {e : Bool} (hi : p.threads[i]? = some ⟨held, q⟩) (hw : q.wants = some (k, e)) (hb : ¬ Barred shard p k e) :
    p.stepAt shard i = { threads := p.threads.set i (GThread.step ⟨held, q⟩ p.db).1, db := (GThread.step ⟨held, q⟩ p.db).2 } :=
  GPool.stepAt_free hi fun w h => by rw [hw] at h; cases h; exact free_iff_barred.mpr hb

/-- C129. Otherwise `contains_key`, `key_type`, `insert` and `remove` do all their work in one step, and keep no guard. -/
theorem C129_short :
    (∀ next, p.threads[i]? = some ⟨held, .containsKey k next⟩ → ¬ Barred shard p k false →
      p.stepAt shard i = { threads := p.threads.set i ⟨held, next (p.db.keys k).isSome⟩, db := p.db }) ∧
    (∀ next, p.threads[i]? = some ⟨held, .keyType k next⟩ → ¬ Barred shard p k false →
      p.stepAt shard i = { threads := p.threads.set i ⟨held, next ((p.db.keys k).map Value.kind)⟩, db := p.db }) ∧
    (∀ v next, p.threads[i]? = some ⟨held, .insert k v next⟩ → ¬ Barred shard p k true →
      p.stepAt shard i = { threads := p.threads.set i ⟨held, next (p.db.keys k)⟩, db := p.db.setKey k (some v) }) ∧
    ∀ next, p.threads[i]? = some ⟨held, .remove k next⟩ → ¬ Barred shard p k true →
      p.stepAt shard i = { threads := p.threads.set i ⟨held, next (p.db.keys k)⟩, db := p.db.setKey k none } :=
  ⟨fun _ hi hb => stepAt_of_free hi rfl hb, fun _ hi hb => stepAt_of_free hi rfl hb, fun _ _ hi hb => stepAt_of_free hi rfl hb,
    fun _ hi hb => stepAt_of_free hi rfl hb⟩

/-- C129. `key_ref` gives a shared guard of an existing key, `key_mut` an exclusive one; for a missing key there is no guard. -/
theorem C129_guards (hu : ¬ unusable env.mode k) :
    (∀ next, p.threads[i]? = some ⟨held, .keyRef env k next⟩ → ¬ Barred shard p k false →
      p.stepAt shard i =
        { threads := p.threads.set i ⟨if (p.db.keys k).isSome then (k, false) :: held else held, next (p.db.keys k)⟩, db := p.db }) ∧
    ∀ next, p.threads[i]? = some ⟨held, .keyMut env k next⟩ → ¬ Barred shard p k true →
      p.stepAt shard i =
        { threads := p.threads.set i ⟨if (p.db.keys k).isSome then (k, true) :: held else held, next (p.db.keys k)⟩, db := p.db } := by
  obtain ⟨h1, h2⟩ := usable_key hu
  refine ⟨fun next hi hb => ?_, fun next hi hb => ?_⟩
  · rw [stepAt_of_free hi (NeedsLock.wants (.keyRef hu)) hb]
    rw [GProg.keyRef, h1, if_neg (by simp), if_neg h2]
    simp only [GThread.step]
    cases p.db.keys k <;> rfl
  · rw [stepAt_of_free hi (NeedsLock.wants (.keyMut hu)) hb]
    rw [GProg.keyMut, h1, if_neg (by simp), if_neg h2]
    simp only [GThread.step]
    cases p.db.keys k <;> rfl

/-- C129. For a reserved key, and in debug builds the empty one, the three functions that hand out guards panic: the
thread ends, drops its guards and has changed nothing. -/
theorem C129_unusable (hu : unusable env.mode k) {q : GProg}
    (hq : (∃ next, q = .keyRef env k next) ∨ (∃ next, q = .keyMut env k next) ∨ ∃ mk next, q = .keyOrInsertWith env k mk next)
    (hi : p.threads[i]? = some ⟨held, q⟩) : p.stepAt shard i = { p with threads := p.threads.set i ⟨[], .done⟩ } := by
  have : q = .done := by
    by_cases hk : isInternal k = true
    · rcases hq with ⟨_, rfl⟩ | ⟨_, rfl⟩ | ⟨_, _, rfl⟩
      · rw [GProg.keyRef, if_pos hk]
      · rw [GProg.keyMut, if_pos hk]
      · rw [GProg.keyOrInsertWith, if_pos hk]
    · have h2 : env.mode = .debug ∧ k = [] := by
        rcases hu with h | h
        · exact absurd ((isInternal_iff k).mpr h) hk
        · exact h
      rcases hq with ⟨_, rfl⟩ | ⟨_, rfl⟩ | ⟨_, _, rfl⟩
      · rw [GProg.keyRef, if_neg hk, if_pos h2]
      · rw [GProg.keyMut, if_neg hk, if_pos h2]
      · rw [GProg.keyOrInsertWith, if_neg hk, if_pos h2]
  subst this
  exact GPool.stepAt_free hi (fun w h => by cases h)

/-- C129. Through a guard one sees the entry, through an exclusive one it can be replaced, and dropping gives up one
guard of the key; none of this waits. -/
theorem C129_use :
    (∀ e next, (k, e) ∈ held → p.threads[i]? = some ⟨held, .look k next⟩ →
      p.stepAt shard i = { p with threads := p.threads.set i ⟨held, next (p.db.keys k)⟩ }) ∧
    (∀ v next, (k, true) ∈ held → p.threads[i]? = some ⟨held, .write k v next⟩ →
      p.stepAt shard i = { threads := p.threads.set i ⟨held, next⟩, db := p.db.setKey k (some v) }) ∧
    ∀ e before after next, held = before ++ (k, e) :: after → (∀ g ∈ before, g.1 ≠ k) → p.threads[i]? = some ⟨held, .drop k next⟩ →
      p.stepAt shard i = { p with threads := p.threads.set i ⟨before ++ after, next⟩ } := by
  refine ⟨fun e next hg hi => ?_, fun v next hg hi => ?_, fun e before after next hh hb hi => ?_⟩
  · rw [GPool.stepAt_free hi (fun w h => by cases h)]
    have : held.any (·.1 == k) = true := List.any_eq_true.mpr ⟨_, hg, by simp⟩
    simp only [GThread.step, this, if_true]
  · rw [GPool.stepAt_free hi (fun w h => by cases h)]
    have : held.contains (k, true) = true := by simpa using hg
    simp only [GThread.step, this, if_true]
  · rw [GPool.stepAt_free hi (fun w h => by cases h)]
    subst hh
    simp only [GThread.step]
    rw [List.eraseP_append_right _ (by intro g hg; simpa using hb g hg)]
    simp

end

/-! ## `key_or_insert_with` -/

/-- Where a thread inside `key_or_insert_with` is: about to look, or about to store after it has found nothing. -/
inductive Looping (k : Bytes) (mk : Value) (next : Value → GProg) : Nat → GProg → Prop
  | looking {n m} : n ≤ m → Looping k mk next n (.orInsert k mk next (m + 1))
  | storing {n m} : n ≤ m → Looping k mk next n (.access k true (fun _ => some mk) fun _ => .orInsert k mk next m)

section

variable {shard : Bytes → Nat} {env : Env} {k : Bytes} {mk : Value} {next : Value → GProg}

theorem Looping.step {n : Nat} {q : GProg} (h : Looping k mk next (n + 1) q) {p : GPool} {i : Nat} {held : List (Bytes × Bool)}
    (hi : p.threads[i]? = some ⟨held, q⟩) :
    ((p.stepAt shard i).db = p.db ∨ (p.stepAt shard i).db = p.db.setKey k (some mk)) ∧
    ((∃ v, p.db.keys k = some v ∧ (p.stepAt shard i).threads[i]? = some ⟨(k, true) :: held, next v⟩ ∧ (p.stepAt shard i).db = p.db) ∨
      ∃ q', Looping k mk next n q' ∧ (p.stepAt shard i).threads[i]? = some ⟨held, q'⟩) := by
  have hlt : i < p.threads.length := by rw [List.getElem?_eq_some_iff] at hi; exact hi.1
  have down : Looping k mk next n q := by
    cases h with
    | looking h => exact .looking (by omega)
    | storing h => exact .storing (by omega)
  rcases GPool.stepAt_cases shard p i with e | ⟨t, ht, -, e⟩
  · rw [e]; exact ⟨.inl rfl, .inr ⟨q, down, hi⟩⟩
  · rw [hi] at ht
    cases ht
    rw [e]
    cases h with
    | @looking m hm =>
      simp only [GProg.orInsert, GThread.step]
      cases hk : p.db.keys k with
      | none => exact ⟨.inl rfl, .inr ⟨_, .storing (m := m) (by omega), by simp [hlt]⟩⟩
      | some v => exact ⟨.inl rfl, .inl ⟨v, rfl, by simp [hlt], rfl⟩⟩
    | @storing m hm =>
      simp only [GThread.step, if_true]
      obtain ⟨m, rfl⟩ : ∃ m', m = m' + 1 := ⟨m - 1, by omega⟩
      exact ⟨.inr trivial, .inr ⟨_, .looking (m := m) (by omega), by simp [hlt]⟩⟩

/-- C129. A thread that calls `key_or_insert_with`, whatever others do: until it has its guard, each of its steps changes nothing or
stores the default; it gets an exclusive guard, and the value under it, in a step that finds the key. -/
theorem C129_or_insert (hu : ¬ unusable env.mode k) (p : GPool) (i : Nat) (held : List (Bytes × Bool))
    (hi : p.threads[i]? = some ⟨held, .keyOrInsertWith env k mk next⟩) (sched : List Nat) (hn : sched.count i ≤ env.spins) :
    (∃ before after v, sched = before ++ i :: after ∧ (p.exec shard before).db.keys k = some v ∧
      (p.exec shard (before ++ [i])).threads[i]? = some ⟨(k, true) :: held, next v⟩ ∧
      (p.exec shard (before ++ [i])).db = (p.exec shard before).db) ∨
    ((∃ q, (p.exec shard sched).threads[i]? = some ⟨held, q⟩) ∧ ∀ before after, sched = before ++ i :: after →
      (p.exec shard (before ++ [i])).db = (p.exec shard before).db ∨
      (p.exec shard (before ++ [i])).db = (p.exec shard before).db.setKey k (some mk)) := by
  obtain ⟨h1, h2⟩ := usable_key hu
  have key : ∀ (sched : List Nat) (n : Nat) (p : GPool) q, Looping k mk next n q → p.threads[i]? = some ⟨held, q⟩ → sched.count i ≤ n →
      (∃ before after v, sched = before ++ i :: after ∧ (p.exec shard before).db.keys k = some v ∧
        (p.exec shard (before ++ [i])).threads[i]? = some ⟨(k, true) :: held, next v⟩ ∧
        (p.exec shard (before ++ [i])).db = (p.exec shard before).db) ∨
      ((∃ q, (p.exec shard sched).threads[i]? = some ⟨held, q⟩) ∧ ∀ before after, sched = before ++ i :: after →
        (p.exec shard (before ++ [i])).db = (p.exec shard before).db ∨
        (p.exec shard (before ++ [i])).db = (p.exec shard before).db.setKey k (some mk)) := by
    intro sched
    induction sched with
    | nil =>
      intro n p q _ hi _
      exact .inr ⟨⟨q, hi⟩, fun b a e => by cases b <;> cases e⟩
    | cons j s ih =>
      intro n p q hl hi hn
      by_cases hj : j = i
      · subst hj
        rw [List.count_cons_self] at hn
        obtain ⟨n, rfl⟩ : ∃ n', n = n' + 1 := ⟨n - 1, by omega⟩
        obtain ⟨hd, ⟨v, h3, h4, h5⟩ | ⟨q', h3, h4⟩⟩ := hl.step (shard := shard) hi
        · exact .inl ⟨[], s, v, rfl, h3, h4, h5⟩
        · rcases ih n _ q' h3 h4 (by omega) with ⟨b, a, v, e, h⟩ | ⟨h, hs⟩
          · exact .inl ⟨j :: b, a, v, by rw [e]; rfl, h⟩
          · refine .inr ⟨h, fun b a e => ?_⟩
            cases b with
            | nil => exact hd
            | cons x b => cases e; exact hs b a rfl
      · rw [List.count_cons_of_ne hj] at hn
        rcases ih n (p.stepAt shard j) q hl (by rw [GPool.stepAt_other hj]; exact hi) hn with ⟨b, a, v, e, h⟩ | ⟨h, hs⟩
        · exact .inl ⟨j :: b, a, v, by rw [e]; rfl, h⟩
        · refine .inr ⟨h, fun b a e => ?_⟩
          cases b with
          | nil => cases e; exact absurd rfl hj
          | cons x b => cases e; exact hs b a rfl
  refine key sched env.spins p _ ?_ hi hn
  rw [GProg.keyOrInsertWith, h1, if_neg (by simp), if_neg h2]
  exact .looking (by omega)

/-- C129. If nobody is in the way and others are idle, it gets its guard at once if the key exists, and otherwise after it has
stored the default. -/
theorem C129_or_insert_alone (hu : ¬ unusable env.mode k) (p : GPool) (i : Nat) (held : List (Bytes × Bool))
    (hi : p.threads[i]? = some ⟨held, .keyOrInsertWith env k mk next⟩) (hb : ¬ Barred shard p k true) :
    (∀ v, p.db.keys k = some v → p.exec shard [i] = { p with threads := p.threads.set i ⟨(k, true) :: held, next v⟩ }) ∧
    (p.db.keys k = none → p.exec shard [i, i, i] =
      { threads := p.threads.set i ⟨(k, true) :: held, next mk⟩, db := p.db.setKey k (some mk) }) := by
  have hlt : i < p.threads.length := by rw [List.getElem?_eq_some_iff] at hi; exact hi.1
  obtain ⟨h1, h2⟩ := usable_key hu
  have hw := NeedsLock.wants (NeedsLock.keyOrInsertWith (mk := mk) (next := next) hu)
  have hq : GProg.keyOrInsertWith env k mk next = .orInsert k mk next (env.spins + 1 + 1) := by
    rw [GProg.keyOrInsertWith, h1, if_neg (by simp), if_neg h2]
  have e1 := stepAt_of_free hi hw hb
  rw [hq] at e1
  rw [GProg.orInsert] at e1
  simp only [GThread.step] at e1
  refine ⟨fun v hv => ?_, fun hv => ?_⟩
  · simp only [GPool.exec, e1, hv]
  · rw [hv] at e1
    have still : ∀ (q : GProg) (db : Db), ¬ Barred shard { threads := p.threads.set i ⟨held, q⟩, db := db } k true := by
      rintro q db ⟨t, ht, g, hg, h⟩
      rcases List.mem_or_eq_of_mem_set ht with h' | rfl
      · exact hb ⟨t, h', g, hg, h⟩
      · exact hb ⟨_, List.mem_of_getElem? hi, g, hg, h⟩
    simp only [GPool.exec]
    rw [e1]
    rw [stepAt_of_free (e := true) (k := k) (held := held) (q := .access k true (fun _ => some mk) fun _ => .orInsert k mk next (env.spins + 1))
      (by simp [hlt]) rfl (still _ _)]
    simp only [GThread.step, List.set_set, if_true]
    rw [stepAt_of_free (e := true) (k := k) (held := held) (q := .orInsert k mk next (env.spins + 1))
      (by simp [hlt]) rfl (still _ _)]
    rw [GProg.orInsert]
    simp only [GThread.step, List.set_set]
    have : (p.db.setKey k (some mk)).keys k = some mk := by simp [Db.setKey]
    rw [this]

end

/-! ## Concrete cases -/

/-- A thread keeps a mutable guard of one key; another, for a missing key with another lock, gets one after it has created
it, and waits as long as the lock is the same. -/
example : let p : GPool := { threads := [⟨[([1], true)], .write [1] (.integer 6) .done⟩,
        ⟨[], .keyOrInsertWith (sampleEnv .debug) [1, 2] (.integer 0) fun v => .write [1, 2] v .done⟩], db := sampleDb [([1], .integer 5)] }
    ¬ Barred List.length p [1, 2] true ∧ Barred (fun _ => 0) p [1, 2] true ∧ ¬ unusable .debug [1, 2] ∧
    (p.exec List.length [1, 1, 1]).db.keys [1, 2] = some (.integer 0) ∧ (p.exec (fun _ => 0) [1, 1, 1]).db.keys [1, 2] = none := by
  refine ⟨?_, ?_, by decide +kernel, rfl, rfl⟩
  · rintro ⟨t, ht, g, hg, h, -⟩
    simp only [List.mem_cons, List.not_mem_nil, or_false] at ht
    rcases ht with rfl | rfl
    · simp only [List.mem_singleton] at hg
      subst hg
      exact absurd h (by decide)
    · cases hg
  · exact ⟨_, .head _, _, .head _, rfl, .inl rfl⟩

/-- A thread that keeps an exclusive guard of one key, beside one with something else to do. -/
private def besides (q : GProg) : GPool :=
  { threads := [⟨[([1], true)], .write [1] (.integer 6) .done⟩, ⟨[], q⟩], db := sampleDb [([1], .integer 5), ([1, 2], .boolean true)] }

private theorem besides_open (q : GProg) (k : Bytes) (hk : k.length ≠ 1) (e : Bool) : ¬ Barred List.length (besides q) k e := by
  rintro ⟨t, ht, g, hg, h, -⟩
  simp only [besides, List.mem_cons, List.not_mem_nil, or_false] at ht
  rcases ht with rfl | rfl
  · simp only [List.mem_singleton] at hg
    subst hg
    exact hk h.symm
  · cases hg

private theorem besides_barred (q : GProg) (k : Bytes) (e : Bool) : Barred (fun _ => 0) (besides q) k e :=
  ⟨_, List.mem_cons_self, ([1], true), List.mem_cons_self, rfl, Or.inr rfl⟩

/-- A guard of a key with another lock. -/
example : (besides (.keyRef (sampleEnv .debug) [1, 2] fun _ => .done)).stepAt List.length 1 =
    { besides .done with threads := [⟨[([1], true)], .write [1] (.integer 6) .done⟩, ⟨[([1, 2], false)], .done⟩] } :=
  (C129_guards (env := sampleEnv .debug) (k := [1, 2]) (by decide)).1 (fun _ => .done) rfl (besides_open _ _ (by decide) _)

/-- A key with another lock that is missing. -/
example : (besides (.keyOrInsertWith (sampleEnv .debug) [1, 2, 3] (.integer 0) fun _ => .done)).exec List.length [1, 1, 1] =
    { threads := [⟨[([1], true)], .write [1] (.integer 6) .done⟩, ⟨[([1, 2, 3], true)], .done⟩],
      db := (sampleDb [([1], .integer 5), ([1, 2], .boolean true)]).setKey [1, 2, 3] (some (.integer 0)) } :=
  (C129_or_insert_alone (env := sampleEnv .debug) (by decide) _ 1 [] rfl (besides_open _ _ (by decide) _)).2 rfl

/-- In any schedule in which it does not give up. -/
example (sched : List Nat) (hn : sched.count 1 ≤ (sampleEnv .debug).spins) :
    let p := besides (.keyOrInsertWith (sampleEnv .debug) [1, 2] (.integer 0) fun _ => .done)
    (∃ before after v, sched = before ++ 1 :: after ∧ (p.exec (fun _ => 0) before).db.keys [1, 2] = some v) ∨
      ∃ q, (p.exec (fun _ => 0) sched).threads[1]? = some ⟨[], q⟩ := by
  rcases C129_or_insert (shard := fun _ => 0) (env := sampleEnv .debug) (by decide)
    (besides (.keyOrInsertWith (sampleEnv .debug) [1, 2] (.integer 0) fun _ => .done)) 1 [] rfl sched hn with ⟨b, a, v, h1, h2, -⟩ | ⟨h, -⟩
  · exact .inl ⟨b, a, v, h1, h2⟩
  · exact .inr h

/-- A reserved key. -/
example : (besides (.keyMut (sampleEnv .debug) (ascii "__hop__:a") fun _ => .done)).stepAt (fun _ => 0) 1 =
    { besides .done with threads := [⟨[([1], true)], .write [1] (.integer 6) .done⟩, ⟨[], .done⟩] } :=
  C129_unusable (env := sampleEnv .debug) (k := ascii "__hop__:a") (by decide) (.inr (.inl ⟨fun _ => .done, rfl⟩)) rfl

/-- A key with the same lock. -/
example : let p := besides (.insert [1, 2] (.integer 6) fun _ => .done); p.stepAt (fun _ => 0) 1 = p :=
  C129_waits (env := sampleEnv .debug) (i := 1) (held := []) rfl .insert (besides_barred _ _ _)

end Hop
