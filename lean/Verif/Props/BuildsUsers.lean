import Verif.Props.BuildsAround
import Verif.Spec.Users

/-!
# Users of one engine in debug and release builds (C205)
-/

namespace Hop

open Prog Spec

/-- The call has panicked. -/
def Spec.HopPanicked : HopThread → Bool
  | .command (.done .panic) => true
  | .session .panicked => true
  | _ => false

/-- Two calls at the same point, as far as others can see. -/
private inductive HopAlike : HopThread → HopThread → Prop
  | command {p q : Prog Bytes} : UntilBad Panicked p q → HopAlike (.command p) (.command q)
  | same {t : HopThread} : (∀ p, t ≠ .command p) → HopAlike t t

private theorem HopAlike.start (env : Env) (c : HopCall) : HopAlike (c.thread (builtAs env .debug)) (c.thread (builtAs env .release)) := by
  cases c with
  | dispatch r resp => exact .command (agree_dispatch env r resp)
  | _ => exact .same (fun _ h => by cases h)

private theorem HopAlike.ended {t u : HopThread} (h : HopAlike t u) (hp : HopPanicked t = false) : (HopEnded t = true → u = t) ∧ HopEnded u = HopEnded t := by
  cases h with
  | same h => exact ⟨fun _ => rfl, rfl⟩
  | command h =>
    cases h with
    | bad h => cases h; cases hp
    | same r => exact ⟨fun _ => rfl, rfl⟩
    | onKey => exact ⟨fun h => (by cases h), rfl⟩
    | onCtr => exact ⟨fun h => (by cases h), rfl⟩

private theorem HopAlike.holds {t u : HopThread} (h : HopAlike t u) : (∀ s, t = .session s ↔ u = .session s) ∧ ∀ s, t = .pubsub s ↔ u = .pubsub s := by
  cases h with
  | same h => exact ⟨fun _ => Iff.rfl, fun _ => Iff.rfl⟩
  | command h => exact ⟨fun _ => ⟨fun h => (by cases h), fun h => (by cases h)⟩, fun _ => ⟨fun h => (by cases h), fun h => (by cases h)⟩⟩

private theorem session_alike (free : UInt32 → Bool) (m : SessionMgr) (t : SessionThread) :
    (t.step .debug free m).1 = .panicked ∨ t.step .debug free m = t.step .release free m := by
  cases t with
  | inserted s k =>
    simp only [SessionThread.step]
    rcases increment_alike m.metrics .sessionsStarted with h | h
    · rw [h]; exact .inl rfl
    · rw [← h]; exact .inr rfl
  | _ => exact .inr rfl

private theorem HopAlike.step {t u : HopThread} (h : HopAlike t u) {sf pf : UInt32 → Bool} {e : HopEngine}
    (hp : HopPanicked (t.step .debug sf pf e).1 = false) :
    HopAlike (t.step .debug sf pf e).1 (u.step .release sf pf e).1 ∧ (u.step .release sf pf e).2 = (t.step .debug sf pf e).2 := by
  cases h with
  | @command p q h =>
    simp only [HopThread.step] at hp ⊢
    have hs := h.step (db := e.db) fun r hr he => by cases hr; rw [he] at hp; cases hp
    exact ⟨.command hs.1, by rw [hs.2]⟩
  | same h =>
    cases t with
    | command p => exact (h p rfl).elim
    | session t =>
      simp only [HopThread.step] at hp ⊢
      rcases session_alike sf e.mgr t with hs | hs
      · rw [hs] at hp; cases hp
      · rw [← hs]; exact ⟨.same fun _ h => (by cases h), rfl⟩
    | _ => exact ⟨.same fun _ h => (by cases h), rfl⟩

/-- Two users who have made the same calls, with the same answers, and are at the same point. -/
private def UserAlike (u v : UserState) : Prop :=
  v.user = u.user ∧ v.past = u.past ∧ ((u.now = none ∧ v.now = none) ∨ ∃ c t t', u.now = some (c, t) ∧ v.now = some (c, t') ∧ HopAlike t t')

/-- The same of all users, and of the engine. -/
private def PoolAlike (p q : UserPool) : Prop :=
  q.engine = p.engine ∧ ∀ i : Nat, (p.users[i]? = none ∧ q.users[i]? = none) ∨ ∃ u v, p.users[i]? = some u ∧ q.users[i]? = some v ∧ UserAlike u v

private theorem all_alike {p q : UserPool} (h : PoolAlike p q) {g : HopThread → Bool} (hg : ∀ t u, HopAlike t u → g u = g t) :
    q.atWork.threads.all g = p.atWork.threads.all g := by
  have : ∀ l : List UserState, (l.filterMap fun u => u.now.map (·.2)).all g = (l.map fun u => (u.now.map fun x => g x.2).getD true).all id := by
    intro l
    induction l with
    | nil => rfl
    | cons u l ih =>
      cases hu : u.now with
      | none => simp only [List.filterMap_cons, hu, Option.map_none, List.map_cons, Option.getD_none, List.all_cons, id, Bool.true_and]; exact ih
      | some x => simp only [List.filterMap_cons, hu, Option.map_some, List.map_cons, Option.getD_some, List.all_cons, id]; rw [ih]
  simp only [UserPool.atWork]
  rw [this, this]
  congr 1
  refine List.ext_getElem? fun i => ?_
  simp only [List.getElem?_map]
  rcases h.2 i with ⟨h1, h2⟩ | ⟨u, v, h1, h2, -, -, ha⟩
  · rw [h1, h2]
  · rw [h1, h2]
    rcases ha with ⟨h3, h4⟩ | ⟨c, t, t', h3, h4, ht⟩
    · simp only [Option.map_some, h3, h4]
    · simp only [Option.map_some, h3, h4, Option.getD_some, hg t t' ht]

private theorem free_alike {p q : UserPool} (h : PoolAlike p q) (shard : UInt32 → Nat) :
    q.atWork.sessionFree = p.atWork.sessionFree ∧ q.atWork.pubsubFree shard = p.atWork.pubsubFree shard := by
  refine ⟨funext fun id => all_alike h fun t u ht => ?_, funext fun id => all_alike h fun t u ht => ?_⟩ <;> cases ht <;> rfl

/-- Some call has panicked. -/
private def AnyPanicked (p : UserPool) : Prop := ∃ (i : Nat) (u : UserState), p.users[i]? = some u ∧ ∃ x ∈ u.made, HopPanicked x.2 = true

private theorem panicked_step {mode : Mode} {sf pf : UInt32 → Bool} {e : HopEngine} {t : HopThread} (h : HopPanicked t = true) :
    (t.step mode sf pf e).1 = t := by
  unfold HopPanicked at h
  split at h
  · rfl
  · rfl
  · cases h

private theorem anyPanicked_step {env : Env} {shard : UInt32 → Nat} {p : UserPool} (j : Nat) (h : AnyPanicked p) : AnyPanicked (p.stepAt env shard j) := by
  obtain ⟨i, u, hi, x, hx, hp⟩ := h
  simp only [UserPool.stepAt]
  cases hj : p.users[j]? with
  | none => exact ⟨i, u, hi, x, hx, hp⟩
  | some w =>
    simp only []
    by_cases hij : j = i
    · subst hij
      rw [hi, Option.some.injEq] at hj
      subst hj
      have hlt := (List.getElem?_eq_some_iff.mp hi).1
      cases hn : u.now with
      | none =>
        simp only []
        cases u.user u.past with
        | none => exact ⟨j, u, hi, x, hx, hp⟩
        | some c =>
          refine ⟨j, _, List.getElem?_set_self hlt, x, ?_, hp⟩
          simp only [UserState.made, hn, Option.toList_none, List.append_nil] at hx ⊢
          exact List.mem_append_left _ hx
      | some y =>
        refine ⟨j, _, List.getElem?_set_self hlt, ?_⟩
        simp only [UserState.made, hn, Option.toList_some, List.mem_append, List.mem_singleton] at hx
        rcases hx with hx | hx
        · refine ⟨x, ?_, hp⟩
          split
          · exact List.mem_append_left _ (List.mem_append_left _ hx)
          · exact List.mem_append_left _ hx
        · subst hx
          refine ⟨x, ?_, hp⟩
          rw [panicked_step hp]
          split
          · exact List.mem_append_left _ (List.mem_append_right _ (List.mem_singleton.mpr rfl))
          · exact List.mem_append_right _ (List.mem_singleton.mpr rfl)
    · cases hn : w.now with
      | none =>
        simp only []
        cases w.user w.past with
        | none => exact ⟨i, u, hi, x, hx, hp⟩
        | some c => exact ⟨i, u, by simp only [List.getElem?_set_ne hij]; exact hi, x, hx, hp⟩
      | some y => exact ⟨i, u, by simp only [List.getElem?_set_ne hij]; exact hi, x, hx, hp⟩

private theorem poolAlike_step (env : Env) (shard : UInt32 → Nat) {p q : UserPool} (h : PoolAlike p q) (j : Nat)
    (hp : ¬ AnyPanicked (p.stepAt (builtAs env .debug) shard j)) :
    PoolAlike (p.stepAt (builtAs env .debug) shard j) (q.stepAt (builtAs env .release) shard j) := by
  obtain ⟨hf1, hf2⟩ := free_alike h shard
  obtain ⟨he, hu⟩ := h
  rcases hu j with ⟨h1, h2⟩ | ⟨u, v, h1, h2, hw, hpast, hnow⟩
  · simp only [UserPool.stepAt, h1, h2]; exact ⟨he, hu⟩
  · have hjp := (List.getElem?_eq_some_iff.mp h1).1
    have hjq := (List.getElem?_eq_some_iff.mp h2).1
    have hset : ∀ {u' v' : UserState}, UserAlike u' v' → ∀ i : Nat, ((p.users.set j u')[i]? = none ∧ (q.users.set j v')[i]? = none) ∨
        ∃ a b, (p.users.set j u')[i]? = some a ∧ (q.users.set j v')[i]? = some b ∧ UserAlike a b := by
      intro u' v' ha i
      by_cases hij : j = i
      · subst hij; exact .inr ⟨_, _, List.getElem?_set_self hjp, List.getElem?_set_self hjq, ha⟩
      · simp only [List.getElem?_set_ne hij]; exact hu i
    rcases hnow with ⟨h3, h4⟩ | ⟨c, t, t', h3, h4, ht⟩
    · simp only [UserPool.stepAt, h1, h2, h3, h4, hw, hpast]
      cases u.user u.past with
      | none => exact ⟨he, hu⟩
      | some c => exact ⟨he, hset ⟨rfl, rfl, .inr ⟨c, _, _, rfl, rfl, .start env c⟩⟩⟩
    · simp only [UserPool.stepAt, h1, h2, h3, h4, hf1, hf2, he] at hp ⊢
      have hnp : HopPanicked (t.step .debug p.atWork.sessionFree (p.atWork.pubsubFree shard) p.engine).1 = false := by
        rw [← Bool.not_eq_true]
        intro hb
        refine hp ⟨j, _, List.getElem?_set_self hjp, (c, _), ?_, hb⟩
        simp only [show (builtAs env .debug).mode = .debug from rfl]
        split
        · exact List.mem_append_left _ (List.mem_append_right _ (List.mem_singleton.mpr rfl))
        · exact List.mem_append_right _ (List.mem_singleton.mpr rfl)
      have hs := ht.step hnp
      have hen := hs.1.ended hnp
      simp only [show (builtAs env .debug).mode = .debug from rfl, show (builtAs env .release).mode = .release from rfl]
      refine ⟨hs.2, hset ?_⟩
      rw [hen.2]
      split
      · rename_i hE
        exact ⟨hw, by simp only [hpast, hen.1 hE], .inl ⟨rfl, rfl⟩⟩
      · exact ⟨hw, hpast, .inr ⟨c, _, _, rfl, rfl, hs.1⟩⟩

private theorem poolAlike_exec (env : Env) (shard : UInt32 → Nat) (sched : List Nat) : ∀ {p q : UserPool}, PoolAlike p q →
    ¬ AnyPanicked (p.exec (builtAs env .debug) shard sched) → PoolAlike (p.exec (builtAs env .debug) shard sched) (q.exec (builtAs env .release) shard sched) := by
  have hmono : ∀ (sched : List Nat) {p : UserPool}, AnyPanicked p → AnyPanicked (p.exec (builtAs env .debug) shard sched) := by
    intro sched
    induction sched with
    | nil => exact fun h => h
    | cons j sched ih => exact fun h => ih (anyPanicked_step j h)
  induction sched with
  | nil => exact fun h _ => h
  | cons j sched ih => exact fun h hp => ih (poolAlike_step env shard h j fun ha => hp (hmono sched ha)) hp

/-- **C205.** Users of one engine who make calls of all kinds, each depending on the answers so far: if none of their calls has panicked so far in a debug build, then
in a release build, with the same order of steps, the engine is the same, everybody has made the same calls with the same answers, and is in the middle of the same
call, if any. -/
theorem C205_users (env : Env) (shard : UInt32 → Nat) (us : List User) (e : HopEngine) (sched : List Nat)
    (h : ∀ x ∈ ((userPool us e).exec (builtAs env .debug) shard sched).made, HopPanicked x.2 = false) :
    ((userPool us e).exec (builtAs env .release) shard sched).engine = ((userPool us e).exec (builtAs env .debug) shard sched).engine ∧
    ((userPool us e).exec (builtAs env .release) shard sched).users.map (fun u => (u.past, u.now.map (·.1))) =
      ((userPool us e).exec (builtAs env .debug) shard sched).users.map (fun u => (u.past, u.now.map (·.1))) := by
  have := poolAlike_exec env shard sched (p := userPool us e) (q := userPool us e) ⟨rfl, fun i => by
      simp only [userPool, List.getElem?_map]
      cases us[i]? with
      | none => exact .inl ⟨rfl, rfl⟩
      | some u => exact .inr ⟨_, _, rfl, rfl, rfl, rfl, .inl ⟨rfl, rfl⟩⟩⟩ (by
      rintro ⟨i, u, hi, x, hx, hp⟩
      rw [h x (List.mem_flatMap.mpr ⟨u, List.mem_of_getElem? hi, hx⟩)] at hp
      cases hp)
  refine ⟨this.1, List.ext_getElem? fun i => ?_⟩
  simp only [List.getElem?_map]
  rcases this.2 i with ⟨h1, h2⟩ | ⟨u, v, h1, h2, -, hpast, hn⟩
  · rw [h1, h2]
  · rw [h1, h2]
    rcases hn with ⟨h3, h4⟩ | ⟨c, t, t', h3, h4, -⟩
    · simp only [Option.map_some, hpast, h3, h4]
    · simp only [Option.map_some, hpast, h3, h4]

/-- A user who opens a session and, having done so, increments a key, beside one who reads a counter and looks for a subscription. -/
example : let us : List User := [fun past => match past with | [] => some (.session (.add [7])) | [(_, .session (.added _ _))] => some (.dispatch (call .increment none [[1]]) []) | _ => none,
      User.fixed [.metric .sessionsStarted, .pubsub (.get [1] 0)]]
    ((userPool us .new).exec (builtAs (sampleEnv .debug) .release) (fun _ => 0) [0, 0, 1, 0, 1, 0, 0, 0, 0, 0, 1, 1, 1, 0, 0, 0, 0]).engine.db.keys [1] = some (.integer 1) := by
  intro us
  rw [(C205_users (sampleEnv .debug) (fun _ => 0) us .new _ (by decide +kernel)).1]
  decide +kernel

end Hop
