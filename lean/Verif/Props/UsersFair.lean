import Verif.Props.Users
import Verif.Props.Fair

/-! # C152: all calls of users who make calls of all kinds come to their end -/

namespace Hop

open Spec Prog

/-- The user makes at most `B` calls, whatever the answers. -/
def Spec.AtMost (B : Nat) (u : User) : Prop := ∀ past : List Made, B ≤ past.length → u past = none

/-- A call that removes key `k`, if it is there. -/
def Spec.removesHop (k : Bytes) : HopCall → Bool
  | .dispatch r _ => [.set, .delete, .rename].contains r.commandId && r.arg 0 == some k
  | _ => false

/-! ## One step of a call -/

/-- One step of a call of the session manager that goes on. -/
inductive SessionLater : SessionThread → SessionThread → Prop
  | made {t s} : SessionLater (.made s) (.add t)
  | keyed {s k} : SessionLater (.keyed s k) (.made s)
  | taken {s k} : SessionLater .panicked (.keyed s k)
  | inserted {s k} : SessionLater (.inserted s k) (.keyed s k)
  | overflow {s k} : SessionLater .panicked (.inserted s k)
  | counted {s k} : SessionLater (.counted s k) (.inserted s k)
  | advancing {s k o} : SessionLater (.advancing s k o) (.counted s k)
  | added {s k o} : SessionLater (.added k s) (.advancing s k o)
  | removed {id b} : SessionLater (.removed b) (.remove id)

theorem SessionLater.acc (t : SessionThread) : Acc SessionLater t := by
  have a0 : Acc SessionLater .panicked := ⟨_, fun _ h => by cases h⟩
  have a1 : ∀ k s, Acc SessionLater (.added k s) := fun _ _ => ⟨_, fun _ h => by cases h⟩
  have a2 : ∀ b, Acc SessionLater (.removed b) := fun _ => ⟨_, fun _ h => by cases h⟩
  have a3 : ∀ s k o, Acc SessionLater (.advancing s k o) := fun _ _ _ => ⟨_, fun _ h => by cases h; exact a1 _ _⟩
  have a4 : ∀ s k, Acc SessionLater (.counted s k) := fun _ _ => ⟨_, fun _ h => by cases h; exact a3 _ _ _⟩
  have a5 : ∀ s k, Acc SessionLater (.inserted s k) := fun _ _ => ⟨_, fun _ h => by
    cases h with
    | overflow => exact a0
    | counted => exact a4 _ _⟩
  have a6 : ∀ s k, Acc SessionLater (.keyed s k) := fun _ _ => ⟨_, fun _ h => by
    cases h with
    | taken => exact a0
    | inserted => exact a5 _ _⟩
  have a7 : ∀ s, Acc SessionLater (.made s) := fun _ => ⟨_, fun _ h => by cases h; exact a6 _ _⟩
  cases t with
  | add t => exact ⟨_, fun _ h => by cases h; exact a7 _⟩
  | made s => exact a7 s
  | keyed s k => exact a6 s k
  | inserted s k => exact a5 s k
  | counted s k => exact a4 s k
  | advancing s k o => exact a3 s k o
  | added k s => exact a1 k s
  | panicked => exact a0
  | remove id => exact ⟨_, fun _ h => by cases h; exact a2 _⟩
  | removed b => exact a2 b

/-- One step of a call that goes on. -/
inductive HopLater : HopThread → HopThread → Prop
  | command {p p'} : ProgLater p' p → HopLater (.command p') (.command p)
  | session {t t'} : SessionLater t' t → HopLater (.session t') (.session t)
  | pubsub {t t'} : SubLater t' t → HopLater (.pubsub t') (.pubsub t)
  | measured {m a} : HopLater (.measured m a) (.measure m)

theorem HopLater.acc (t : HopThread) : Acc HopLater t := by
  cases t with
  | command p =>
    have := ProgLater.acc p
    induction this with
    | intro p _ ih => exact ⟨_, fun _ h => by cases h with | command h => exact ih _ h⟩
  | session t =>
    have := SessionLater.acc t
    induction this with
    | intro p _ ih => exact ⟨_, fun _ h => by cases h with | session h => exact ih _ h⟩
  | pubsub t =>
    have := SubLater.acc t
    induction this with
    | intro p _ ih => exact ⟨_, fun _ h => by cases h with | pubsub h => exact ih _ h⟩
  | measure m => exact ⟨_, fun _ h => by cases h; exact ⟨_, fun _ h => by cases h⟩⟩
  | measured m a => exact ⟨_, fun _ h => by cases h⟩

theorem HopLater.before {t t' : HopThread} (h : HopLater t' t) : HopEnded t = false := by
  cases h with
  | command h => cases h <;> rfl
  | session h => cases h <;> rfl
  | pubsub h => cases h <;> rfl
  | measured => rfl

/-- A lock is held. -/
def holdsAny : HopThread → Bool
  | .session t => t.holds.isSome
  | .pubsub t => t.holds.isSome
  | _ => false

theorem SessionThread.step_later (mode : Mode) (free : UInt32 → Bool) (m : SessionMgr) (t : SessionThread) :
    ((t.step mode free m).1 = t ∧ (t.holds = none ∧ (HopEnded (.session t) = true ∨ ∃ id, free id = false))) ∨
      SessionLater (t.step mode free m).1 t := by
  cases t with
  | add t => exact .inr .made
  | made s => exact .inr .keyed
  | keyed s k =>
    simp only [SessionThread.step]
    split
    · split
      · exact .inr .taken
      · exact .inr .inserted
    · rename_i h
      exact .inl ⟨rfl, rfl, .inr ⟨k, by simpa using h⟩⟩
  | inserted s k =>
    simp only [SessionThread.step]
    split
    · exact .inr .overflow
    · exact .inr .counted
  | counted s k => exact .inr .advancing
  | advancing s k o => exact .inr .added
  | added k s => exact .inl ⟨rfl, rfl, .inl rfl⟩
  | panicked => exact .inl ⟨rfl, rfl, .inl rfl⟩
  | remove id =>
    simp only [SessionThread.step]
    split
    · exact .inr .removed
    · rename_i h
      exact .inl ⟨rfl, rfl, .inr ⟨id, by simpa using h⟩⟩
  | removed b => exact .inl ⟨rfl, rfl, .inl rfl⟩

/-- A step of a call, if it need not wait. -/
theorem HopThread.step_later (mode : Mode) (f g : UInt32 → Bool) (h : HopEngine) (t : HopThread) :
    (t.step mode f g h).1 = t ∨ HopLater (t.step mode f g h).1 t := by
  cases t with
  | command p =>
    cases p with
    | done r => exact .inl rfl
    | onKey k upd next => exact .inr (.command .onKey)
    | onCtr m upd next => exact .inr (.command .onCtr)
  | session t =>
    rcases t.step_later mode f h.mgr with ⟨e, -⟩ | e
    · left
      show HopThread.session (t.step mode f h.mgr).1 = _
      rw [e]
    · exact .inr (.session e)
  | pubsub t =>
    rcases t.step_later g h.pubsub with e | e
    · left
      show HopThread.pubsub (t.step g h.pubsub).1 = _
      rw [e]
    · exact .inr (.pubsub e)
  | measure m => exact .inr .measured
  | measured m a => exact .inl rfl

theorem HopThread.step_moves {mode : Mode} {f g : UInt32 → Bool} (h : HopEngine) {t : HopThread} (he : HopEnded t = false)
    (hw : holdsAny t = true ∨ (∀ s, f s = true) ∧ ∀ s, g s = true) : HopLater (t.step mode f g h).1 t := by
  cases t with
  | command p =>
    cases p with
    | done r => cases he
    | onKey k upd next => exact .command .onKey
    | onCtr m upd next => exact .command .onCtr
  | session t =>
    rcases t.step_later mode f h.mgr with ⟨-, h1, h2⟩ | e
    · exfalso
      rcases hw with hw | hw
      · simp [holdsAny, h1] at hw
      · rcases h2 with h2 | ⟨id, h2⟩
        · rw [h2] at he; cases he
        · rw [hw.1 id] at h2; cases h2
    · exact .session e
  | pubsub t =>
    refine .pubsub (SubThread.step_moves h.pubsub (fun hd => ?_) ?_)
    · cases t <;> first | exact hd | (cases he; done)
    · rcases hw with hw | hw
      · left
        intro h0
        simp [holdsAny, h0] at hw
      · exact .inr hw.2
  | measure m => exact .measured
  | measured m a => cases he

/-! ## One step of a user -/

/-- A user's next step. -/
inductive UserLater : UserState → UserState → Prop
  | call {B user past c t} : AtMost B user → user past = some c → UserLater ⟨user, past, some (c, t)⟩ ⟨user, past, none⟩
  | go {user past c t t'} : HopLater t' t → UserLater ⟨user, past, some (c, t')⟩ ⟨user, past, some (c, t)⟩
  | answer {user past c t t'} : UserLater ⟨user, past ++ [(c, t')], none⟩ ⟨user, past, some (c, t)⟩

theorem UserLater.acc_some {user : User} {past : List Made} (h : ∀ m, Acc UserLater ⟨user, past ++ [m], none⟩) (c : HopCall) (t : HopThread) :
    Acc UserLater ⟨user, past, some (c, t)⟩ := by
  have := HopLater.acc t
  induction this with
  | intro t _ ih =>
    refine ⟨_, fun _ hl => ?_⟩
    cases hl with
    | go hl => exact ih _ hl
    | answer => exact h _

theorem UserLater.acc_none (user : User) (past : List Made) : Acc UserLater ⟨user, past, none⟩ := by
  by_cases hB : ∃ B, AtMost B user
  · obtain ⟨B, hB⟩ := hB
    have : ∀ (d : Nat) (past : List Made), B - past.length ≤ d → Acc UserLater ⟨user, past, none⟩ := by
      intro d
      induction d with
      | zero =>
        intro past hd
        refine ⟨_, fun _ hl => ?_⟩
        cases hl with
        | call _ hc => rw [hB past (by omega)] at hc; cases hc
      | succ d ih =>
        intro past hd
        refine ⟨_, fun _ hl => ?_⟩
        cases hl with
        | call _ hc => exact UserLater.acc_some (fun m => ih _ (by simp only [List.length_append, List.length_singleton]; omega)) _ _
    exact this _ past (Nat.le_refl _)
  · refine ⟨_, fun _ hl => ?_⟩
    cases hl with
    | call h _ => exact absurd ⟨_, h⟩ hB

theorem UserLater.acc (u : UserState) : Acc UserLater u := by
  obtain ⟨user, past, now⟩ := u
  cases now with
  | none => exact UserLater.acc_none user past
  | some m => exact UserLater.acc_some (fun m => UserLater.acc_none user _) m.1 m.2

/-- The user has been answered and makes no more calls. -/
def Spec.UserDone (u : UserState) : Prop := u.now = none ∧ u.user u.past = none

theorem UserPool.exec_snoc (env : Env) (shard : UInt32 → Nat) (p : UserPool) (s : List Nat) (i : Nat) :
    p.exec env shard (s ++ [i]) = (p.exec env shard s).stepAt env shard i := by
  simp [UserPool.exec]

theorem UserPool.step_later (env : Env) (shard : UInt32 → Nat) (p : UserPool) (hu : ∀ u ∈ p.users, ∃ B, AtMost B u.user) (i : Nat) :
    (p.stepAt env shard i).users = p.users ∨ OneOf UserLater (p.stepAt env shard i).users p.users := by
  unfold UserPool.stepAt
  split
  · exact .inl rfl
  · rename_i u hi
    obtain ⟨user, past, now⟩ := u
    cases now with
    | none =>
      dsimp only
      split
      · exact .inl rfl
      · rename_i c hc
        obtain ⟨B, hB⟩ := hu _ (List.mem_of_getElem? hi)
        exact .inr (OneOf.set hi (.call hB hc))
    | some m =>
      obtain ⟨c, t⟩ := m
      dsimp only
      split
      · exact .inr (OneOf.set hi .answer)
      · rcases t.step_later env.mode p.atWork.sessionFree (p.atWork.pubsubFree shard) p.engine with e | e
        · left
          rw [e]
          exact set_same hi
        · exact .inr (OneOf.set hi (.go e))

/-- A user who is not done goes on, unless there is a lock to wait for. -/
theorem UserPool.step_moves (env : Env) (shard : UInt32 → Nat) (p : UserPool) {i : Nat} {u : UserState}
    (hi : p.users[i]? = some u) (hd : ¬ UserDone u) (hB : ∃ B, AtMost B u.user)
    (hw : (∃ m, u.now = some m ∧ holdsAny m.2 = true) ∨
      u.now = none ∨ (∀ s, p.atWork.sessionFree s = true) ∧ ∀ s, p.atWork.pubsubFree shard s = true) :
    OneOf UserLater (p.stepAt env shard i).users p.users := by
  unfold UserPool.stepAt
  rw [hi]
  obtain ⟨user, past, now⟩ := u
  cases now with
  | none =>
    dsimp only
    cases hc : user past with
    | none => exact absurd ⟨rfl, hc⟩ hd
    | some c =>
      obtain ⟨B, hB⟩ := hB
      exact OneOf.set hi (.call hB hc)
  | some m =>
    obtain ⟨c, t⟩ := m
    dsimp only
    split
    · exact OneOf.set hi .answer
    · rename_i hne
      refine OneOf.set hi (.go (HopThread.step_moves p.engine ?_ ?_))
      · cases he : HopEnded t with
        | false => rfl
        | true =>
          exfalso
          apply hne
          rcases t.step_later env.mode p.atWork.sessionFree (p.atWork.pubsubFree shard) p.engine with e | e
          · rw [e]; exact he
          · exact absurd he (by rw [e.before]; simp)
      · rcases hw with ⟨m, hm, hw⟩ | hw | hw
        · cases hm; exact .inl hw
        · cases hw
        · exact .inr hw

theorem users_stepAt (env : Env) (shard : UInt32 → Nat) (p : UserPool) (i : Nat) :
    (p.stepAt env shard i).users.map UserState.user = p.users.map UserState.user := by
  unfold UserPool.stepAt
  split
  · rfl
  · rename_i u hi
    split
    · dsimp only
      refine map_set_same UserState.user p.users i u _ hi ?_
      split <;> rfl
    · split
      · rfl
      · exact map_set_same UserState.user p.users i u _ hi rfl

theorem users_exec (env : Env) (shard : UInt32 → Nat) (us : List User) (h : HopEngine) (s : List Nat) :
    ((userPool us h).exec env shard s).users.map UserState.user = us := by
  induction s using snoc_induction with
  | h0 => simp [UserPool.exec, userPool, Function.comp_def]
  | h1 s i ih => rw [UserPool.exec_snoc, users_stepAt, ih]

/-- C152. If each user makes only finitely many calls, and gets their turn again and again, then from some moment on all
users have been answered and make no more calls. -/
theorem C152_all_end (env : Env) (shard : UInt32 → Nat) (us : List User) (hB : ∀ u ∈ us, ∃ B, AtMost B u) (h : HopEngine)
    (σ : Nat → Nat) (hf : Fair us.length σ) :
    ∃ N, ∀ n, N ≤ n → ∀ u ∈ ((userPool us h).exec env shard (turns σ n)).users, UserDone u := by
  have hstep : ∀ n, (userPool us h).exec env shard (turns σ (n + 1)) =
      ((userPool us h).exec env shard (turns σ n)).stepAt env shard (σ n) := by
    intro n; rw [turns_succ, UserPool.exec_snoc]
  have hall : ∀ n, ((userPool us h).exec env shard (turns σ n)).users.map UserState.user = us := fun n => users_exec env shard us h _
  generalize hp : (fun n => (userPool us h).exec env shard (turns σ n)) = p at *
  have hp' : ∀ n, (userPool us h).exec env shard (turns σ n) = p n := fun n => congrFun hp n
  simp only [hp'] at *
  have hlim : ∀ n, ∀ u ∈ (p n).users, ∃ B, AtMost B u.user := fun n u hu =>
    hB _ (by rw [← hall n]; exact List.mem_map.mpr ⟨u, hu, rfl⟩)
  obtain ⟨N, hN⟩ := settles (r := OneOf UserLater) (fun n => (p n).users) (OneOf.acc UserLater.acc _) (by
    intro n
    show (p (n + 1)).users = _ ∨ OneOf UserLater (p (n + 1)).users _
    rw [hstep]
    exact UserPool.step_later env shard (p n) (hlim n) (σ n))
  refine ⟨N, fun n hn => ?_⟩
  rw [show (p n).users = (p N).users from hN n hn]
  refine Classical.byContradiction fun hne => ?_
  -- some user can go on
  have hable : ∃ (i : Nat) (u : UserState), (p N).users[i]? = some u ∧ ¬ UserDone u ∧
      ((∃ m, u.now = some m ∧ holdsAny m.2 = true) ∨ u.now = none ∨
        (∀ s, (p N).atWork.sessionFree s = true) ∧ ∀ s, (p N).atWork.pubsubFree shard s = true) := by
    by_cases hh : ∃ u ∈ (p N).users, ∃ m, u.now = some m ∧ holdsAny m.2 = true
    · obtain ⟨u, hu, m, hm, hh⟩ := hh
      obtain ⟨i, hi⟩ := List.getElem?_of_mem hu
      exact ⟨i, u, hi, fun (hd : UserDone u) => (by rw [hd.1] at hm; cases hm), .inl ⟨m, hm, hh⟩⟩
    · have : ∃ u ∈ (p N).users, ¬ UserDone u := by
        refine Classical.byContradiction fun hno => hne fun t ht => ?_
        exact Classical.byContradiction fun hd => hno ⟨t, ht, hd⟩
      obtain ⟨u, hu, hd⟩ := this
      obtain ⟨i, hi⟩ := List.getElem?_of_mem hu
      have hnone : ∀ t ∈ (p N).atWork.threads, holdsAny t = false := by
        intro t ht
        simp only [UserPool.atWork, List.mem_filterMap, Option.map_eq_some_iff] at ht
        obtain ⟨v, hv, m, hm, rfl⟩ := ht
        cases hx : holdsAny m.2 with
        | false => rfl
        | true => exact absurd ⟨v, hv, m, hm, hx⟩ hh
      refine ⟨i, u, hi, hd, .inr (.inr ⟨fun s => ?_, fun s => ?_⟩)⟩
      · unfold HopPool.sessionFree
        rw [List.all_eq_true]
        intro t ht
        have := hnone t ht
        cases t with
        | session t =>
          cases h0 : t.holds with
          | none => simp [h0]
          | some x => simp [holdsAny, h0] at this
        | _ => rfl
      · unfold HopPool.pubsubFree
        rw [List.all_eq_true]
        intro t ht
        have := hnone t ht
        cases t with
        | pubsub t =>
          cases h0 : t.holds with
          | none => simp [h0]
          | some x => simp [holdsAny, h0] at this
        | _ => rfl
  obtain ⟨i, u, hi, hd, hw⟩ := hable
  have hlt : i < us.length := by
    rw [← hall N, List.length_map]; exact (List.getElem?_eq_some_iff.mp hi).1
  obtain ⟨k, hk, hσ⟩ := hf i hlt N
  have e1 : (p k).users = (p N).users := hN k hk
  have e2 : (p (k + 1)).users = (p N).users := hN (k + 1) (by omega)
  have hth : (p k).atWork.threads = (p N).atWork.threads := by simp only [UserPool.atWork, e1]
  have hs : (p k).atWork.sessionFree = (p N).atWork.sessionFree := by funext s; simp only [HopPool.sessionFree, hth]
  have hg : (p k).atWork.pubsubFree shard = (p N).atWork.pubsubFree shard := by funext s; simp only [HopPool.pubsubFree, hth]
  have := UserPool.step_moves env shard (p k) (i := i) (u := u) (by rw [e1]; exact hi) hd
    (hlim N u (List.mem_of_getElem? hi)) (by rw [hs, hg]; exact hw)
  rw [← hσ, ← hstep, e2, e1] at this
  exact acc_irrefl (OneOf.acc UserLater.acc _) this

/-! ## Answers -/

theorem sum_map_le_countP {α} (f : α → Bool) (l : List α) (g : α → Nat) (h : ∀ a ∈ l, g a ≤ if f a then 1 else 0) :
    (l.map g).sum ≤ l.countP f := by
  induction l with
  | nil => simp
  | cons a l ih =>
    have h1 := h a (by simp)
    have h2 := ih fun b hb => h b (by simp [hb])
    simp only [List.map_cons, List.sum_cons, List.countP_cons]
    split at h1 <;> simp_all <;> omega

/-- A request that removes key `k`, if it is there. -/
def removesRequest (k : Bytes) (r : Request × Bytes) : Bool :=
  [.set, .delete, .rename].contains r.1.commandId && r.1.arg 0 == some k

theorem start_not_stuck (env : Env) (rs : List (Request × Bytes)) (db : Db) (i : Nat) (r : Request × Bytes) (hi : rs[i]? = some r)
    (hd : ∀ k, r.1.arg 0 = some k → rs.countP (removesRequest k) ≤ env.spins) (sched : List Nat) :
    ((Pool.start env rs db).exec sched).threads[i]? ≠ some (.done .stuck) := by
  have h : (Pool.start env rs db).Alive true (· ≠ .stuck) i (2 * env.spins + lookedAt r.1 + 6) (fun k => rs.countP (removesRequest k)) := by
    refine ⟨⟨_, by simp [Pool.start, hi]; rfl, ?_⟩, rs.map fun r k => if removesRequest k r then 1 else 0, by simp [Pool.start], ?_, ?_⟩
    · exact Soon.dispatch (K := fun k => r.1.arg 0 = some k) (Nat.le_refl _) (fun _ h => h) _ _ hd
    · intro j t m _ ht hm
      simp only [Pool.start, List.getElem?_map, Option.map_eq_some_iff] at ht hm
      obtain ⟨x, hx, rfl⟩ := ht
      obtain ⟨y, hy, rfl⟩ := hm
      rw [hx] at hy
      cases hy
      refine Cuts.dispatch fun k h1 h2 => ?_
      have : removesRequest k x = true := by
        unfold removesRequest
        rw [h2]
        simp only [List.contains_iff_mem.mpr h1, beq_self_eq_true, Bool.and_self]
      rw [if_pos this]
      exact Nat.one_pos
    · intro k
      rw [List.map_map]
      exact sum_map_le_countP _ _ _ fun a _ => Nat.le_refl _
  obtain ⟨d', -, h'⟩ := h.exec sched
  exact fun e => h'.outcome.1 _ e rfl

theorem removes_requestCalls (k : Bytes) (calls : List HopCall) :
    (requestCalls calls).countP (removesRequest k) = calls.countP (removesHop k) := by
  unfold requestCalls
  induction calls with
  | nil => rfl
  | cons c calls ih =>
    rw [List.filterMap_cons, List.countP_cons, ← ih]
    cases c with
    | dispatch r resp =>
      dsimp only
      rw [List.countP_cons]
      rfl
    | _ => rfl

theorem commandMade_zip (calls : List HopCall) (ts : List HopThread) (h : KindsOf calls ts) (r : Request) (resp : Bytes) (q : Prog Bytes)
    (hm : (HopCall.dispatch r resp, HopThread.command q) ∈ calls.zip ts) :
    ((r, resp), q) ∈ (requestCalls calls).zip (commandThreads ts) := by
  unfold KindsOf at h
  induction calls generalizing ts with
  | nil => cases hm
  | cons c calls ih =>
    cases ts with
    | nil => cases h
    | cons t ts =>
      simp only [List.map_cons, List.cons.injEq] at h
      have := ih ts h.2
      have h1 := h.1
      rw [List.zip_cons_cons, List.mem_cons] at hm
      unfold requestCalls commandThreads at this ⊢
      rcases hm with hm | hm
      · cases hm
        simp [commandOf]
      · have := this hm
        cases c <;> cases t <;> first
          | (cases h1; done)
          | (simp only [List.filterMap_cons, commandOf, List.zip_cons_cons, List.mem_cons]; first | exact .inr this | exact this)

/-- C152. A request is not kept from being answered for ever: if of all calls ever made by all users at most `env.spins`
remove the key it names first, it does not run out of rounds (the loop has no bound in the program, see C134). -/
theorem C152_answered (env : Env) (shard : UInt32 → Nat) (us : List User) (h : HopEngine) (sched : List Nat) (r : Request) (resp : Bytes)
    (q : Prog Bytes) (hm : (.dispatch r resp, .command q) ∈ ((userPool us h).exec env shard sched).made)
    (hd : ∀ k, r.arg 0 = some k → ((userPool us h).exec env shard sched).made.countP (fun m => removesHop k m.1) ≤ env.spins) :
    q ≠ .done .stuck := by
  rintro rfl
  obtain ⟨owned, steps, ok⟩ := told_exec env shard us h sched
  have hp := ok.perm
  have hlen : ((hopPool env (owned.map Prod.snd) h).exec env.mode shard steps).threads.length = owned.length := by
    rw [HopPool.exec_length]; simp [hopPool]
  rw [hp.mem_iff] at hm
  have hz := commandMade_zip _ _ (kindsOf_exec env env.mode (owned.map Prod.snd) h shard steps) r resp _ hm
  obtain ⟨j, hj⟩ := List.getElem?_of_mem hz
  rw [List.getElem?_zip_eq_some] at hj
  obtain ⟨-, -, hl, hend⟩ := C148_commands env (owned.map Prod.snd) h shard steps
  have hjl : j < ((Pool.start env (requestCalls (owned.map Prod.snd)) h.db).exec
      (turnsOf .command (owned.map Prod.snd) steps)).threads.length := by
    rw [← hl]; exact (List.getElem?_eq_some_iff.mp hj.2).1
  have hs := (hend j _ _ hj.2 (List.getElem?_eq_getElem hjl)).1
  have hst := start_not_stuck env (requestCalls (owned.map Prod.snd)) h.db j (r, resp) hj.1 (fun k hk => by
    have := hd k hk
    rw [hp.countP_eq] at this
    rw [removes_requestCalls]
    refine Nat.le_trans (Nat.le_of_eq ?_) this
    have e : ∀ (as : List HopCall) (bs : List HopThread), as.length = bs.length →
        as.countP (removesHop k) = (as.zip bs).countP fun m => removesHop k m.1 := by
      intro as
      induction as with
      | nil => intro bs _; rfl
      | cons a as ih =>
        intro bs hb
        cases bs with
        | nil => cases hb
        | cons b bs => rw [List.zip_cons_cons, List.countP_cons, List.countP_cons, ih bs (by simpa using hb)]
    exact e _ _ (by simp [hlen])) (turnsOf .command (owned.map Prod.snd) steps)
  rw [List.getElem?_eq_getElem hjl] at hst
  generalize ((Pool.start env (requestCalls (owned.map Prod.snd)) h.db).exec (turnsOf .command (owned.map Prod.snd) steps)).threads[j] = u at hs hst
  cases u with
  | done o =>
    cases o with
    | stuck => exact hst rfl
    | _ => cases hs
  | _ => cases hs

/-! ## A concrete case -/

/-- Beside C152: a user who starts a session and subscribes, a user who deletes a key twice, and a user who increments it and then
reads a metric. -/
def deleter : User := User.fixed [.dispatch (call .delete none [[7]]) [], .dispatch (call .delete none [[7]]) []]
def incrementer : User := User.fixed [.dispatch (call .increment none [[7]]) [], .metric .commandsSuccessful]

theorem fixed_atMost (cs : List HopCall) : AtMost cs.length (User.fixed cs) := by
  intro past h
  exact List.getElem?_eq_none h

theorem subscriber_atMost (k : Bytes) : AtMost 3 (subscriber k) := by
  intro past h
  unfold subscriber
  split
  · simp at h
  · simp at h
  · simp at h
  · rfl

example (env : Env) (shard : UInt32 → Nat) (h : HopEngine) :
    ∃ N, ∀ n, N ≤ n → ∀ u ∈ ((userPool [subscriber [9], deleter, incrementer] h).exec env shard (turns (· % 3) n)).users, UserDone u := by
  refine C152_all_end env shard _ ?_ h _ (fair_turns 3)
  intro u hu
  simp only [List.mem_cons, List.not_mem_nil, or_false] at hu
  rcases hu with rfl | rfl | rfl
  · exact ⟨3, subscriber_atMost [9]⟩
  · exact ⟨_, fixed_atMost _⟩
  · exact ⟨_, fixed_atMost _⟩

/-- The increment is made to start over by both deletions, and is answered. -/
example :
    let sched := [1, 1, 1, 0, 0, 0, 1, 1, 0, 0, 0, 1, 1, 1, 1];
    let p := (userPool [deleter, incrementer] .new).exec (sampleEnv .debug) (fun s => s.toNat) sched;
    p.made.countP (fun m => removesHop [7] m.1) = 2 ∧ p.made.countP (fun m => hopSucceeded m.2) = 3 ∧
    p.made.countP (fun m => hopFailed m.2) = 0 ∧ p.made.length = 3 := by decide +kernel

end Hop
