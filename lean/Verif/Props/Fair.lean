import Verif.Lemmas.Fair
import Verif.Props.SessionGuards
import Verif.Props.PubSubThreads
import Verif.Props.Progress

/-! # C139: if every thread gets its turn again and again, all calls end -/

namespace Hop
open Spec

/-- An infinite schedule in which each of the `n` threads gets its turn again and again. -/
def Spec.Fair (n : Nat) (σ : Nat → Nat) : Prop := ∀ i, i < n → ∀ m, ∃ m', m ≤ m' ∧ σ m' = i

/-- The first `m` turns of an infinite schedule. -/
def Spec.turns (σ : Nat → Nat) (m : Nat) : List Nat := (List.range m).map σ

theorem turns_succ (σ : Nat → Nat) (m : Nat) : turns σ (m + 1) = turns σ m ++ [σ m] := by
  simp [turns, List.range_succ]

/-! ## Threads that keep guards of sessions -/

theorem SMove.still {free : UInt32 → Bool} {m m' : SessionMgr} {t t' : SThread} (h : SMove free m t t' m') :
    t' = t ∨ Onward t' t := by
  cases h with
  | ended =>
    rename_i held
    cases held with
    | nil => exact .inl rfl
    | cons g gs => exact .inr (.ended (by simp))
  | wait h => exact .inl rfl
  | stay h => exact .inl rfl
  | taken => exact .inr .panicked
  | overflow => exact .inr .panicked
  | finish => exact .inr .added
  | removed => exact .inr .removed
  | look => exact .inr .look
  | write => exact .inr .write
  | skip => exact .inr .write
  | drop => exact .inr .drop
  | make => exact .inr (.within (by simp [SThread.rank]))
  | key => exact .inr (.within (by simp [SThread.rank]))
  | insert => exact .inr (.within (by simp [SThread.rank]))
  | count => exact .inr (.within (by simp [SThread.rank]))
  | read => exact .inr (.within (by simp [SThread.rank]))

/-- C139, sessions. If threads call the session manager only while they keep no guard, and each gets its turn again and
again, then all of them come to their end. -/
theorem C139_sessions (mode : Mode) (shard : UInt32 → Nat) (progs : List SProg) (hq : ∀ q ∈ progs, Considerate [] q) (m : SessionMgr)
    (σ : Nat → Nat) (hf : Fair progs.length σ) :
    ∃ N, ∀ n, N ≤ n → ∀ t ∈ ((attending progs m).exec mode shard (turns σ n)).threads, Departed t := by
  have ha : ∀ n, Attended shard ((attending progs m).exec mode shard (turns σ n)) := fun n => (Attended.attending shard progs m).exec _
  have hc : ∀ n, AllConsiderate ((attending progs m).exec mode shard (turns σ n)) := by
    intro n
    refine AllConsiderate.exec (Attended.attending shard progs m) ?_ _
    intro i t ht
    simp only [attending, List.getElem?_map, Option.map_eq_some_iff] at ht
    obtain ⟨q, hqm, rfl⟩ := ht
    exact hq q (List.mem_of_getElem? hqm)
  have hstep : ∀ n, (attending progs m).exec mode shard (turns σ (n + 1)) =
      ((attending progs m).exec mode shard (turns σ n)).stepAt mode shard (σ n) := by
    intro n; rw [turns_succ, SPool.exec_append]; rfl
  have hlen : ∀ n, ((attending progs m).exec mode shard (turns σ n)).threads.length = progs.length := by
    intro n
    induction n with
    | zero => simp [turns, SPool.exec, attending]
    | succ n ih =>
      rw [hstep]
      rcases SPool.stepAt_cases mode shard ((attending progs m).exec mode shard (turns σ n)) (σ n) with e | ⟨t, -, e⟩
      · rw [e, ih]
      · rw [e]; show (List.set _ _ _).length = _; rw [List.length_set, ih]
  generalize hp : (fun n => (attending progs m).exec mode shard (turns σ n)) = p at *
  have hp' : ∀ n, (attending progs m).exec mode shard (turns σ n) = p n := fun n => congrFun hp n
  simp only [hp'] at *
  obtain ⟨N, hN⟩ := settles (r := OneOf Onward) (fun n => (p n).threads) (OneOf.acc (fun t => Onward.acc t.prog t.held t.call) _) (by
    intro n
    show (p (n + 1)).threads = _ ∨ OneOf Onward (p (n + 1)).threads _
    rw [hstep]
    rcases SPool.stepAt_cases mode shard (p n) (σ n) with e | ⟨t, ht, e⟩
    · rw [e]; exact .inl rfl
    · rw [e]
      rcases ((ha n).wf _ t ht).move mode ((p n).free shard) (p n).mgr |>.still with h | h
      · left; show (p n).threads.set _ _ = _; rw [h]; exact set_same ht
      · exact .inr (OneOf.set ht h))
  refine ⟨N, fun n hn => ?_⟩
  rw [show (p n).threads = (p N).threads from hN n hn]
  refine Classical.byContradiction fun hne => ?_
  obtain ⟨i, t, hi, hd, hw⟩ := (ha N).able (hc N) hne
  have hlt : i < progs.length := by rw [← hlen N]; exact (List.getElem?_eq_some_iff.mp hi).1
  obtain ⟨k, hk, hσ⟩ := hf i hlt N
  have e1 : (p k).threads = (p N).threads := hN k hk
  have e2 : (p (k + 1)).threads = (p N).threads := hN (k + 1) (by omega)
  have hfree : (p k).free shard = (p N).free shard := by funext w; simp only [SPool.free, e1]
  have hik : (p k).threads[i]? = some t := by rw [e1]; exact hi
  have hon := (((ha k).wf i t hik).move mode ((p k).free shard) (p k).mgr).onward hd (by rw [hfree]; exact hw)
  have e3 : (p (k + 1)).threads = (p k).threads.set i (t.step mode ((p k).free shard) (p k).mgr).1 := by
    rw [hstep, hσ]; simp only [SPool.stepAt, hik]
  have := OneOf.set hik hon
  rw [← e3, e2, ← e1] at this
  exact acc_irrefl (OneOf.acc (fun t => Onward.acc t.prog t.held t.call) _) this

/-! ## Threads that keep guards of keys -/

theorem GThread.still (t : GThread) (db : Db) : (t.step db).1 = t ∨ Later (t.step db).1 t := by
  by_cases h : Gone t
  · left
    obtain ⟨held, prog⟩ := t
    obtain ⟨h1, h2⟩ := h
    dsimp only at h1 h2
    subst h1 h2
    rfl
  · exact .inr (GThread.step_later db h)

/-- C139, guards of keys. If threads ask for locks in increasing order only, and each gets its turn again and again, then
all of them come to their end. -/
theorem C139_guards (shard : Bytes → Nat) (progs : List GProg) (ho : ∀ q ∈ progs, Orderly (ascending shard) [] q) (db : Db)
    (σ : Nat → Nat) (hf : Fair progs.length σ) :
    ∃ N, ∀ n, N ≤ n → ∀ t ∈ ((begun progs db).exec shard (turns σ n)).threads, Gone t := by
  have hc : ∀ n, AllOrderly (ascending shard) ((begun progs db).exec shard (turns σ n)) := by
    intro n
    refine AllOrderly.exec ?_ _
    intro i t ht
    simp only [begun, List.getElem?_map, Option.map_eq_some_iff] at ht
    obtain ⟨q, hqm, rfl⟩ := ht
    exact ho q (List.mem_of_getElem? hqm)
  have hstep : ∀ n, (begun progs db).exec shard (turns σ (n + 1)) = ((begun progs db).exec shard (turns σ n)).stepAt shard (σ n) := by
    intro n; rw [turns_succ, GPool.exec_append]; rfl
  have hlen : ∀ n, ((begun progs db).exec shard (turns σ n)).threads.length = progs.length := by
    intro n
    induction n with
    | zero => simp [turns, GPool.exec, begun]
    | succ n ih =>
      rw [hstep]
      rcases GPool.stepAt_cases shard ((begun progs db).exec shard (turns σ n)) (σ n) with e | ⟨t, -, -, e⟩
      · rw [e, ih]
      · rw [e]; show (List.set _ _ _).length = _; rw [List.length_set, ih]
  generalize hp : (fun n => (begun progs db).exec shard (turns σ n)) = p at *
  have hp' : ∀ n, (begun progs db).exec shard (turns σ n) = p n := fun n => congrFun hp n
  simp only [hp'] at *
  obtain ⟨N, hN⟩ := settles (r := OneOf Later) (fun n => (p n).threads) (OneOf.acc (fun t => Later.acc t.prog t.held) _) (by
    intro n
    show (p (n + 1)).threads = _ ∨ OneOf Later (p (n + 1)).threads _
    rw [hstep]
    rcases GPool.stepAt_cases shard (p n) (σ n) with e | ⟨t, ht, -, e⟩
    · rw [e]; exact .inl rfl
    · rw [e]
      rcases t.still (p n).db with h | h
      · left; show (p n).threads.set _ _ = _; rw [h]; exact set_same ht
      · exact .inr (OneOf.set ht h))
  refine ⟨N, fun n hn => ?_⟩
  rw [show (p n).threads = (p N).threads from hN n hn]
  refine Classical.byContradiction fun hne => ?_
  obtain ⟨t, ht, hd, hw⟩ := (hc N).able hne
  obtain ⟨i, hi⟩ := List.getElem?_of_mem ht
  have hlt : i < progs.length := by rw [← hlen N]; exact (List.getElem?_eq_some_iff.mp hi).1
  obtain ⟨k, hk, hσ⟩ := hf i hlt N
  have e1 : (p k).threads = (p N).threads := hN k hk
  have e2 : (p (k + 1)).threads = (p N).threads := hN (k + 1) (by omega)
  have hik : (p k).threads[i]? = some t := by rw [e1]; exact hi
  have e3 := GPool.stepAt_free hik (shard := shard) (fun w hw' => by
    have := hw w hw'
    simpa only [GPool.free, e1] using this)
  have := OneOf.set hik (GThread.step_later (p k).db hd)
  have e4 : (p (k + 1)).threads = (p k).threads.set i (t.step (p k).db).1 := by rw [hstep, hσ, e3]
  rw [← e4, e2, ← e1] at this
  exact acc_irrefl (OneOf.acc (fun t => Later.acc t.prog t.held) _) this

/-! ## Publish/subscribe -/

/-- One step of a call that goes on. -/
inductive SubLater : SubThread → SubThread → Prop
  | subscribed {k s a} : SubLater (.subscribed a) (.subscribe k s)
  | subscribing {k s x} : SubLater (.subscribing k s x) (.subscribe k s)
  | subscribed' {k s x a} : SubLater (.subscribed a) (.subscribing k s x)
  | unsubscribing {k s b} : SubLater (.unsubscribing k s b) (.unsubscribe k s)
  | unsubscribed {k s b a} : SubLater (.unsubscribed a) (.unsubscribing k s b)
  | got {k s a} : SubLater (.got a) (.get k s)
  | sessionRemoved {s b} : SubLater (.sessionRemoved b) (.removeSession s)
  | closing {s l} : SubLater (.closing l) (.removeSession s)
  | close {x l} : SubLater (.closing l) (.closing (x :: l))
  | closed : SubLater (.sessionRemoved true) (.closing [])

theorem SubLater.acc (t : SubThread) : Acc SubLater t := by
  have subd : ∀ a, Acc SubLater (.subscribed a) := fun a => ⟨_, fun _ h => by cases h⟩
  have unsubd : ∀ a, Acc SubLater (.unsubscribed a) := fun a => ⟨_, fun _ h => by cases h⟩
  have got : ∀ a, Acc SubLater (.got a) := fun a => ⟨_, fun _ h => by cases h⟩
  have rem : ∀ a, Acc SubLater (.sessionRemoved a) := fun a => ⟨_, fun _ h => by cases h⟩
  have subing : ∀ k s x, Acc SubLater (.subscribing k s x) := fun k s x => ⟨_, fun _ h => by cases h; exact subd _⟩
  have unsubing : ∀ k s b, Acc SubLater (.unsubscribing k s b) := fun k s b => ⟨_, fun _ h => by cases h; exact unsubd _⟩
  have closing : ∀ l, Acc SubLater (.closing l) := by
    intro l
    induction l with
    | nil => exact ⟨_, fun _ h => by cases h; exact rem _⟩
    | cons x l ih => exact ⟨_, fun _ h => by cases h; exact ih⟩
  cases t with
  | subscribe k s => exact ⟨_, fun _ h => by cases h; exact subd _; exact subing _ _ _⟩
  | subscribing k s x => exact subing k s x
  | subscribed a => exact subd a
  | unsubscribe k s => exact ⟨_, fun _ h => by cases h; exact unsubing _ _ _⟩
  | unsubscribing k s b => exact unsubing k s b
  | unsubscribed a => exact unsubd a
  | get k s => exact ⟨_, fun _ h => by cases h; exact got _⟩
  | got a => exact got a
  | removeSession s => exact ⟨_, fun _ h => by cases h; exact rem _; exact closing _⟩
  | closing l => exact closing l
  | sessionRemoved a => exact rem a

/-- A step of a call, if it need not wait. -/
theorem SubThread.step_later (free : UInt32 → Bool) (m : PubSub) (t : SubThread) :
    (t.step free m).1 = t ∨ SubLater (t.step free m).1 t := by
  cases t with
  | subscribe k s =>
    simp only [SubThread.step]
    split
    · split
      · exact .inr .subscribed
      · exact .inr .subscribing
    · exact .inl rfl
  | subscribing k s x => exact .inr .subscribed'
  | subscribed a => exact .inl rfl
  | unsubscribe k s => exact .inr .unsubscribing
  | unsubscribing k s b =>
    simp only [SubThread.step]
    split
    · exact .inr .unsubscribed
    · exact .inl rfl
  | unsubscribed a => exact .inl rfl
  | get k s =>
    simp only [SubThread.step]
    split
    · exact .inr .got
    · exact .inl rfl
  | got a => exact .inl rfl
  | removeSession s =>
    simp only [SubThread.step]
    split
    · split
      · exact .inr .sessionRemoved
      · exact .inr .closing
    · exact .inl rfl
  | closing l =>
    cases l with
    | nil => exact .inr .closed
    | cons x l => exact .inr .close
  | sessionRemoved a => exact .inl rfl

theorem SubThread.step_moves {free : UInt32 → Bool} (m : PubSub) {t : SubThread} (hd : ¬ SubDone t)
    (hf : t.holds ≠ none ∨ ∀ s, free s = true) : SubLater (t.step free m).1 t := by
  rcases t.step_later free m with h | h
  · exfalso
    cases t with
    | subscribe k s =>
      have := hf.resolve_left (by simp [SubThread.holds]) s
      simp only [SubThread.step, this, if_true] at h
      split at h <;> cases h
    | subscribing k s x => cases h
    | unsubscribe k s => cases h
    | unsubscribing k s b =>
      have := hf.resolve_left (by simp [SubThread.holds]) s
      simp only [SubThread.step, this, if_true] at h
      cases h
    | get k s =>
      have := hf.resolve_left (by simp [SubThread.holds]) s
      simp only [SubThread.step, this, if_true] at h
      cases h
    | removeSession s =>
      have := hf.resolve_left (by simp [SubThread.holds]) s
      simp only [SubThread.step, this, if_true] at h
      split at h <;> cases h
    | closing l =>
      cases l with
      | nil => cases h
      | cons x l =>
        simp only [SubThread.step, SubThread.closing.injEq] at h
        have := congrArg List.length h
        simp at this
    | _ => exact hd trivial
  · exact h

/-- C139, publish/subscribe. If each thread gets its turn again and again, all calls return. -/
theorem C139_pubsub (calls : List SubCall) (shard : UInt32 → Nat) (σ : Nat → Nat) (hf : Fair calls.length σ) :
    ∃ N, ∀ n, N ≤ n → ∀ t ∈ ((subPool calls).exec shard (turns σ n)).threads, SubDone t := by
  have hstep : ∀ n, (subPool calls).exec shard (turns σ (n + 1)) = ((subPool calls).exec shard (turns σ n)).stepAt shard (σ n) := by
    intro n; rw [turns_succ, subexec_append]; rfl
  have hcase : ∀ (p : SubPool) i, p.stepAt shard i = p ∨ ∃ t, p.threads[i]? = some t ∧
      (p.stepAt shard i).threads = p.threads.set i (t.step (p.free shard) p.mgr).1 := by
    intro p i
    unfold SubPool.stepAt
    split
    · exact .inl rfl
    · rename_i t ht; exact .inr ⟨t, ht, rfl⟩
  have hlen : ∀ n, ((subPool calls).exec shard (turns σ n)).threads.length = calls.length := by
    intro n
    induction n with
    | zero => simp [turns, SubPool.exec, subPool]
    | succ n ih =>
      rw [hstep]
      rcases hcase ((subPool calls).exec shard (turns σ n)) (σ n) with e | ⟨t, -, e⟩
      · rw [e, ih]
      · rw [e, List.length_set, ih]
  generalize hp : (fun n => (subPool calls).exec shard (turns σ n)) = p at *
  have hp' : ∀ n, (subPool calls).exec shard (turns σ n) = p n := fun n => congrFun hp n
  simp only [hp'] at *
  obtain ⟨N, hN⟩ := settles (r := OneOf SubLater) (fun n => (p n).threads) (OneOf.acc SubLater.acc _) (by
    intro n
    show (p (n + 1)).threads = _ ∨ OneOf SubLater (p (n + 1)).threads _
    rw [hstep]
    rcases hcase (p n) (σ n) with e | ⟨t, ht, e⟩
    · rw [e]; exact .inl rfl
    · rw [e]
      rcases t.step_later ((p n).free shard) (p n).mgr with h | h
      · left; rw [h]; exact set_same ht
      · exact .inr (OneOf.set ht h))
  refine ⟨N, fun n hn => ?_⟩
  rw [show (p n).threads = (p N).threads from hN n hn]
  refine Classical.byContradiction fun hne => ?_
  -- some call can go on
  have hable : ∃ (i : Nat) (t : SubThread), (p N).threads[i]? = some t ∧ ¬ SubDone t ∧
      (t.holds ≠ none ∨ ∀ s, (p N).free shard s = true) := by
    by_cases hh : ∃ t ∈ (p N).threads, t.holds ≠ none
    · obtain ⟨t, ht, hh⟩ := hh
      obtain ⟨i, hi⟩ := List.getElem?_of_mem ht
      refine ⟨i, t, hi, ?_, .inl hh⟩
      cases t <;> simp_all [SubThread.holds, SubDone]
    · have : ∃ t ∈ (p N).threads, ¬ SubDone t := by
        refine Classical.byContradiction fun hno => hne fun t ht => ?_
        exact Classical.byContradiction fun hd => hno ⟨t, ht, hd⟩
      obtain ⟨t, ht, hd⟩ := this
      obtain ⟨i, hi⟩ := List.getElem?_of_mem ht
      refine ⟨i, t, hi, hd, .inr ?_⟩
      intro s
      unfold SubPool.free
      rw [List.all_eq_true]
      intro u hu
      cases hu' : u.holds with
      | none => rfl
      | some s' => exact absurd ⟨u, hu, by rw [hu']; simp⟩ hh
  obtain ⟨i, t, hi, hd, hw⟩ := hable
  have hlt : i < calls.length := by rw [← hlen N]; exact (List.getElem?_eq_some_iff.mp hi).1
  obtain ⟨k, hk, hσ⟩ := hf i hlt N
  have e1 : (p k).threads = (p N).threads := hN k hk
  have e2 : (p (k + 1)).threads = (p N).threads := hN (k + 1) (by omega)
  have hik : (p k).threads[i]? = some t := by rw [e1]; exact hi
  have hfree : (p k).free shard = (p N).free shard := by funext w; simp only [SubPool.free, e1]
  have hon := SubThread.step_moves (free := (p k).free shard) (p k).mgr hd (by rw [hfree]; exact hw)
  have e3 : (p (k + 1)).threads = (p k).threads.set i (t.step ((p k).free shard) (p k).mgr).1 := by
    rw [hstep, hσ]; simp only [SubPool.stepAt, hik]
  have := OneOf.set hik hon
  rw [← e3, e2, ← e1] at this
  exact acc_irrefl (OneOf.acc SubLater.acc _) this

/-! ## Commands -/

/-- What is left to do after one step. -/
inductive ProgLater {α : Type} : Prog α → Prog α → Prop
  | onKey {k upd next o} : ProgLater (next o) (.onKey k upd next)
  | onCtr {m upd next o} : ProgLater (next o) (.onCtr m upd next)

theorem ProgLater.acc {α : Type} (q : Prog α) : Acc ProgLater q := by
  induction q with
  | done r => exact ⟨_, fun _ h => by cases h⟩
  | onKey k upd next ih => exact ⟨_, fun _ h => by cases h; exact ih _⟩
  | onCtr m upd next ih => exact ⟨_, fun _ h => by cases h; exact ih _⟩

/-- Programs end if each gets its turn again and again. -/
theorem pool_ends {α : Type} (p0 : Pool α) (σ : Nat → Nat) (hf : Fair p0.threads.length σ) :
    ∃ N, ∀ n, N ≤ n → ∀ q ∈ (p0.exec (turns σ n)).threads, ∃ r, q = .done r := by
  have hstep : ∀ n, p0.exec (turns σ (n + 1)) = (p0.exec (turns σ n)).stepAt (σ n) := by
    intro n; rw [turns_succ, Pool.exec_append]; rfl
  have hcase : ∀ (p : Pool α) i, p.stepAt i = p ∨ ∃ t, p.threads[i]? = some t ∧
      (p.stepAt i).threads = p.threads.set i (t.step p.db).1 := by
    intro p i
    unfold Pool.stepAt
    split
    · exact .inl rfl
    · rename_i t ht; exact .inr ⟨t, ht, rfl⟩
  have hlen : ∀ n, (p0.exec (turns σ n)).threads.length = p0.threads.length := by
    intro n
    induction n with
    | zero => simp [turns, Pool.exec]
    | succ n ih =>
      rw [hstep]
      rcases hcase (p0.exec (turns σ n)) (σ n) with e | ⟨t, -, e⟩
      · rw [e, ih]
      · rw [e, List.length_set, ih]
  generalize hp : (fun n => p0.exec (turns σ n)) = p at *
  have hp' : ∀ n, p0.exec (turns σ n) = p n := fun n => congrFun hp n
  simp only [hp'] at *
  have hq : ∀ (q : Prog α) (db : Db), (q.step db).1 = q ∨ ProgLater (q.step db).1 q := by
    intro q db
    cases q with
    | done r => exact .inl rfl
    | onKey k upd next => exact .inr .onKey
    | onCtr m upd next => exact .inr .onCtr
  obtain ⟨N, hN⟩ := settles (r := OneOf ProgLater) (fun n => (p n).threads) (OneOf.acc ProgLater.acc _) (by
    intro n
    show (p (n + 1)).threads = _ ∨ OneOf ProgLater (p (n + 1)).threads _
    rw [hstep]
    rcases hcase (p n) (σ n) with e | ⟨t, ht, e⟩
    · rw [e]; exact .inl rfl
    · rw [e]
      rcases hq t (p n).db with h | h
      · left; rw [h]; exact set_same ht
      · exact .inr (OneOf.set ht h))
  refine ⟨N, fun n hn => ?_⟩
  rw [show (p n).threads = (p N).threads from hN n hn]
  intro q hqm
  obtain ⟨i, hi⟩ := List.getElem?_of_mem hqm
  have hlt : i < p0.threads.length := by rw [← hlen N]; exact (List.getElem?_eq_some_iff.mp hi).1
  obtain ⟨k, hk, hσ⟩ := hf i hlt N
  have e1 : (p k).threads = (p N).threads := hN k hk
  have e2 : (p (k + 1)).threads = (p N).threads := hN (k + 1) (by omega)
  have hik : (p k).threads[i]? = some q := by rw [e1]; exact hi
  have e3 : (p (k + 1)).threads = (p k).threads.set i (q.step (p k).db).1 := by
    rw [hstep, hσ]; simp only [Pool.stepAt, hik]
  have no : ¬ ProgLater (q.step (p k).db).1 q := by
    intro h
    have := OneOf.set hik h
    rw [← e3, e2, ← e1] at this
    exact acc_irrefl (OneOf.acc ProgLater.acc _) this
  cases q with
  | done r => exact ⟨r, rfl⟩
  | onKey k upd next => exact absurd .onKey no
  | onCtr m upd next => exact absurd .onCtr no

/-- C139, commands. Clients that issue any number of requests, each depending on the answers so far, come to their end if
each gets its turn again and again, with an answer to every request; for each client the others issue at most `env.spins`
requests that may remove a key it names (the loop has no bound in the program, see C134). -/
theorem C139_clients (env : Env) (cs : List (Client × Nat)) (db : Db)
    (hd : ∀ (i : Nat) (c : Client × Nat), cs[i]? = some c → ∀ k r, Client.Issues c.1 r → r.arg 0 = some k → threats cs i k ≤ env.spins)
    (σ : Nat → Nat) (hf : Fair cs.length σ) :
    ∃ N, ∀ n, N ≤ n → ∀ q ∈ ((Clients.pool env cs db).exec (turns σ n)).threads,
      ∃ answers, q = .done (.ok answers) ∧ Outcome.stuck ∉ answers := by
  obtain ⟨N, hN⟩ := pool_ends (Clients.pool env cs db) σ (by simpa [Clients.pool] using hf)
  refine ⟨N, fun n hn q hq => ?_⟩
  obtain ⟨x, rfl⟩ := hN n hn q hq
  obtain ⟨i, hi⟩ := List.getElem?_of_mem hq
  have hlt : i < cs.length := by
    have h1 := (List.getElem?_eq_some_iff.mp hi).1
    have : ∀ (p : Pool (List (Outcome DispatchError Bytes))) (s : List Nat), (p.exec s).threads.length = p.threads.length := by
      intro p s
      induction s generalizing p with
      | nil => rfl
      | cons i is ih =>
        show ((p.stepAt i).exec is).threads.length = _
        rw [ih]
        unfold Pool.stepAt
        split
        · rfl
        · exact List.length_set
    rw [this] at h1
    simpa [Clients.pool] using h1
  obtain ⟨answers, rfl, h2⟩ := C102_clients env cs i cs[i] (List.getElem?_eq_getElem hlt)
    (hd i cs[i] (List.getElem?_eq_getElem hlt)) db (turns σ n) x hi
  exact ⟨answers, rfl, h2⟩

/-! ## Commands and the locks they take -/

/-- An infinite execution with locks in which no thread that can take a step (other than leaving a modification half
done) is passed over for ever. -/
structure Spec.FairRun {α : Type} (shard : Cell → Nat) (run : Nat → LPool α) : Prop where
  steps : ∀ n, run (n + 1) = run n ∨ LStep shard (run n) (run (n + 1))
  fair : ∀ (i m : Nat), ∃ n, m ≤ n ∧ (¬ Moves shard (run n) i ∨ (run (n + 1)).threads[i]? ≠ (run n).threads[i]?)

/-- One step of a thread with locks. -/
inductive LLater {α : Type} : LThread α → LThread α → Prop
  | share {c : Cell} {upd : c.Val → c.Val} {next : c.Val → Prog α} {o : c.Val} : LLater (.reading c o next) (.ready (.on c upd next))
  | lock {c : Cell} {upd : c.Val → c.Val} {next : c.Val → Prog α} {o : c.Val} : LLater (.writing c o upd next) (.ready (.on c upd next))
  | commit {c : Cell} {upd : c.Val → c.Val} {next : c.Val → Prog α} {o : c.Val} : LLater (.ready (next o)) (.writing c o upd next)
  | release {c : Cell} {next : c.Val → Prog α} {o o' : c.Val} : LLater (.ready (next o')) (.reading c o next)

theorem LLater.acc_reading {α : Type} {c : Cell} {o : c.Val} {next : c.Val → Prog α} (h : ∀ o, Acc LLater (.ready (next o))) :
    Acc LLater (.reading c o next) := ⟨_, fun _ h' => by cases h'; exact h _⟩

theorem LLater.acc_writing {α : Type} {c : Cell} {o : c.Val} {upd : c.Val → c.Val} {next : c.Val → Prog α}
    (h : ∀ o, Acc LLater (.ready (next o))) : Acc LLater (.writing c o upd next) := ⟨_, fun _ h' => by cases h'; exact h _⟩

theorem LLater.acc_ready {α : Type} (q : Prog α) : Acc LLater (.ready q) := by
  have key : ∀ q' t, LLater t (.ready q') → ∀ (c : Cell) (upd : c.Val → c.Val) (next : c.Val → Prog α), q' = .on c upd next →
      (∀ o, Acc LLater (.ready (next o))) → Acc LLater t := by
    intro q' t h c upd next e hn
    cases h with
    | @share c1 u1 n1 o1 =>
      cases c <;> cases c1 <;> simp only [Prog.on, Prog.onKey.injEq, Prog.onCtr.injEq, reduceCtorEq] at e
      all_goals
        obtain ⟨rfl, -, rfl⟩ := e
        exact acc_reading hn
    | @lock c1 u1 n1 o1 =>
      cases c <;> cases c1 <;> simp only [Prog.on, Prog.onKey.injEq, Prog.onCtr.injEq, reduceCtorEq] at e
      all_goals
        obtain ⟨rfl, -, rfl⟩ := e
        exact acc_writing hn
  induction q with
  | done r =>
    refine ⟨_, fun t h => ?_⟩
    generalize e : Prog.done r = q' at h
    generalize e' : LThread.ready q' = t' at h
    cases h with
    | @share c | @lock c => cases e'; cases c <;> cases e
    | commit | release => cases e'
  | onKey k upd next ih => exact ⟨_, fun t h => key _ t h (.key k) upd next rfl ih⟩
  | onCtr m upd next ih => exact ⟨_, fun t h => key _ t h (.ctr m) upd next rfl ih⟩

theorem LLater.acc {α : Type} (t : LThread α) : Acc LLater t := by
  cases t with
  | ready q => exact LLater.acc_ready q
  | reading c o next => exact acc_reading fun o => LLater.acc_ready _
  | writing c o upd next => exact acc_writing fun o => LLater.acc_ready _

theorem LStep.later {α : Type} {shard : Cell → Nat} {p p' : LPool α} (h : LStep shard p p') :
    p'.threads = p.threads ∨ OneOf LLater p'.threads p.threads := by
  cases h with
  | share ht => exact .inr (OneOf.set ht .share)
  | lock ht => exact .inr (OneOf.set ht .lock)
  | draft => exact .inl rfl
  | commit ht => exact .inr (OneOf.set ht .commit)
  | release ht => exact .inr (OneOf.set ht .release)

/-- C139, commands with locks. In an execution in which no thread that can go on is passed over for ever, all requests end,
whatever keys and counters share a lock. -/
theorem C139_locks {α : Type} (shard : Cell → Nat) (run : Nat → LPool α) (h : FairRun shard run) :
    ∃ N, ∀ n, N ≤ n → ∀ t ∈ (run n).threads, ∃ x, t = .ready (.done x) := by
  obtain ⟨N, hN⟩ := settles (r := OneOf LLater) (fun n => (run n).threads) (OneOf.acc LLater.acc _) (by
    intro n
    rcases h.steps n with e | e
    · left; show (run (n + 1)).threads = _; rw [e]
    · exact e.later)
  refine ⟨N, fun n hn => ?_⟩
  rw [show (run n).threads = (run N).threads from hN n hn]
  intro t ht
  obtain ⟨i, hi⟩ := List.getElem?_of_mem ht
  refine Classical.byContradiction fun hne => ?_
  -- some thread can move from now on at every moment
  have hj : ∃ j, ∀ k, N ≤ k → Moves shard (run k) j := by
    have at_ : ∀ k, N ≤ k → (run k).threads[i]? = some t := fun k hk => by
      rw [show (run k).threads = (run N).threads from hN k hk]; exact hi
    by_cases hh : ∃ (j : Nat) (t' : LThread α) (k' : Cell), (run N).threads[j]? = some t' ∧ t'.holds = some k'
    · obtain ⟨j, t', k', h1, h2⟩ := hh
      exact ⟨j, fun k hk => moves_of_holds shard (by rw [show (run k).threads = (run N).threads from hN k hk]; exact h1) h2⟩
    · refine ⟨i, fun k hk => ?_⟩
      rcases C107_no_deadlock shard (run k) i t (at_ k hk) with h1 | h1 | ⟨_, k', _, _, j, t', _, h1, h2, -, -⟩
      · exact absurd h1 hne
      · exact h1
      · exact absurd ⟨j, t', k', by rw [← show (run k).threads = (run N).threads from hN k hk]; exact h1, h2⟩ hh
  obtain ⟨j, hj⟩ := hj
  obtain ⟨n, hn, h1 | h1⟩ := h.fair j N
  · exact h1 (hj n hn)
  · apply h1
    rw [show (run (n + 1)).threads = (run N).threads from hN (n + 1) (by omega),
      show (run n).threads = (run N).threads from hN n hn]

/-! ## Concrete cases -/

/-- Taking turns is fair. -/
theorem Spec.fair_turns (n : Nat) : Fair n (· % n) := by
  intro i hi m
  refine ⟨i + n * m, ?_, ?_⟩
  · have : m ≤ n * m := Nat.le_mul_of_pos_left m (by omega)
    omega
  · show (i + n * m) % n = i
    rw [Nat.add_mul_mod_self_left, Nat.mod_eq_of_lt hi]

example : ∃ N, ∀ n, N ≤ n → ∀ t ∈ ((attending [.add [1] fun k _ => .drop k .done, .add [2] fun _ _ => .done] (.new .new)).exec .debug
    (fun _ => 0) (turns (· % 2) n)).threads, Departed t :=
  C139_sessions .debug (fun _ => 0) _ (by
    intro q hq
    rcases List.mem_cons.mp hq with rfl | hq
    · exact ⟨rfl, fun k s => trivial⟩
    · obtain rfl := List.mem_singleton.mp hq; exact ⟨rfl, fun k s => trivial⟩) _ _ (fair_turns 2)

example : ∃ N, ∀ n, N ≤ n → ∀ t ∈ ((subPool [.op (.subscribe [1] 0), .op (.removeSession 0)]).exec (fun _ => 0) (turns (· % 2) n)).threads,
    SubDone t := C139_pubsub _ _ _ (fair_turns 2)

/-- Two threads that take guards of two keys in the order of their locks. -/
example : ∃ N, ∀ n, N ≤ n → ∀ t ∈ ((begun [.acquire [1] true fun _ => .acquire [1, 1] true fun _ => .done,
    .acquire [1] true fun _ => .acquire [1, 1] true fun _ => .done] (sampleDb [([1], .integer 1), ([1, 1], .integer 2)])).exec List.length
    (turns (· % 2) n)).threads, Gone t := by
  refine C139_guards List.length _ ?_ _ _ (fair_turns 2)
  have h : Orderly (ascending List.length) [] (.acquire [1] true fun _ => .acquire [1, 1] true fun _ => .done) :=
    ⟨fun _ h => (by cases h), ⟨fun _ h => (by cases h), trivial, fun _ => trivial⟩,
      fun _ => ⟨fun x h => (by obtain rfl := List.mem_singleton.mp h; decide), trivial, fun _ => trivial⟩⟩
  intro q hq
  rcases List.mem_cons.mp hq with rfl | hq
  · exact h
  · obtain rfl := List.mem_singleton.mp hq; exact h

/-- One client increments a missing key twice while another deletes it twice. -/
example : ∃ N, ∀ n, N ≤ n → ∀ q ∈ ((Clients.pool (sampleEnv .debug)
      [(Client.fixed [call .increment none [[1]], call .increment none [[1]]], 2),
        (Client.fixed [call .delete none [[1]], call .delete none [[1]]], 2)] (sampleDb [])).exec (turns (· % 2) n)).threads,
    ∃ answers, q = .done (.ok answers) ∧ Outcome.stuck ∉ answers := by
  refine C139_clients _ _ _ ?_ _ (fair_turns 2)
  intro i c hi k r _ _
  match i, hi with
  | 0, _ =>
    simp only [threats, List.eraseIdx_zero, List.tail_cons, List.map_cons, List.map_nil, List.sum_cons, List.sum_nil]
    split <;> decide
  | 1, _ =>
    simp only [threats, List.eraseIdx_cons_succ, List.eraseIdx_zero, List.tail_cons, List.map_cons, List.map_nil, List.sum_cons, List.sum_nil]
    split <;> decide
  | i + 2, hi => cases hi

/-- One thread that modifies a key. -/
private def lone (upd : Option Value → Option Value) (db : Db) : Nat → LPool Unit
  | 0 => { threads := [.ready (.onKey [1] upd fun _ => .done (.ok ()))], db := db }
  | 1 => { threads := [.writing (.key [1]) (db.keys [1]) upd fun _ => .done (.ok ())], db := db }
  | _ + 2 => { threads := [.ready (.done (.ok ()))], db := db.setKey [1] (upd (db.keys [1])) }

example (upd : Option Value → Option Value) (db : Db) : FairRun (fun _ => 0) (lone upd db) := by
  refine ⟨?_, ?_⟩
  · intro n
    match n with
    | 0 =>
      right
      refine LStep.lock (i := 0) (c := .key [1]) rfl ?_
      intro j t k' hj hh
      cases j with
      | zero => cases hj; cases hh
      | succ j => cases hj
    | 1 =>
      right
      exact LStep.commit (p := lone upd db 1) (i := 0) (c := .key [1]) (o := db.keys [1]) (upd := upd) (next := fun _ => .done (.ok ())) rfl
    | n + 2 => exact .inl rfl
  · intro i m
    refine ⟨m + 2, by omega, .inl ?_⟩
    rintro ⟨t, t', db', ht, hs, -⟩
    have hall : ∀ (j : Nat) u, (lone upd db (m + 2)).threads[j]? = some u → u = .ready (.done (.ok ())) := by
      intro j u hj
      cases j with
      | zero => cases hj; rfl
      | succ j => cases hj
    have key : ∀ p', LStep (fun _ => 0) (lone upd db (m + 2)) p' → False := by
      intro p' hs
      cases hs with
      | @share i c u n h => exact absurd (hall _ _ h) (by cases c <;> simp [Prog.on])
      | @lock i c u n h => exact absurd (hall _ _ h) (by cases c <;> simp [Prog.on])
      | draft _ h => exact absurd (hall _ _ h) (by simp)
      | commit h => exact absurd (hall _ _ h) (by simp)
      | release h => exact absurd (hall _ _ h) (by simp)
    exact key _ hs

end Hop
