import Verif.Props.EngineGuards
import Verif.Props.Fair

/-! # C185, in fair executions -/

namespace Hop

open Spec

theorem EMove.still {fk : Bytes × Bool → Bool} {fs : UInt32 → Bool} {h : HopEngine} {t t' : EThread} {ks ss}
    (hm : EMove fk fs h t t' ks ss) : t' = t ∨ EOnward t' t := by
  by_cases hd : AllDone t
  · left
    obtain ⟨keys, held, call, prog⟩ := t
    obtain ⟨h1, h2, h3, h4⟩ := hd
    dsimp only at h1 h2 h3 h4
    subst h1 h2 h3 h4
    cases hm <;> rfl
  · cases hm with
    | waitKey => exact .inl rfl
    | waitSession => exact .inl rfl
    | ended => exact .inr (.ended hd)
    | taken => exact .inr .panicked
    | overflow => exact .inr .panicked
    | change => exact .inr .access
    | read => exact .inr .access
    | missed => exact .inr .acquire
    | acquired => exact .inr .acquire
    | look => exact .inr .look
    | write => exact .inr .write
    | skip => exact .inr .write
    | drop => exact .inr .drop
    | count => exact .inr .count
    | finish => exact .inr .added
    | removed => exact .inr .removed
    | lookSession => exact .inr .lookSession
    | writeSession => exact .inr .writeSession
    | skipSession => exact .inr .writeSession
    | dropSession => exact .inr .dropSession
    | make => exact .inr (.within (by simp [EThread.rank]))
    | number => exact .inr (.within (by simp [EThread.rank]))
    | insert => exact .inr (.within (by simp [EThread.rank]))
    | counted => exact .inr (.within (by simp [EThread.rank]))
    | reread => exact .inr (.within (by simp [EThread.rank]))

/-- C185, in fair executions. If every thread asks only for locks that rank higher than all it holds, as in `C185_ranked`,
and each gets its turn again and again, then from some moment on all of them have ended. -/
theorem C185_fair (mode : Mode) (sk : Bytes → Nat) (ss : UInt32 → Nat) (rk rs : Nat → Nat) (progs : List EProg)
    (hq : ∀ q ∈ progs, Minding (aboveKey (fun k => rk (sk k)) fun i => rs (ss i)) (aboveSession (fun k => rk (sk k)) fun i => rs (ss i)) [] [] q)
    (h : HopEngine) (σ : Nat → Nat) (hf : Fair progs.length σ) :
    ∃ N, ∀ n, N ≤ n → ∀ t ∈ ((starting progs h).exec mode sk ss (turns σ n)).threads, AllDone t := by
  have ha : ∀ n, Engaged sk ss ((starting progs h).exec mode sk ss (turns σ n)) := fun n => (Engaged.starting sk ss progs h).exec _
  have hc := fun n => (AllMinding.begin hq h).exec (mode := mode) (Engaged.starting sk ss progs h) (turns σ n)
  have hstep : ∀ n, (starting progs h).exec mode sk ss (turns σ (n + 1)) =
      ((starting progs h).exec mode sk ss (turns σ n)).stepAt mode sk ss (σ n) := by
    intro n; rw [turns_succ, EPool.exec_append]; rfl
  have hlen : ∀ n, ((starting progs h).exec mode sk ss (turns σ n)).threads.length = progs.length := by
    intro n
    induction n with
    | zero => simp [turns, EPool.exec, starting]
    | succ n ih =>
      rw [hstep]
      rcases EPool.stepAt_cases mode sk ss ((starting progs h).exec mode sk ss (turns σ n)) (σ n) with e | ⟨t, -, e⟩
      · rw [e, ih]
      · rw [e]; show (List.set _ _ _).length = _; rw [List.length_set, ih]
  generalize hp : (fun n => (starting progs h).exec mode sk ss (turns σ n)) = p at *
  have hp' : ∀ n, (starting progs h).exec mode sk ss (turns σ n) = p n := fun n => congrFun hp n
  simp only [hp'] at *
  obtain ⟨N, hN⟩ := settles (r := SomeEOnward) (fun n => (p n).threads) (SomeEOnward.acc _) (by
    intro n
    show (p (n + 1)).threads = _ ∨ SomeEOnward (p (n + 1)).threads _
    rw [hstep]
    rcases EPool.stepAt_cases mode sk ss (p n) (σ n) with e | ⟨t, ht, e⟩
    · rw [e]; exact .inl rfl
    · rw [e]
      rcases ((ha n).wf _ t ht).move mode ((p n).freeKey sk) ((p n).freeSession ss) (p n).engine |>.still with h | h
      · left; show (p n).threads.set _ _ = _; rw [h]; exact set_same ht
      · exact .inr (SomeEOnward.set ht h))
  refine ⟨N, fun n hn => ?_⟩
  rw [show (p n).threads = (p N).threads from hN n hn]
  refine Classical.byContradiction fun hne => ?_
  obtain ⟨i, t, hi, hd, hk, hw⟩ := (ha N).able (hc N) hne
  have hlt : i < progs.length := by rw [← hlen N]; exact (List.getElem?_eq_some_iff.mp hi).1
  obtain ⟨k, hk', hσ⟩ := hf i hlt N
  have e1 : (p k).threads = (p N).threads := hN k hk'
  have e2 : (p (k + 1)).threads = (p N).threads := hN (k + 1) (by omega)
  have hfk : (p k).freeKey sk = (p N).freeKey sk := by funext w; simp only [EPool.freeKey, e1]
  have hfs : (p k).freeSession ss = (p N).freeSession ss := by funext w; simp only [EPool.freeSession, e1]
  have hik : (p k).threads[i]? = some t := by rw [e1]; exact hi
  have hon := (((ha k).wf i t hik).move mode ((p k).freeKey sk) ((p k).freeSession ss) (p k).engine).onward hd
    (by rw [hfk]; exact hk) (by rw [hfs]; exact hw)
  have e3 : (p (k + 1)).threads = (p k).threads.set i (t.step mode ((p k).freeKey sk) ((p k).freeSession ss) (p k).engine).1 := by
    rw [hstep, hσ]; simp only [EPool.stepAt, hik]
  have := SomeEOnward.set hik hon
  rw [← e3, e2, ← e1] at this
  exact acc_irrefl (SomeEOnward.acc _) this

/-- C185, in fair executions: threads that use keys only while they keep no guard, and sessions only while they keep no guard
of a session, all end. -/
theorem C185_fair_keys_first (mode : Mode) (sk : Bytes → Nat) (ss : UInt32 → Nat) (progs : List EProg) (hq : ∀ q ∈ progs, KeysFirst q)
    (h : HopEngine) (σ : Nat → Nat) (hf : Fair progs.length σ) :
    ∃ N, ∀ n, N ≤ n → ∀ t ∈ ((starting progs h).exec mode sk ss (turns σ n)).threads, AllDone t := by
  refine C185_fair mode sk ss (fun _ => 0) (fun _ => 1) progs (fun q hm => Spec.Minding.mono ?_ ?_ q (hq q hm)) h σ hf
  · rintro ks ss k ⟨rfl, rfl⟩; exact ⟨by simp, by simp⟩
  · rintro ks ss k rfl; exact ⟨by simp, by simp⟩

/-- C185, in fair executions: and so do threads that use sessions only while they keep no guard, and keys only while they keep
no guard of a key. -/
theorem C185_fair_sessions_first (mode : Mode) (sk : Bytes → Nat) (ss : UInt32 → Nat) (progs : List EProg)
    (hq : ∀ q ∈ progs, SessionsFirst q) (h : HopEngine) (σ : Nat → Nat) (hf : Fair progs.length σ) :
    ∃ N, ∀ n, N ≤ n → ∀ t ∈ ((starting progs h).exec mode sk ss (turns σ n)).threads, AllDone t := by
  refine C185_fair mode sk ss (fun _ => 1) (fun _ => 0) progs (fun q hm => Spec.Minding.mono ?_ ?_ q (hq q hm)) h σ hf
  · rintro ks ss k rfl; exact ⟨by simp, by simp⟩
  · rintro ks ss k ⟨rfl, rfl⟩; exact ⟨by simp, by simp⟩

/-- Two threads that take turns: one takes the guard of a key and then removes a session, the other adds a session and drops
its guard before it reads the key. -/
example : ∃ N, ∀ n, N ≤ n → ∀ t ∈ ((starting [.acquire [1] true fun _ => .remove 0 fun _ => .done,
    .add [2] fun k _ => .dropSession k (.access [1] false id fun _ => .done)] .new).exec .debug (fun _ => 0) (fun _ => 0)
      (turns (· % 2) n)).threads, AllDone t := by
  refine C185_fair_keys_first .debug _ _ _ (fun q hq => ?_) .new _ (fair_turns 2)
  rcases List.mem_cons.mp hq with rfl | hq
  · exact ⟨⟨rfl, rfl⟩, ⟨rfl, fun _ => trivial⟩, fun _ => ⟨rfl, fun _ => trivial⟩⟩
  · obtain rfl := List.mem_singleton.mp hq
    exact ⟨fun _ => rfl, fun k _ => ⟨⟨rfl, by simp⟩, fun _ => trivial⟩⟩

/-- Two threads that take the guards of two keys in the order of their locks, and then remove a session. -/
example : ∃ N, ∀ n, N ≤ n → ∀ t ∈ ((starting [.acquire [1] true fun _ => .acquire [1, 1] true fun _ => .remove 0 fun _ => .done,
    .acquire [1] false fun _ => .acquire [1, 1] true fun _ => .remove 1 fun _ => .done] .new).exec .debug List.length (fun _ => 0)
      (turns (· % 2) n)).threads, AllDone t := by
  refine C185_fair .debug List.length (fun _ => 0) id (fun _ => 9) _ (fun p hp => ?_) .new _ (fair_turns 2)
  rcases List.mem_cons.mp hp with rfl | hp
  · simp [Minding, aboveKey, aboveSession]
  · obtain rfl := List.mem_singleton.mp hp
    simp [Minding, aboveKey, aboveSession]

/-- Two threads that dispatch any commands while they keep the guards of sessions. -/
example (ex : List (Option Value) → Bool) (q q' : Prog Bytes) :
    ∃ N, ∀ n, N ≤ n → ∀ t ∈ ((starting [.add [2] fun k _ => EProg.ofProg ex [] q fun _ => .dropSession k .done,
      .add [3] fun k _ => EProg.ofProg ex [] q' fun _ => .dropSession k .done] .new).exec .debug (fun _ => 0) (fun _ => 0)
      (turns (· % 2) n)).threads, AllDone t := by
  refine C185_fair_sessions_first .debug (fun _ => 0) (fun _ => 0) _ (fun p hp => ?_) .new _ (fair_turns 2)
  rcases List.mem_cons.mp hp with rfl | hp
  · exact ⟨fun _ => ⟨rfl, rfl⟩, fun k _ => C185_commands ex q [] [k] (fun _ => rfl) (fun _ => .dropSession k .done) (fun _ => trivial) []⟩
  · obtain rfl := List.mem_singleton.mp hp
    exact ⟨fun _ => ⟨rfl, rfl⟩, fun k _ => C185_commands ex q' [] [k] (fun _ => rfl) (fun _ => .dropSession k .done) (fun _ => trivial) []⟩

end Hop
