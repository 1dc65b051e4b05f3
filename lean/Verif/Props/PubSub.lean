import Verif.Spec.PubSub
import Verif.Lemmas.Lists

/-! # C39: publish/subscribe -/

namespace Hop

open Spec

theorem split_snoc {α : Type} {h pre post : List α} {o a : α} :
    h ++ [o] = pre ++ a :: post ↔ (post = [] ∧ h = pre ∧ o = a) ∨ ∃ q, post = q ++ [o] ∧ h = pre ++ a :: q := by
  constructor
  · intro e
    rcases List.eq_nil_or_concat post with rfl | ⟨q, x, rfl⟩
    · left
      have := List.append_inj' e (by simp)
      simp at this
      exact ⟨rfl, this.1, this.2⟩
    · right
      rw [List.concat_eq_append] at e ⊢
      have h2 : h ++ [o] = (pre ++ a :: q) ++ [x] := by simpa using e
      have := List.append_inj' h2 (by simp)
      simp at this
      exact ⟨q, by rw [this.2], this.1⟩
  · rintro (⟨rfl, rfl, rfl⟩ | ⟨q, rfl, rfl⟩)
    · rfl
    · simp

theorem Subscribed.snoc {h : List SubOp} {o : SubOp} {k : Bytes} {s : UInt32} :
    Subscribed (h ++ [o]) k s ↔
      o = .subscribe k s ∨ (Subscribed h k s ∧ o ≠ .unsubscribe k s ∧ o ≠ .removeSession s) := by
  constructor
  · rintro ⟨pre, post, e, h1, h2⟩
    rcases split_snoc.mp e with ⟨rfl, rfl, ho⟩ | ⟨q, rfl, rfl⟩
    · exact .inl ho
    · refine .inr ⟨⟨pre, q, rfl, fun hm => h1 (by simp [hm]), fun hm => h2 (by simp [hm])⟩, ?_, ?_⟩
      · rintro rfl; exact h1 (by simp)
      · rintro rfl; exact h2 (by simp)
  · rintro (rfl | ⟨⟨pre, post, rfl, h1, h2⟩, h3, h4⟩)
    · exact ⟨h, [], rfl, by simp, by simp⟩
    · exact ⟨pre, post ++ [o], by simp, by simp [h1, Ne.symm h3], by simp [h2, Ne.symm h4]⟩

theorem EverSubscribed.snoc {h : List SubOp} {o : SubOp} {k : Bytes} :
    EverSubscribed (h ++ [o]) k ↔ EverSubscribed h k ∨ ∃ s, o = .subscribe k s := by
  unfold EverSubscribed
  constructor
  · rintro ⟨s, hs⟩
    rcases List.mem_append.mp hs with hs | hs
    · exact .inl ⟨s, hs⟩
    · exact .inr ⟨s, (List.mem_singleton.mp hs).symm⟩
  · rintro (⟨s, hs⟩ | ⟨s, rfl⟩)
    · exact ⟨s, by simp [hs]⟩
    · exact ⟨s, by simp⟩

theorem Pioneer.snoc {h : List SubOp} {o : SubOp} {k : Bytes} {s : UInt32} :
    Pioneer (h ++ [o]) k s ↔
      (o = .subscribe k s ∧ ¬ EverSubscribed h k) ∨ (Pioneer h k s ∧ o ≠ .unsubscribe k s) := by
  constructor
  · rintro ⟨pre, post, e, h1, h2⟩
    rcases split_snoc.mp e with ⟨rfl, rfl, ho⟩ | ⟨q, rfl, rfl⟩
    · exact .inl ⟨ho, h1⟩
    · refine .inr ⟨⟨pre, q, rfl, h1, fun hm => h2 (by simp [hm])⟩, ?_⟩
      rintro rfl; exact h2 (by simp)
  · rintro (⟨rfl, h1⟩ | ⟨⟨pre, post, rfl, h1, h2⟩, h3⟩)
    · exact ⟨h, [], rfl, h1, by simp⟩
    · exact ⟨pre, post ++ [o], by simp, h1, by simp [h2, Ne.symm h3]⟩

theorem Used.snoc {h : List SubOp} {o : SubOp} {s : UInt32} :
    Used (h ++ [o]) s ↔ (∃ k, o = .subscribe k s) ∨ (Used h s ∧ o ≠ .removeSession s) := by
  constructor
  · rintro ⟨pre, k, post, e, h2⟩
    rcases split_snoc.mp e with ⟨rfl, rfl, ho⟩ | ⟨q, rfl, rfl⟩
    · exact .inl ⟨k, ho⟩
    · refine .inr ⟨⟨pre, k, q, rfl, fun hm => h2 (by simp [hm])⟩, ?_⟩
      rintro rfl; exact h2 (by simp)
  · rintro (⟨k, rfl⟩ | ⟨⟨pre, k, post, rfl, h2⟩, h3⟩)
    · exact ⟨h, k, [], rfl, by simp⟩
    · exact ⟨pre, k, post ++ [o], by simp, by simp [h2, Ne.symm h3]⟩

/-- How the manager's maps relate to the history. -/
structure SubInv (h : List SubOp) (p : PubSub) : Prop where
  subscribed : ∀ k s, (p.get k s).isSome ↔ Subscribed h k s
  ever : ∀ k, (p.keys k).isSome ↔ EverSubscribed h k
  pioneer : ∀ k s, (∃ l, p.keys k = some l ∧ s ∈ l) ↔ Pioneer h k s
  used : ∀ s, (p.sessions s).isSome ↔ Used h s

theorem lookup_append_new {m : SubMap} {k : Bytes} {x : Nat} (hn : m.lookup k = none) (k' : Bytes) :
    (m ++ [(k, x)]).lookup k' = if k' = k then some x else m.lookup k' := by
  induction m with
  | nil =>
    by_cases e : k' = k
    · simp [e]
    · have : (k' == k) = false := by simpa using e
      simp [List.lookup, e, this]
  | cons a m ih =>
    obtain ⟨a, y⟩ := a
    rw [List.cons_append]
    by_cases e1 : k = a
    · subst e1; simp [List.lookup] at hn
    · have h1 : (k == a) = false := by simpa using e1
      simp only [List.lookup, h1] at hn
      by_cases e2 : k' = a
      · subst e2
        have : (k' == k') = true := by simp
        simp [List.lookup, Ne.symm e1]
      · have h2 : (k' == a) = false := by simpa using e2
        simp only [List.lookup, h2]
        exact ih hn

theorem lookup_filter (m : SubMap) (k k' : Bytes) :
    (m.filter (fun e => e.1 != k)).lookup k' = if k' = k then none else m.lookup k' := by
  induction m with
  | nil => simp
  | cons a m ih =>
    obtain ⟨a, y⟩ := a
    by_cases e : a = k
    · subst e
      rw [List.filter_cons_of_neg (by simp), ih]
      by_cases e2 : k' = a
      · simp [e2]
      · have h2 : (k' == a) = false := by simpa using e2
        simp [List.lookup, h2]
    · rw [List.filter_cons_of_pos (by simpa using e)]
      by_cases e2 : k' = a
      · subst e2; simp [List.lookup, e]
      · have h2 : (k' == a) = false := by simpa using e2
        simp only [List.lookup, h2, ih]

theorem get_subscribe (p : PubSub) (k k' : Bytes) (s s' : UInt32) :
    (p.subscribe k s).2.get k' s' =
      if k' = k ∧ s' = s then some ((p.get k s).getD p.made) else p.get k' s' := by
  unfold PubSub.subscribe
  dsimp only
  have hg : ((p.sessions s).getD []).lookup k = p.get k s := by
    unfold PubSub.get; cases p.sessions s <;> simp
  have hg' : ((p.sessions s).getD []).lookup k' = p.get k' s := by
    unfold PubSub.get; cases p.sessions s <;> simp
  cases hx : ((p.sessions s).getD []).lookup k with
  | some x =>
    rw [hx] at hg
    rw [← hg]
    simp only [PubSub.get]
    by_cases e : s' = s
    · subst e
      simp only [if_true, and_true]
      by_cases e2 : k' = k
      · subst e2; simp [hx]
      · rw [if_neg e2]; exact hg'
    · simp [e]
  | none =>
    rw [hx] at hg
    rw [← hg]
    dsimp only
    have key : ∀ q : PubSub, q.sessions = (fun s'' => if s'' = s then some ((p.sessions s).getD [] ++ [(k, p.made)])
        else p.sessions s'') → q.get k' s' = if k' = k ∧ s' = s then some p.made else p.get k' s' := by
      intro q hq
      unfold PubSub.get
      rw [hq]
      dsimp only
      by_cases e : s' = s
      · subst e
        simp only [if_true, and_true]
        rw [lookup_append_new hx]
        by_cases e2 : k' = k
        · simp [e2]
        · rw [if_neg e2, if_neg e2]; exact hg'
      · simp [e]
    split <;> exact key _ rfl

theorem get_unsubscribe (p : PubSub) (k k' : Bytes) (s s' : UInt32) :
    (p.unsubscribe k s).2.get k' s' = if k' = k ∧ s' = s then none else p.get k' s' := by
  unfold PubSub.unsubscribe PubSub.get
  dsimp only
  cases hs : p.sessions s with
  | none =>
    by_cases e : s' = s
    · subst e; simp [hs]
    · simp [e]
  | some m =>
    by_cases e : s' = s
    · subst e
      simp only [if_true, lookup_filter, hs, and_true]
    · simp [e]

theorem get_removeSession (p : PubSub) (k : Bytes) (s s' : UInt32) :
    (p.removeSession s).2.get k s' = if s' = s then none else p.get k s' := by
  unfold PubSub.removeSession PubSub.get
  cases hs : p.sessions s with
  | none =>
    by_cases e : s' = s
    · subst e; simp [hs]
    · simp [e]
  | some m => by_cases e : s' = s <;> simp [e]

theorem subInv (h : List SubOp) : SubInv h (subsAfter h) := by
  induction h using snoc_ind with
  | h0 =>
    refine ⟨?_, ?_, ?_, ?_⟩
    · intro k s; simp [subsAfter, PubSub.new, PubSub.get, Subscribed]
    · intro k; simp [subsAfter, PubSub.new, EverSubscribed]
    · intro k s; simp [subsAfter, PubSub.new, Pioneer]
    · intro s; simp [subsAfter, PubSub.new, Used]
  | h1 h o ih =>
    have he : subsAfter (h ++ [o]) = o.apply (subsAfter h) := by simp [subsAfter]
    rw [he]
    generalize subsAfter h = p at ih
    obtain ⟨i1, i2, i3, i4⟩ := ih
    cases o with
    | subscribe k s =>
      refine ⟨?_, ?_, ?_, ?_⟩
      · intro k' s'
        simp only [SubOp.apply, get_subscribe, Subscribed.snoc, ← i1]
        by_cases e : k' = k ∧ s' = s
        · simp [e.1, e.2]
        · rw [if_neg e]
          have : SubOp.subscribe k s ≠ .subscribe k' s' := by
            intro hh; cases hh; exact e ⟨rfl, rfl⟩
          simp [this]
      · intro k'
        rw [EverSubscribed.snoc, ← i2]
        simp only [SubOp.apply, PubSub.subscribe]
        split
        · rename_i x hx
          have hsub : Subscribed h k s := by
            rw [← i1]
            unfold PubSub.get
            cases hs : p.sessions s with
            | none => rw [hs] at hx; simp at hx
            | some m => rw [hs] at hx; simp at hx; simp [hx]
          have hev : (p.keys k).isSome := by
            rw [i2]
            obtain ⟨pre, post, rfl, _⟩ := hsub
            exact ⟨s, by simp⟩
          constructor
          · exact .inl
          · rintro (h1 | ⟨s'', h1⟩)
            · exact h1
            · cases h1; exact hev
        · split
          · rename_i l hl
            constructor
            · exact .inl
            · rintro (h1 | ⟨s'', h1⟩)
              · exact h1
              · cases h1; simpa using congrArg Option.isSome hl
          · by_cases e : k' = k
            · subst e; simp
            · simp [e, Ne.symm e]
      · intro k' s'
        rw [Pioneer.snoc, ← i3, ← i2]
        simp only [SubOp.apply, PubSub.subscribe]
        split
        · rename_i x hx
          have hsub : Subscribed h k s := by
            rw [← i1]
            unfold PubSub.get
            cases hs : p.sessions s with
            | none => rw [hs] at hx; simp at hx
            | some m => rw [hs] at hx; simp at hx; simp [hx]
          have hev : (p.keys k).isSome := by
            rw [i2]
            obtain ⟨pre, post, rfl, _⟩ := hsub
            exact ⟨s, by simp⟩
          constructor
          · intro h1; exact .inr ⟨h1, by simp⟩
          · rintro (⟨h1, h2⟩ | ⟨h1, _⟩)
            · cases h1; exact (h2 hev).elim
            · exact h1
        · split
          · rename_i l hl
            constructor
            · intro h1; exact .inr ⟨h1, by simp⟩
            · rintro (⟨h1, h2⟩ | ⟨h1, _⟩)
              · cases h1; exact (h2 (by simpa using congrArg Option.isSome hl)).elim
              · exact h1
          · rename_i hl
            have hl : p.keys k = none := hl
            by_cases e : k' = k
            · subst e
              simp [hl, eq_comm]
            · simp [e, Ne.symm e]
      · intro s'
        rw [Used.snoc, ← i4]
        have : ∀ q : PubSub, (∃ x, q.sessions = fun s'' => if s'' = s then some x else p.sessions s'') →
            ((q.sessions s').isSome ↔ s = s' ∨ (p.sessions s').isSome) := by
          rintro q ⟨x, hq⟩
          rw [hq]
          by_cases e : s' = s
          · simp [e]
          · simp [e, Ne.symm e]
        have hh : ((∃ k_1, SubOp.subscribe k s = SubOp.subscribe k_1 s') ∨
            (p.sessions s').isSome = true ∧ SubOp.subscribe k s ≠ .removeSession s') ↔ s = s' ∨ (p.sessions s').isSome := by
          simp
        rw [hh]
        simp only [SubOp.apply, PubSub.subscribe]
        split
        · exact this _ ⟨_, rfl⟩
        · split <;> exact this _ ⟨_, rfl⟩
    | unsubscribe k s =>
      refine ⟨?_, ?_, ?_, ?_⟩
      · intro k' s'
        simp only [SubOp.apply, get_unsubscribe, Subscribed.snoc, ← i1]
        by_cases e : k' = k ∧ s' = s
        · simp [e.1, e.2]
        · rw [if_neg e]
          have : SubOp.unsubscribe k s ≠ .unsubscribe k' s' := by
            intro hh; cases hh; exact e ⟨rfl, rfl⟩
          simp [this]
      · intro k'
        rw [EverSubscribed.snoc, ← i2]
        simp only [SubOp.apply, PubSub.unsubscribe]
        cases hk : p.keys k with
        | none => simp
        | some l =>
          by_cases e : k' = k
          · subst e; simp [hk]
          · simp [e]
      · intro k' s'
        rw [Pioneer.snoc, ← i3]
        simp only [SubOp.apply, PubSub.unsubscribe]
        cases hk : p.keys k with
        | none =>
          by_cases e : k' = k
          · subst e; simp [hk]
          · simp [Ne.symm e]
        | some l =>
          by_cases e : k' = k
          · subst e
            by_cases e2 : s' = s
            · subst e2; simp
            · simp [hk, e2, Ne.symm e2]
          · simp [e, Ne.symm e]
      · intro s'
        rw [Used.snoc, ← i4]
        simp only [SubOp.apply, PubSub.unsubscribe]
        cases hs : p.sessions s with
        | none => simp
        | some m =>
          by_cases e : s' = s
          · subst e; simp [hs]
          · simp [e]
    | removeSession s =>
      refine ⟨?_, ?_, ?_, ?_⟩
      · intro k' s'
        simp only [SubOp.apply, get_removeSession, Subscribed.snoc, ← i1]
        by_cases e : s' = s
        · simp [e]
        · simp [e, Ne.symm e]
      · intro k'
        rw [EverSubscribed.snoc, ← i2]
        simp only [SubOp.apply, PubSub.removeSession]
        cases hs : p.sessions s <;> simp
      · intro k' s'
        rw [Pioneer.snoc, ← i3]
        simp only [SubOp.apply, PubSub.removeSession]
        cases hs : p.sessions s <;> simp
      · intro s'
        rw [Used.snoc, ← i4]
        simp only [SubOp.apply, PubSub.removeSession]
        cases hs : p.sessions s with
        | none =>
          by_cases e : s' = s
          · subst e; simp [hs]
          · simp [Ne.symm e]
        | some m =>
          by_cases e : s' = s
          · subst e; simp
          · simp [e, Ne.symm e]

/-- **C39 as documented:** after any history, `subscribe` answers with a subscription exactly if the
session was not subscribed to the key yet, `get` finds one exactly if it is subscribed, and `unsubscribe`
answers true exactly if it was. -/
def C39_Statement : Prop :=
  ∀ h k s, (((subsAfter h).subscribe k s).1.isSome ↔ ¬ Subscribed h k s) ∧
    (((subsAfter h).get k s).isSome ↔ Subscribed h k s) ∧
    (((subsAfter h).unsubscribe k s).1 = true ↔ Subscribed h k s)

/-- **C39, what holds of every history.**
* `get` finds a subscription exactly if the session is subscribed to the key (so it does right after
  `subscribe`, and does not after `unsubscribe` or `remove_session`).
* `subscribe` answers with a subscription exactly if *nobody* has ever subscribed to the key before.
* `unsubscribe` answers true exactly if the session is subscribed, or is the first one that ever
  subscribed to the key and has been removed without unsubscribing.
* `remove_session` answers true exactly if the session has subscribed to anything since its last removal,
  even if it has unsubscribed from everything.
Missing from the documented claim: the answers of `subscribe` to the second subscriber of a key and to a
returning one, and the answer of `unsubscribe` after a removal (false, see `C39_false` and below). -/
theorem C39_answers_partial (h : List SubOp) (k : Bytes) (s : UInt32) :
    (((subsAfter h).get k s).isSome ↔ Subscribed h k s) ∧
    (((subsAfter h).subscribe k s).1.isSome ↔ ¬ EverSubscribed h k) ∧
    (((subsAfter h).unsubscribe k s).1 = true ↔ Subscribed h k s ∨ Pioneer h k s) ∧
    (((subsAfter h).removeSession s).1 = true ↔ Used h s) := by
  obtain ⟨i1, i2, i3, i4⟩ := subInv h
  generalize subsAfter h = p at *
  refine ⟨i1 k s, ?_, ?_, ?_⟩
  · rw [← i2]
    unfold PubSub.subscribe
    dsimp only
    cases hx : ((p.sessions s).getD []).lookup k with
    | some x =>
      have hsub : Subscribed h k s := by
        rw [← i1]
        unfold PubSub.get
        cases hs : p.sessions s with
        | none => rw [hs] at hx; simp at hx
        | some m => rw [hs] at hx; simp at hx; simp [hx]
      have hev : (p.keys k).isSome := by
        rw [i2]
        obtain ⟨pre, post, rfl, _⟩ := hsub
        exact ⟨s, by simp⟩
      simp [hev]
    | none => cases hk : p.keys k <;> simp
  · rw [← i1, ← i3]
    unfold PubSub.unsubscribe PubSub.get
    cases hk : p.keys k <;> cases hs : p.sessions s <;> simp [or_comm]
  · rw [← i4]
    unfold PubSub.removeSession
    cases hs : p.sessions s <;> simp

/-- **C62.** The exact answers, as a claim of its own. -/
theorem C62_pubsub_exact (h : List SubOp) (k : Bytes) (s : UInt32) :
    (((subsAfter h).get k s).isSome ↔ Subscribed h k s) ∧
    (((subsAfter h).subscribe k s).1.isSome ↔ ¬ EverSubscribed h k) ∧
    (((subsAfter h).unsubscribe k s).1 = true ↔ Subscribed h k s ∨ Pioneer h k s) ∧
    (((subsAfter h).removeSession s).1 = true ↔ Used h s) :=
  C39_answers_partial h k s

/-- The second subscriber of a key is told that it was subscribed already, though it was not (and now
is). -/
theorem C39_second_subscriber (k : Bytes) (s s' : UInt32) (hne : s ≠ s') :
    let h := [SubOp.subscribe k s]
    ¬ Subscribed h k s' ∧ ((subsAfter h).subscribe k s').1 = none ∧
      Subscribed (h ++ [.subscribe k s']) k s' ∧ ((subsAfter (h ++ [.subscribe k s'])).get k s').isSome := by
  intro h
  have h1 : ¬ Subscribed h k s' := by
    rintro ⟨pre, post, e, _⟩
    rcases split_snoc.mp (show ([] : List SubOp) ++ [.subscribe k s] = _ from e) with ⟨_, _, ho⟩ | ⟨q, _, hq⟩
    · cases ho; exact hne rfl
    · simp at hq
  have h2 : Subscribed (h ++ [.subscribe k s']) k s' := ⟨h, [], rfl, by simp, by simp⟩
  refine ⟨h1, ?_, h2, ((C39_answers_partial _ k s').1).mpr h2⟩
  have := (C39_answers_partial h k s').2.1
  cases hx : ((subsAfter h).subscribe k s').1 with
  | none => rfl
  | some x => rw [hx] at this; exact (this.mp rfl ⟨s, by simp [h]⟩).elim

/-- So is a session that unsubscribed and subscribes again. -/
theorem C39_returning_subscriber (k : Bytes) (s : UInt32) :
    let h := [SubOp.subscribe k s, .unsubscribe k s]
    ¬ Subscribed h k s ∧ ((subsAfter h).subscribe k s).1 = none := by
  intro h
  constructor
  · intro hs
    have := Subscribed.snoc.mp (show Subscribed ([.subscribe k s] ++ [.unsubscribe k s]) k s from hs)
    rcases this with h1 | ⟨_, h1, _⟩
    · cases h1
    · exact h1 rfl
  · have := (C39_answers_partial h k s).2.1
    cases hx : ((subsAfter h).subscribe k s).1 with
    | none => rfl
    | some x => rw [hx] at this; exact (this.mp rfl ⟨s, by simp [h]⟩).elim

/-- A removed session is told that it unsubscribed successfully. -/
theorem C39_ghost_unsubscribe (k : Bytes) (s : UInt32) :
    let h := [SubOp.subscribe k s, .removeSession s]
    ¬ Subscribed h k s ∧ ((subsAfter h).unsubscribe k s).1 = true := by
  intro h
  constructor
  · intro hs
    have := Subscribed.snoc.mp (show Subscribed ([.subscribe k s] ++ [.removeSession s]) k s from hs)
    rcases this with h1 | ⟨_, _, h1⟩
    · cases h1
    · exact h1 rfl
  · exact ((C39_answers_partial h k s).2.2.1).mpr
      (.inr ⟨[], [.removeSession s], rfl, by simp [EverSubscribed], by simp⟩)

theorem C39_false : ¬ C39_Statement := by
  intro h
  obtain ⟨h1, h2, _⟩ := C39_second_subscriber [107] 1 2 (by decide)
  have := (h [.subscribe [107] 1] [107] 2).1.mpr h1
  rw [h2] at this
  cases this

/-! ## The subscriptions themselves -/

theorem mem_of_lookup {m : SubMap} {k : Bytes} {x : Nat} (h : m.lookup k = some x) : (k, x) ∈ m := by
  induction m with
  | nil => simp at h
  | cons a m ih =>
    obtain ⟨a, y⟩ := a
    by_cases e : k = a
    · subst e
      simp [List.lookup] at h
      simp [h]
    · have h1 : (k == a) = false := by simpa using e
      simp only [List.lookup, h1] at h
      simp [ih h]

/-- Every subscription belongs to one session and key, and is open. -/
structure Channels (p : PubSub) : Prop where
  fresh : ∀ s m k x, p.sessions s = some m → (k, x) ∈ m → x < p.made ∧ x ∉ p.closed
  known : ∀ x ∈ p.closed, x < p.made
  apart : ∀ s s' m m' k k' x, p.sessions s = some m → p.sessions s' = some m' → (k, x) ∈ m → (k', x) ∈ m' →
    s = s' ∧ k = k'

theorem mem_foldl_close (m : SubMap) (c : List Nat) (x : Nat) :
    x ∈ m.foldl (fun c e => e.2 :: c) c ↔ x ∈ c ∨ ∃ k, (k, x) ∈ m := by
  induction m generalizing c with
  | nil => simp
  | cons a m ih =>
    obtain ⟨a, y⟩ := a
    rw [List.foldl_cons, ih]
    simp only [List.mem_cons, Prod.mk.injEq]
    constructor
    · rintro ((rfl | h) | ⟨k, h⟩)
      · exact .inr ⟨a, .inl ⟨rfl, rfl⟩⟩
      · exact .inl h
      · exact .inr ⟨k, .inr h⟩
    · rintro (h | ⟨k, ⟨_, rfl⟩ | h⟩)
      · exact .inl (.inr h)
      · exact .inl (.inl rfl)
      · exact .inr ⟨k, h⟩

/-- Taking entries away keeps the invariant. -/
theorem Channels.shrink {p q : PubSub} (h : Channels p) (hm : q.made = p.made) (hc : q.closed = p.closed)
    (hs : ∀ s m, q.sessions s = some m → m = [] ∨ ∃ m', p.sessions s = some m' ∧ ∀ e ∈ m, e ∈ m') : Channels q := by
  have get : ∀ s m k x, q.sessions s = some m → (k, x) ∈ m → ∃ m', p.sessions s = some m' ∧ (k, x) ∈ m' := by
    intro s m k x h1 h2
    rcases hs s m h1 with rfl | ⟨m', h3, h4⟩
    · simp at h2
    · exact ⟨m', h3, h4 _ h2⟩
  refine ⟨?_, by rw [hm, hc]; exact h.known, ?_⟩
  · intro s m k x h1 h2
    obtain ⟨m', h3, h4⟩ := get s m k x h1 h2
    rw [hm, hc]
    exact h.fresh s m' k x h3 h4
  · intro s s' m m' k k' x h1 h2 h3 h4
    obtain ⟨n, a1, a2⟩ := get s m k x h1 h3
    obtain ⟨n', b1, b2⟩ := get s' m' k' x h2 h4
    exact h.apart s s' n n' k k' x a1 b1 a2 b2

theorem channels (h : List SubOp) : Channels (subsAfter h) := by
  induction h using snoc_ind with
  | h0 => refine ⟨?_, ?_, ?_⟩ <;> simp [subsAfter, PubSub.new]
  | h1 h o ih =>
    have he : subsAfter (h ++ [o]) = o.apply (subsAfter h) := by simp [subsAfter]
    rw [he]
    generalize subsAfter h = p at ih
    cases o with
    | subscribe k s =>
      simp only [SubOp.apply, PubSub.subscribe]
      have key : ∀ q : PubSub, q.made = p.made + 1 → q.closed = p.closed →
          q.sessions = (fun s' => if s' = s then some ((p.sessions s).getD [] ++ [(k, p.made)]) else p.sessions s') →
          Channels q := by
        intro q hm hc hs
        have get : ∀ s' m k' x, q.sessions s' = some m → (k', x) ∈ m →
            (∃ m', p.sessions s' = some m' ∧ (k', x) ∈ m') ∨ (s' = s ∧ k' = k ∧ x = p.made) := by
          intro s' m k' x h1 h2
          rw [hs] at h1
          dsimp only at h1
          by_cases e : s' = s
          · subst e
            rw [if_pos rfl] at h1
            cases h1
            rcases List.mem_append.mp h2 with h2 | h2
            · cases hp : p.sessions s' with
              | none => rw [hp] at h2; simp at h2
              | some m' => rw [hp] at h2; exact .inl ⟨m', rfl, h2⟩
            · simp at h2; exact .inr ⟨rfl, h2.1, h2.2⟩
          · rw [if_neg e] at h1; exact .inl ⟨m, h1, h2⟩
        refine ⟨?_, ?_, ?_⟩
        · intro s' m k' x h1 h2
          rw [hm, hc]
          rcases get s' m k' x h1 h2 with ⟨m', a, b⟩ | ⟨_, _, rfl⟩
          · obtain ⟨c, d⟩ := ih.fresh s' m' k' x a b
            exact ⟨by omega, d⟩
          · exact ⟨by omega, fun hx => absurd (ih.known _ hx) (by omega)⟩
        · intro x hx
          rw [hc] at hx
          rw [hm]
          have := ih.known x hx
          omega
        · intro s1 s2 m m' k1 k2 x h1 h2 h3 h4
          rcases get s1 m k1 x h1 h3 with ⟨n, a1, a2⟩ | ⟨rfl, rfl, rfl⟩
          · rcases get s2 m' k2 x h2 h4 with ⟨n', b1, b2⟩ | ⟨rfl, rfl, rfl⟩
            · exact ih.apart _ _ _ _ _ _ _ a1 b1 a2 b2
            · have := (ih.fresh _ _ _ _ a1 a2).1; omega
          · rcases get s2 m' k2 _ h2 h4 with ⟨n', b1, b2⟩ | ⟨rfl, rfl, _⟩
            · have := (ih.fresh _ _ _ _ b1 b2).1; omega
            · exact ⟨rfl, rfl⟩
      split
      · refine Channels.shrink ih rfl rfl ?_
        intro s' m h1
        dsimp only at h1
        by_cases e : s' = s
        · subst e
          rw [if_pos rfl] at h1
          cases h1
          cases hp : p.sessions s' with
          | none => exact .inl rfl
          | some m' => exact .inr ⟨m', rfl, fun _ h => h⟩
        · rw [if_neg e] at h1; exact .inr ⟨m, h1, fun _ h => h⟩
      · split <;> exact key _ rfl rfl rfl
    | unsubscribe k s =>
      simp only [SubOp.apply, PubSub.unsubscribe]
      refine Channels.shrink ih rfl rfl ?_
      intro s' m h1
      dsimp only at h1
      cases hp : p.sessions s with
      | none => rw [hp] at h1; exact .inr ⟨m, h1, fun _ h => h⟩
      | some n =>
        rw [hp] at h1
        dsimp only at h1
        by_cases e : s' = s
        · subst e
          rw [if_pos rfl] at h1
          cases h1
          exact .inr ⟨n, hp, fun _ h => (List.mem_filter.mp h).1⟩
        · rw [if_neg e] at h1; exact .inr ⟨m, h1, fun _ h => h⟩
    | removeSession s =>
      simp only [SubOp.apply, PubSub.removeSession]
      cases hp : p.sessions s with
      | none => exact ih
      | some n =>
        have get : ∀ s' m, (if s' = s then none else p.sessions s') = some m → s' ≠ s ∧ p.sessions s' = some m := by
          intro s' m h1
          by_cases e : s' = s
          · rw [if_pos e] at h1; cases h1
          · rw [if_neg e] at h1; exact ⟨e, h1⟩
        refine ⟨?_, ?_, ?_⟩
        · intro s' m k x h1 h2
          obtain ⟨hne, h1⟩ := get s' m h1
          obtain ⟨a, b⟩ := ih.fresh s' m k x h1 h2
          refine ⟨a, ?_⟩
          dsimp only
          rw [mem_foldl_close]
          rintro (hx | ⟨k', hx⟩)
          · exact b hx
          · exact hne (ih.apart _ _ _ _ _ _ _ h1 hp h2 hx).1
        · intro x hx
          dsimp only at hx
          rw [mem_foldl_close] at hx
          rcases hx with hx | ⟨k', hx⟩
          · exact ih.known x hx
          · exact (ih.fresh _ _ _ _ hp hx).1
        · intro s1 s2 m m' k1 k2 x h1 h2 h3 h4
          exact ih.apart _ _ _ _ _ _ _ (get _ _ h1).2 (get _ _ h2).2 h3 h4

theorem get_mem {p : PubSub} {k : Bytes} {s : UInt32} {x : Nat} (h : p.get k s = some x) :
    ∃ m, p.sessions s = some m ∧ (k, x) ∈ m := by
  unfold PubSub.get at h
  cases hs : p.sessions s with
  | none => rw [hs] at h; cases h
  | some m => rw [hs] at h; exact ⟨m, rfl, mem_of_lookup h⟩

/-- **C39, subscriptions.** After any history:
* a subscription that `get` finds is open, and belongs to no other session or key;
* if `subscribe` answers with a subscription, `get` finds that one afterwards;
* subscribing again does not replace the subscription there is;
* operations leave the subscriptions of other sessions, and `subscribe` and `unsubscribe` those of other
  keys, as they are;
* `remove_session` closes every subscription of the session. -/
theorem C39_subscriptions (h : List SubOp) (k k' : Bytes) (s s' : UInt32) (x : Nat) :
    ((subsAfter h).get k s = some x →
      x ∉ (subsAfter h).closed ∧ ((subsAfter h).get k' s' = some x → k' = k ∧ s' = s) ∧
      ((subsAfter h).subscribe k s).2.get k s = some x ∧ x ∈ ((subsAfter h).removeSession s).2.closed) ∧
    (((subsAfter h).subscribe k s).1 = some x → ((subsAfter h).subscribe k s).2.get k s = some x) ∧
    (¬ (k' = k ∧ s' = s) →
      ((subsAfter h).subscribe k s).2.get k' s' = (subsAfter h).get k' s' ∧
      ((subsAfter h).unsubscribe k s).2.get k' s' = (subsAfter h).get k' s') ∧
    (s' ≠ s → ((subsAfter h).removeSession s).2.get k' s' = (subsAfter h).get k' s') := by
  have hc := channels h
  generalize subsAfter h = p at *
  refine ⟨?_, ?_, ?_, ?_⟩
  · intro hg
    obtain ⟨m, hm, hx⟩ := get_mem hg
    refine ⟨(hc.fresh _ _ _ _ hm hx).2, ?_, ?_, ?_⟩
    · intro hg'
      obtain ⟨m', hm', hx'⟩ := get_mem hg'
      obtain ⟨a, b⟩ := hc.apart _ _ _ _ _ _ _ hm' hm hx' hx
      exact ⟨b, a⟩
    · rw [get_subscribe, if_pos ⟨rfl, rfl⟩, hg]; rfl
    · unfold PubSub.removeSession
      rw [hm]
      dsimp only
      rw [mem_foldl_close]
      exact .inr ⟨k, hx⟩
  · intro hsub
    rw [get_subscribe, if_pos ⟨rfl, rfl⟩]
    unfold PubSub.subscribe at hsub
    dsimp only at hsub
    have hg : ((p.sessions s).getD []).lookup k = p.get k s := by
      unfold PubSub.get; cases p.sessions s <;> simp
    rw [hg] at hsub
    cases hx : p.get k s with
    | some y => rw [hx] at hsub; cases hsub
    | none =>
      rw [hx] at hsub
      dsimp only at hsub
      split at hsub
      · cases hsub
      · simpa using hsub
  · intro hne
    exact ⟨by rw [get_subscribe, if_neg hne], by rw [get_unsubscribe, if_neg hne]⟩
  · intro hne
    rw [get_removeSession, if_neg hne]

/-- Two sessions and two keys. -/
example :
    let h : List SubOp := [.subscribe [97] 1, .subscribe [97] 2, .subscribe [98] 1, .unsubscribe [97] 1]
    Subscribed h [97] 2 ∧ (subsAfter h).get [97] 2 = some 1 ∧ (subsAfter h).get [97] 1 = none ∧
      ((subsAfter h).removeSession 1).2.closed = [2] := by
  intro h
  refine ⟨((C39_answers_partial h [97] 2).1).mp (by decide +kernel), by decide +kernel, by decide +kernel, by decide +kernel⟩

/-! ## A further concrete case -/

/-- The second session that subscribes to a key is told that there is nothing. -/
example : ((subsAfter [.subscribe [97] 1]).subscribe [97] 2).1 = none := (C39_second_subscriber [97] 1 2 (by decide)).2.1

end Hop
