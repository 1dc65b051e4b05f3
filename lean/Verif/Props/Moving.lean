import Verif.Spec.Moving
import Verif.Props.Exclusive

/-! # C123: values moved about by several clients are accounted for -/

namespace Hop

open Spec Prog

/-- A Rename whose arguments have been read. -/
def renameStart (env : Env) (resp a b : Bytes) : Prog Bytes :=
  .onKey a (fun o => o) (fun o => (if !o.isSome then (fail .keyNonexistent : Prog Bytes).andThen
      (countOutcome env) else renameCheck env resp a b))

/-- A Delete whose arguments have been read. -/
def deleteStart (env : Env) (resp k : Bytes) : Prog Bytes :=
  (removeKey k fun o =>
      match o with
      | none => fail .preconditionFailed
      | some _ => done (.ofOption (Response.writeBytes env.mode resp k))).andThen (countOutcome env)

/-- Nothing more to do to keys, and the outcome is not an error. -/
def Over (t : Prog Bytes) : Prop := ∃ r, (∀ e, r ≠ .err e) ∧ Ends r t

/-- Nothing to do to keys. -/
def Idle (t : Prog Bytes) : Prop := Writes (fun _ => False) t

theorem idle_fail (env : Env) (e : DispatchError) : Idle ((fail e : Prog Bytes).andThen (countOutcome env)) :=
  Writes.countOutcome _

theorem over_option (env : Env) (o : Option Bytes) : Over ((done (.ofOption o) : Prog Bytes).andThen (countOutcome env)) :=
  ⟨.ofOption o, by cases o <;> simp [Outcome.ofOption], ends_count env _⟩

theorem Idle.keys {t : Prog Bytes} (h : Idle t) (db : Db) : Idle (t.step db).1 ∧ (t.step db).2.keys = db.keys :=
  ⟨(Writes.step h db).1, funext fun k => (Writes.step h db).2 k id⟩

theorem Over.step {p : Pool Bytes} (hb : Budget p) {i : Nat} {t : Prog Bytes} (ht : p.threads[i]? = some t) (h : Over t) :
    Over (t.step p.db).1 ∧ (t.step p.db).2.keys = p.db.keys := by
  obtain ⟨r, h1, h2⟩ := h
  obtain ⟨h3, h4⟩ := Ends.step hb ht h2
  exact ⟨⟨r, h1, h4⟩, h3⟩

theorem not_over_onKey {k : Bytes} {upd : Option Value → Option Value} {next : Option Value → Prog Bytes} :
    ¬ Over (.onKey k upd next) := by
  rintro ⟨r, -, h⟩; exact h

theorem not_idle_last {env : Env} {resp b : Bytes} {v : Value} : ¬ Idle (renameLast env resp b v) := by
  rintro ⟨h | h, -⟩
  · exact h
  · exact absurd (h none) (by simp)

/-- The target `b` of Rename `i` is free, or somebody else also renames to it. -/
def Unopposed (cs : List Call) (now : Store) (i : Nat) (b : Bytes) : Prop :=
  now b = none ∨ ∃ (j : Nat) (d : Call), j ≠ i ∧ cs[j]? = some d ∧ target d = some b

/-- How far thread `i` is. -/
inductive Leg (env : Env) (cs : List Call) (before : Store) (place : Bytes → Place) (now : Store) (i : Nat) (t : Prog Bytes) :
    Prop
  | idle : Idle t → Leg env cs before place now i t
  | over : Over t → Leg env cs before place now i t
  | take (resp k : Bytes) (c : Call) : cs[i]? = some c → c.cmd = .delete → t = deleteStart env resp k →
    Leg env cs before place now i t
  | start (resp a b : Bytes) (c : Call) : cs[i]? = some c → c.cmd = .rename → target c = some b →
    t = renameStart env resp a b → Leg env cs before place now i t
  | check (resp a b : Bytes) (c : Call) : cs[i]? = some c → c.cmd = .rename → target c = some b →
    t = renameCheck env resp a b → Leg env cs before place now i t
  | move (resp a b : Bytes) (c : Call) : cs[i]? = some c → c.cmd = .rename → target c = some b →
    Unopposed cs now i b → t = renameMove env resp a b → Leg env cs before place now i t
  | last (resp b : Bytes) (v : Value) (c : Call) (k : Bytes) : cs[i]? = some c → c.cmd = .rename → target c = some b →
    Unopposed cs now i b → before k = some v → place k = .moving i → t = renameLast env resp b v →
    Leg env cs before place now i t

/-- The invariant. -/
structure Tracked (env : Env) (cs : List Call) (before : Store) (place : Bytes → Place) (p : Pool Bytes) : Prop where
  apart : ∀ k k', before k ≠ none → before k' ≠ none → place k = place k' → k = k'
  stored : ∀ k v k', before k = some v → place k = .stored k' → p.db.keys k' = some v
  covers : ∀ k', p.db.keys k' ≠ none → ∃ k, before k ≠ none ∧ place k = .stored k'
  moving : ∀ k i, before k ≠ none → place k = .moving i →
    ∃ c resp b v, cs[i]? = some c ∧ c.cmd = .rename ∧ p.threads[i]? = some (renameLast env resp b v)
  dropped : ∀ k i, before k ≠ none → place k = .dropped i →
    ((∃ c, cs[i]? = some c ∧ c.cmd = .delete) ∨ Rivalled cs i) ∧ ∃ t, p.threads[i]? = some t ∧ Over t
  legs : ∀ (i : Nat) t, p.threads[i]? = some t → Leg env cs before place p.db.keys i t

variable {env : Env} {cs : List Call} {before : Store} {place : Bytes → Place} {p : Pool Bytes}

theorem Tracked.quiet (h : Tracked env cs before place p) (hb : Budget p) {i : Nat} {t : Prog Bytes}
    (ht : p.threads[i]? = some t) (hk : (t.step p.db).2.keys = p.db.keys)
    (hnl : ∀ resp b v, t ≠ renameLast env resp b v)
    (hleg : Leg env cs before place p.db.keys i (t.step p.db).1) : Tracked env cs before place (p.stepAt i) := by
  obtain ⟨hself, hdb⟩ := Pool.stepAt_self ht
  have hkeys : (p.stepAt i).db.keys = p.db.keys := by rw [hdb, hk]
  refine ⟨h.apart, by rw [hkeys]; exact h.stored, by rw [hkeys]; exact h.covers, ?_, ?_, ?_⟩
  · intro k j h1 h2
    obtain ⟨c, resp, b, v, h3, h4, h5⟩ := h.moving k j h1 h2
    refine ⟨c, resp, b, v, h3, h4, ?_⟩
    by_cases e : j = i
    · subst e
      rw [ht] at h5
      exact absurd (Option.some.inj h5) (hnl _ _ _)
    · rw [Pool.stepAt_other _ e]; exact h5
  · intro k j h1 h2
    obtain ⟨h3, t', h4, h5⟩ := h.dropped k j h1 h2
    refine ⟨h3, ?_⟩
    by_cases e : j = i
    · subst e
      rw [ht] at h4
      cases h4
      exact ⟨_, hself, (h5.step hb ht).1⟩
    · exact ⟨t', by rw [Pool.stepAt_other _ e]; exact h4, h5⟩
  · intro j t' ht'
    rw [hkeys]
    by_cases e : j = i
    · subst e
      rw [hself] at ht'
      cases ht'
      exact hleg
    · rw [Pool.stepAt_other _ e] at ht'
      exact h.legs j t' ht'

/-- The value of `k` is now at `x`. -/
def movedTo (place : Bytes → Place) (k : Bytes) (x : Place) : Bytes → Place := fun k' => if k' = k then x else place k'

theorem movedTo_self (place : Bytes → Place) (k : Bytes) (x : Place) : movedTo place k x k = x := if_pos rfl
theorem movedTo_ne (place : Bytes → Place) {k k' : Bytes} (x : Place) (h : k' ≠ k) : movedTo place k x k' = place k' := if_neg h

/-- Moving a value to a place that is not in use keeps the places apart. -/
theorem movedTo_apart {place : Bytes → Place} {before : Store}
    (h : ∀ k k', before k ≠ none → before k' ≠ none → place k = place k' → k = k') {k0 : Bytes} {x : Place}
    (hx : ∀ k, before k ≠ none → k ≠ k0 → place k ≠ x) :
    ∀ k k', before k ≠ none → before k' ≠ none → movedTo place k0 x k = movedTo place k0 x k' → k = k' := by
  intro k k' h1 h2 h3
  by_cases e : k = k0
  · by_cases e' : k' = k0
    · rw [e, e']
    · rw [e, movedTo_self, movedTo_ne _ _ e'] at h3
      exact absurd h3.symm (hx k' h2 e')
  · by_cases e' : k' = k0
    · rw [e', movedTo_self, movedTo_ne _ _ e] at h3
      exact absurd h3 (hx k h1 e)
    · rw [movedTo_ne _ _ e, movedTo_ne _ _ e'] at h3
      exact h k k' h1 h2 h3

/-- A removal, by a Delete (`x` is dropped) or a Rename (`x` is moving). -/
theorem Tracked.remove (h : Tracked env cs before place p) {i : Nat} {a : Bytes} {next : Option Value → Prog Bytes}
    (ht : p.threads[i]? = some (.onKey a (fun _ => none) next)) {v : Value} (ha : p.db.keys a = some v) (x : Place)
    (hx : (x = .moving i ∧ (∃ c, cs[i]? = some c ∧ c.cmd = .rename) ∧ ∃ resp b, next (some v) = renameLast env resp b v) ∨
      (x = .dropped i ∧ (∃ c, cs[i]? = some c ∧ c.cmd = .delete) ∧ Over (next (some v))))
    (hleg : ∀ k, before k = some v → Leg env cs before (movedTo place k x) (p.db.setKey a none).keys i (next (some v))) :
    ∃ place', Tracked env cs before place' (p.stepAt i) := by
  obtain ⟨hself, hdb⟩ := Pool.stepAt_self ht
  simp only [Prog.step, ha] at hself hdb
  obtain ⟨k0, hk0, hp0⟩ := h.covers a (by rw [ha]; simp)
  have hv0 : before k0 = some v := by
    cases e : before k0 with
    | none => exact absurd e hk0
    | some w =>
      have := h.stored k0 w a e hp0
      rw [ha] at this
      exact this.symm
  have hnm : ∀ k, before k ≠ none → place k ≠ .moving i := by
    intro k h1 h2
    obtain ⟨-, resp, b, w, -, -, h5⟩ := h.moving k i h1 h2
    rw [ht] at h5
    simp only [renameLast, insertKey, Prog.andThen, Option.some.injEq, Prog.onKey.injEq] at h5
    exact absurd (congrFun h5.2.1 none) (by simp)
  have hnd : ∀ k, before k ≠ none → place k ≠ .dropped i := by
    intro k h1 h2
    obtain ⟨-, t', h4, h5⟩ := h.dropped k i h1 h2
    rw [ht] at h4
    cases h4
    exact not_over_onKey h5
  have hxs : ∀ k', x ≠ .stored k' := by
    intro k' e
    rcases hx with ⟨h1, -⟩ | ⟨h1, -⟩ <;> rw [h1] at e <;> cases e
  refine ⟨movedTo place k0 x, movedTo_apart h.apart ?_, ?_, ?_, ?_, ?_, ?_⟩
  · intro k h1 _
    rcases hx with ⟨rfl, -⟩ | ⟨rfl, -⟩
    · exact hnm k h1
    · exact hnd k h1
  · intro k w k' h1 h2
    by_cases e : k = k0
    · rw [e, movedTo_self] at h2
      exact absurd h2 (hxs k')
    · rw [movedTo_ne _ _ e] at h2
      have hne : k' ≠ a := by
        intro e'
        rw [e', ← hp0] at h2
        exact e (h.apart k k0 (by rw [h1]; simp) hk0 h2)
      rw [hdb, Db.setKey_keys_ne _ _ hne]
      exact h.stored k w k' h1 h2
  · intro k' h1
    rw [hdb] at h1
    have hne : k' ≠ a := by
      intro e
      rw [e, Db.setKey_keys_self] at h1
      exact h1 rfl
    rw [Db.setKey_keys_ne _ _ hne] at h1
    obtain ⟨k, h2, h3⟩ := h.covers k' h1
    refine ⟨k, h2, ?_⟩
    rw [movedTo_ne, h3]
    intro e
    rw [e, hp0] at h3
    cases h3
    exact hne rfl
  · intro k j h1 h2
    by_cases e : k = k0
    · rw [e, movedTo_self] at h2
      rcases hx with ⟨rfl, ⟨c, h3, h4⟩, resp, b, h5⟩ | ⟨rfl, -⟩
      · cases h2
        exact ⟨c, resp, b, v, h3, h4, by rw [hself, h5]⟩
      · cases h2
    · rw [movedTo_ne _ _ e] at h2
      have hji : j ≠ i := fun e' => hnm k h1 (e' ▸ h2)
      rw [Pool.stepAt_other _ hji]
      exact h.moving k j h1 h2
  · intro k j h1 h2
    by_cases e : k = k0
    · rw [e, movedTo_self] at h2
      rcases hx with ⟨rfl, -⟩ | ⟨rfl, h3, h4⟩
      · cases h2
      · cases h2
        exact ⟨Or.inl h3, _, hself, h4⟩
    · rw [movedTo_ne _ _ e] at h2
      have hji : j ≠ i := fun e' => hnd k h1 (e' ▸ h2)
      rw [Pool.stepAt_other _ hji]
      exact h.dropped k j h1 h2
  · intro j t' ht'
    by_cases e : j = i
    · subst e
      rw [hself] at ht'
      cases ht'
      rw [hdb]
      exact hleg k0 hv0
    · rw [Pool.stepAt_other _ e] at ht'
      have hun : ∀ b, Unopposed cs p.db.keys j b → Unopposed cs (p.stepAt i).db.keys j b := by
        intro b hu
        rcases hu with hu | hu
        · left
          rw [hdb]
          by_cases e' : b = a
          · rw [e', Db.setKey_keys_self]
          · rw [Db.setKey_keys_ne _ _ e']; exact hu
        · exact Or.inr hu
      cases h.legs j t' ht' with
      | idle h1 => exact .idle h1
      | over h1 => exact .over h1
      | take resp k c h1 h2 h3 => exact .take resp k c h1 h2 h3
      | start resp a' b c h1 h2 h3 h4 => exact .start resp a' b c h1 h2 h3 h4
      | check resp a' b c h1 h2 h3 h4 => exact .check resp a' b c h1 h2 h3 h4
      | move resp a' b c h1 h2 h3 h4 h5 => exact .move resp a' b c h1 h2 h3 (hun b h4) h5
      | last resp b w c k h1 h2 h3 h4 h5 h6 h7 =>
        refine .last resp b w c k h1 h2 h3 (hun b h4) h5 ?_ h7
        rw [movedTo_ne, h6]
        intro e'
        rw [e', hp0] at h6
        cases h6

/-- The last step of a Rename. -/
theorem Tracked.insert (h : Tracked env cs before place p) {i : Nat} {resp b : Bytes} {v : Value} {c : Call} {k1 : Bytes}
    (ht : p.threads[i]? = some (renameLast env resp b v)) (hc : cs[i]? = some c) (htar : target c = some b)
    (hun : Unopposed cs p.db.keys i b) (hk1 : before k1 = some v) (hp1 : place k1 = .moving i) :
    ∃ place', Tracked env cs before place' (p.stepAt i) := by
  obtain ⟨hself, hdb⟩ := Pool.stepAt_self ht
  simp only [renameLast, insertKey, Prog.andThen, Prog.step] at hself hdb
  have hover : Over (countOutcome env (.ofOption (Response.writeBytes env.mode resp b))) := over_option env _
  have hnd : ∀ k, before k ≠ none → place k ≠ .dropped i := by
    intro k h1 h2
    obtain ⟨-, t', h4, h5⟩ := h.dropped k i h1 h2
    rw [ht] at h4
    cases h4
    exact not_over_onKey h5
  -- the places before the value is put down: what was at `b` is dropped
  obtain ⟨place1, hap, hst, hcov, hmov, hdrop, hmov1⟩ : ∃ place1 : Bytes → Place,
      (∀ k k', before k ≠ none → before k' ≠ none → place1 k = place1 k' → k = k') ∧
      (∀ k v k', before k = some v → place1 k = .stored k' → k' ≠ b ∧ p.db.keys k' = some v) ∧
      (∀ k', p.db.keys k' ≠ none → k' ≠ b → ∃ k, before k ≠ none ∧ place1 k = .stored k') ∧
      (∀ k j, before k ≠ none → (place1 k = .moving j ↔ place k = .moving j)) ∧
      (∀ k j, before k ≠ none → place1 k = .dropped j → place k = .dropped j ∨ (j = i ∧ p.db.keys b ≠ none)) ∧ place1 k1 = .moving i := by
    cases hbv : p.db.keys b with
    | none =>
      refine ⟨place, h.apart, ?_, ?_, fun _ _ _ => Iff.rfl, fun _ _ _ h => Or.inl h, hp1⟩
      · intro k v k' h1 h2
        have := h.stored k v k' h1 h2
        refine ⟨?_, this⟩
        intro e
        rw [e, hbv] at this
        cases this
      · intro k' h1 _
        exact h.covers k' h1
    | some w =>
      obtain ⟨k0, hk0, hp0⟩ := h.covers b (by rw [hbv]; simp)
      have hne : k1 ≠ k0 := by
        intro e
        rw [e, hp0] at hp1
        cases hp1
      refine ⟨movedTo place k0 (.dropped i), movedTo_apart h.apart fun k h1 _ => hnd k h1, ?_, ?_, ?_, ?_, ?_⟩
      · intro k v k' h1 h2
        by_cases e : k = k0
        · rw [e, movedTo_self] at h2; cases h2
        · rw [movedTo_ne _ _ e] at h2
          refine ⟨?_, h.stored k v k' h1 h2⟩
          intro e'
          rw [e', ← hp0] at h2
          exact e (h.apart k k0 (by rw [h1]; simp) hk0 h2)
      · intro k' h1 h2
        obtain ⟨k, h3, h4⟩ := h.covers k' h1
        refine ⟨k, h3, ?_⟩
        rw [movedTo_ne, h4]
        intro e
        rw [e, hp0] at h4
        cases h4
        exact h2 rfl
      · intro k j h1
        by_cases e : k = k0
        · rw [e, movedTo_self, hp0]; simp
        · rw [movedTo_ne _ _ e]
      · intro k j h1 h2
        by_cases e : k = k0
        · rw [e, movedTo_self] at h2
          cases h2
          exact Or.inr ⟨rfl, by simp⟩
        · rw [movedTo_ne _ _ e] at h2
          exact Or.inl h2
      · rw [movedTo_ne _ _ hne, hp1]
  have hk1' : before k1 ≠ none := by rw [hk1]; simp
  refine ⟨movedTo place1 k1 (.stored b), movedTo_apart hap ?_, ?_, ?_, ?_, ?_, ?_⟩
  · intro k h1 _ h2
    cases e : before k with
    | none => exact h1 e
    | some w => exact (hst k w b e h2).1 rfl
  · intro k w k' h1 h2
    rw [hdb]
    by_cases e : k = k1
    · rw [e, movedTo_self] at h2
      cases h2
      rw [e, hk1] at h1
      cases h1
      rw [Db.setKey_keys_self]
    · rw [movedTo_ne _ _ e] at h2
      obtain ⟨h3, h4⟩ := hst k w k' h1 h2
      rw [Db.setKey_keys_ne _ _ h3, h4]
  · intro k' h1
    rw [hdb] at h1
    by_cases e : k' = b
    · exact ⟨k1, hk1', by rw [movedTo_self, e]⟩
    · rw [Db.setKey_keys_ne _ _ e] at h1
      obtain ⟨k, h2, h3⟩ := hcov k' h1 e
      refine ⟨k, h2, ?_⟩
      rw [movedTo_ne, h3]
      intro e'
      rw [e', hmov1] at h3
      cases h3
  · intro k j h1 h2
    by_cases e : k = k1
    · rw [e, movedTo_self] at h2; cases h2
    · rw [movedTo_ne _ _ e, hmov k j h1] at h2
      have hji : j ≠ i := by
        intro e'
        rw [e', ← hp1] at h2
        exact e (h.apart k k1 h1 hk1' h2)
      rw [Pool.stepAt_other _ hji]
      exact h.moving k j h1 h2
  · intro k j h1 h2
    by_cases e : k = k1
    · rw [e, movedTo_self] at h2; cases h2
    · rw [movedTo_ne _ _ e] at h2
      rcases hdrop k j h1 h2 with h3 | ⟨rfl, h3⟩
      · have hji : j ≠ i := fun e' => hnd k h1 (e' ▸ h3)
        rw [Pool.stepAt_other _ hji]
        exact h.dropped k j h1 h3
      · refine ⟨Or.inr ?_, _, hself, hover⟩
        rcases hun with hun | ⟨j', d, h4, h5, h6⟩
        · exact absurd hun h3
        · exact ⟨b, j', c, d, hc, htar, h4, h5, h6⟩
  · intro j t' ht'
    by_cases e : j = i
    · subst e
      rw [hself] at ht'
      cases ht'
      exact .over hover
    · rw [Pool.stepAt_other _ e] at ht'
      have hun' : ∀ b', Unopposed cs p.db.keys j b' → Unopposed cs (p.stepAt i).db.keys j b' := by
        intro b' hu
        by_cases e' : b' = b
        · exact Or.inr ⟨i, c, Ne.symm e, hc, by rw [e']; exact htar⟩
        · rcases hu with hu | hu
          · left
            rw [hdb, Db.setKey_keys_ne _ _ e']
            exact hu
          · exact Or.inr hu
      cases h.legs j t' ht' with
      | idle h1 => exact .idle h1
      | over h1 => exact .over h1
      | take resp k c h1 h2 h3 => exact .take resp k c h1 h2 h3
      | start resp a' b c h1 h2 h3 h4 => exact .start resp a' b c h1 h2 h3 h4
      | check resp a' b c h1 h2 h3 h4 => exact .check resp a' b c h1 h2 h3 h4
      | move resp a' b c h1 h2 h3 h4 h5 => exact .move resp a' b c h1 h2 h3 (hun' b h4) h5
      | last resp b w c k h1 h2 h3 h4 h5 h6 h7 =>
        have hk : before k ≠ none := by rw [h5]; simp
        have hne : k ≠ k1 := by
          intro e'
          rw [e', hp1] at h6
          cases h6
          exact e rfl
        refine .last resp b w c k h1 h2 h3 (hun' b h4) h5 ?_ h7
        rw [movedTo_ne _ _ hne, hmov k j hk]
        exact h6

theorem Tracked.step (h : Tracked env cs before place p) (hb : Budget p) (i : Nat) :
    ∃ place', Tracked env cs before place' (p.stepAt i) := by
  cases ht : p.threads[i]? with
  | none => rw [Pool.stepAt_none ht]; exact ⟨_, h⟩
  | some t =>
    cases h.legs i t ht with
    | idle h1 =>
      refine ⟨place, h.quiet hb ht (h1.keys p.db).2 ?_ (.idle (h1.keys p.db).1)⟩
      intro resp b v e
      exact not_idle_last (e ▸ h1)
    | over h1 =>
      refine ⟨place, h.quiet hb ht (h1.step hb ht).2 ?_ (.over (h1.step hb ht).1)⟩
      intro resp b v e
      exact not_over_onKey (e ▸ h1 : Over (renameLast env resp b v))
    | take resp k c h1 h2 h3 =>
      subst h3
      cases hk : p.db.keys k with
      | none =>
        refine ⟨place, h.quiet hb ht ?_ ?_ (.idle ?_)⟩
        · simp only [deleteStart, removeKey, Prog.andThen, Prog.step]
          rw [← hk, Db.setKey_self]
        · intro resp b v e
          simp only [deleteStart, removeKey, renameLast, insertKey, Prog.andThen, Prog.onKey.injEq] at e
          exact absurd (congrFun e.2.1 none) (by simp)
        · simp only [deleteStart, removeKey, Prog.andThen, Prog.step, hk]
          exact idle_fail env _
      | some v =>
        exact h.remove ht hk (.dropped i) (Or.inr ⟨rfl, ⟨c, h1, h2⟩, over_option env _⟩)
          fun _ _ => .over (over_option env _)
    | start resp a b c h1 h2 h3 h4 =>
      subst h4
      refine ⟨place, h.quiet hb ht ?_ ?_ ?_⟩
      · simp only [renameStart, Prog.step, Db.setKey_self]
      · intro resp b v e
        simp only [renameStart, renameLast, insertKey, Prog.andThen, Prog.onKey.injEq] at e
        exact absurd (congrFun e.2.1 none) (by simp)
      · simp only [renameStart, Prog.step]
        cases p.db.keys a with
        | none => exact .idle (idle_fail env _)
        | some v => exact .check resp a b c h1 h2 h3 rfl
    | check resp a b c h1 h2 h3 h4 =>
      subst h4
      refine ⟨place, h.quiet hb ht ?_ ?_ ?_⟩
      · simp only [renameCheck, containsKey, Prog.readKey, Prog.andThen, Prog.step, Db.setKey_self]
      · intro resp b v e
        simp only [renameCheck, containsKey, Prog.readKey, renameLast, insertKey, Prog.andThen, Prog.onKey.injEq] at e
        exact absurd (congrFun e.2.1 none) (by simp)
      · simp only [renameCheck, containsKey, Prog.readKey, Prog.andThen, Prog.step]
        cases hkb : p.db.keys b with
        | some v => exact .idle (idle_fail env _)
        | none => exact .move resp a b c h1 h2 h3 (Or.inl hkb) rfl
    | move resp a b c h1 h2 h3 h4 h5 =>
      subst h5
      cases hk : p.db.keys a with
      | none =>
        refine ⟨place, h.quiet hb ht ?_ ?_ (.idle ?_)⟩
        · simp only [renameMove, removeKey, Prog.andThen, Prog.step]
          rw [← hk, Db.setKey_self]
        · intro resp b v e
          simp only [renameMove, removeKey, renameLast, insertKey, Prog.andThen, Prog.onKey.injEq] at e
          exact absurd (congrFun e.2.1 none) (by simp)
        · simp only [renameMove, removeKey, Prog.andThen, Prog.step, hk]
          exact idle_fail env _
      | some v =>
        refine h.remove ht hk (.moving i) (Or.inl ⟨rfl, ⟨c, h1, h2⟩, resp, b, rfl⟩) fun k hkv =>
          .last resp b v c k h1 h2 h3 ?_ hkv (movedTo_self _ _ _) rfl
        rcases h4 with h4 | h4
        · left
          by_cases e' : b = a
          · rw [e', Db.setKey_keys_self]
          · rw [Db.setKey_keys_ne _ _ e']; exact h4
        · exact Or.inr h4
    | last resp b v c k h1 h2 h3 h4 h5 h6 h7 =>
      subst h7
      exact h.insert ht h1 h3 h4 h5 h6

theorem Tracked.exec (h : Tracked env cs before place p) (hb : Budget p) (s : List Nat) :
    ∃ place', Tracked env cs before place' (p.exec s) := by
  induction s using snoc_induction with
  | h0 => exact ⟨place, h⟩
  | h1 s i ih =>
    obtain ⟨place', ih⟩ := ih
    rw [Pool.exec_snoc]
    exact ih.step (hb.exec s) i

theorem Tracked.start {rs : List (Request × Bytes)} {cs : List Call} (hs : Sees rs cs) (db : Db)
    (hm : ∀ c ∈ cs, Mover c) : Tracked env cs db.keys Place.stored (Pool.start env rs db) := by
  refine ⟨?_, ?_, ?_, ?_, ?_, ?_⟩
  · intro k k' _ _ e; cases e; rfl
  · intro k v k' h e; cases e; exact h
  · intro k' h; exact ⟨k', h, rfl⟩
  · intro k i _ e; cases e
  · intro k i _ e; cases e
  · intro i t ht
    simp only [Pool.start, List.getElem?_map, Option.map_eq_some_iff] at ht
    obtain ⟨⟨r, resp⟩, hr, rfl⟩ := ht
    obtain ⟨⟨cmd, kt, args⟩, h1, hv⟩ := (Sees.get hs).2 i _ hr
    simp only at hv
    have hmc := hm _ (List.mem_of_getElem? h1)
    by_cases hq : cmd ∈ [.echo, .exists, .get, .is, .keys, .length, .stats, .type]
    · refine .idle (writes_dispatch ?_ ?_)
      · intro hn
        rw [hv.command] at hn
        exact absurd hq hn
      · intro e
        rw [hv.command] at e
        subst e
        exact absurd hq (by decide)
    · have hcmd : cmd = .delete ∨ cmd = .rename := by
        simp only [Mover] at hmc
        simp only [List.mem_cons, List.not_mem_nil, or_false] at hmc hq
        cases cmd <;> simp at hmc hq ⊢
      rcases hcmd with rfl | rfl
      · cases kt with
        | some kt =>
          refine .idle (Writes.andThen ?_ fun _ => Writes.countOutcome _)
          unfold command
          rw [hv.command]
          dsimp only
          unfold dispatchDelete
          rw [hv.keyType]
          trivial
        | none =>
          cases args with
          | nil =>
            refine .idle (Writes.andThen ?_ fun _ => Writes.countOutcome _)
            unfold command
            rw [hv.command]
            dsimp only
            unfold dispatchDelete
            rw [hv.keyType, key_eq hv (by decide)]
            trivial
          | cons k more =>
            refine .take resp k _ h1 rfl ?_
            unfold dispatch command
            rw [hv.command]
            dsimp only
            unfold dispatchDelete
            rw [hv.keyType, key_eq hv (by decide)]
            rfl
      · cases kt with
        | some kt =>
          refine .idle (Writes.andThen ?_ fun _ => Writes.countOutcome _)
          unfold command
          rw [hv.command]
          dsimp only
          unfold dispatchRename
          rw [hv.keyType]
          trivial
        | none =>
          rcases args with _ | ⟨a, _ | ⟨b, more⟩⟩
          · refine .idle (Writes.andThen ?_ fun _ => Writes.countOutcome _)
            unfold command
            rw [hv.command]
            dsimp only
            unfold dispatchRename
            rw [hv.keyType, hv.arg 0]
            trivial
          · refine .idle (Writes.andThen ?_ fun _ => Writes.countOutcome _)
            unfold command
            rw [hv.command]
            dsimp only
            unfold dispatchRename
            rw [hv.keyType, hv.arg 0, hv.arg 1]
            trivial
          · exact .start resp a b _ h1 rfl rfl (rename_begin hv resp)

/-- C123: whatever the schedule, while several clients read, delete and rename, every value that was stored is
accounted for. -/
theorem C123_accounts {env : Env} {rs : List (Request × Bytes)} {cs : List Call} (hs : Sees rs cs) (db : Db)
    (hm : ∀ c ∈ cs, Mover c) (hc : Roomy rs.length db.ctrs) (sched : List Nat) :
    ∃ place, Accounts cs db.keys place ((Pool.start env rs db).exec sched).threads
      ((Pool.start env rs db).exec sched).db.keys := by
  obtain ⟨place, h⟩ := (Tracked.start (env := env) hs db hm).exec (Budget.start env rs db hc) sched
  refine ⟨place, h.apart, h.stored, h.covers, ?_, ?_⟩
  · intro k i h1 h2
    obtain ⟨c, resp, b, v, h3, h4, h5⟩ := h.moving k i h1 h2
    exact ⟨⟨c, h3, h4⟩, _, h5, fun h => h⟩
  · intro k i h1 h2
    obtain ⟨h3, t, h4, r, h5, h6⟩ := h.dropped k i h1 h2
    refine ⟨h3, fun e he => ?_⟩
    rw [h4] at he
    cases he
    exact h5 e h6.symm

/-- C123, nothing is lost: if there is no Delete and no two Renames have the same target, then once all clients
are done each value is stored at exactly one key. -/
theorem C123_nothing_lost {env : Env} {rs : List (Request × Bytes)} {cs : List Call} (hs : Sees rs cs) (db : Db)
    (hm : ∀ c ∈ cs, Mover c) (hc : Roomy rs.length db.ctrs) (sched : List Nat)
    (hnd : ∀ c ∈ cs, c.cmd ≠ .delete)
    (hdis : ∀ (i j : Nat) c d b, cs[i]? = some c → cs[j]? = some d → target c = some b → target d = some b → i = j)
    (hfin : ∀ t ∈ ((Pool.start env rs db).exec sched).threads, Ended t) :
    ∃ home : Bytes → Bytes,
      (∀ k v, db.keys k = some v → ((Pool.start env rs db).exec sched).db.keys (home k) = some v) ∧
      (∀ k k', db.keys k ≠ none → db.keys k' ≠ none → home k = home k' → k = k') ∧
      (∀ k', ((Pool.start env rs db).exec sched).db.keys k' ≠ none → ∃ k, db.keys k ≠ none ∧ home k = k') := by
  obtain ⟨place, h⟩ := C123_accounts (env := env) hs db hm hc sched
  have hst : ∀ k, db.keys k ≠ none → ∃ k', place k = .stored k' := by
    intro k h1
    cases e : place k with
    | stored k' => exact ⟨k', rfl⟩
    | moving i =>
      obtain ⟨-, t, h2, h3⟩ := h.moving k i h1 e
      exact absurd (hfin t (List.mem_of_getElem? h2)) h3
    | dropped i =>
      obtain ⟨⟨c, h2, h3⟩ | ⟨b, j, c, d, h2, h3, h4, h5, h6⟩, -⟩ := h.dropped k i h1 e
      · exact absurd h3 (hnd c (List.mem_of_getElem? h2))
      · exact absurd (hdis i j c d b h2 h5 h3 h6) (Ne.symm h4)
  refine ⟨fun k => match place k with | .stored k' => k' | _ => k, ?_, ?_, ?_⟩
  · intro k v h1
    obtain ⟨k', h2⟩ := hst k (by rw [h1]; simp)
    simp only [h2]
    exact h.stored k v k' h1 h2
  · intro k k' h1 h2 h3
    obtain ⟨l, h4⟩ := hst k h1
    obtain ⟨l', h5⟩ := hst k' h2
    simp only [h4, h5] at h3
    exact h.apart k k' h1 h2 (by rw [h4, h5, h3])
  · intro k' h1
    obtain ⟨k, h2, h3⟩ := h.covers k' h1
    exact ⟨k, h2, by simp only [h3]⟩

/-- Beside C123: two Renames race for key 9 while a third client deletes; both Renames succeed and one of the two
values is dropped, the other one is stored. -/
example : let rs := [(call .rename none [[1], [9]], []), (call .rename none [[2], [9]], []), (call .delete none [[3]], [])]
    let db := sampleDb [([1], .boolean true), ([2], .integer 5), ([3], .integer 7)]
    let p := (Pool.start (sampleEnv .debug) rs db).exec [0, 0, 1, 1, 2, 0, 1, 0, 1, 0, 1, 2]
    p.threads = [.done (.ok (frame (.value (.bytes [9])))), .done (.ok (frame (.value (.bytes [9])))),
      .done (.ok (frame (.value (.bytes [3]))))] ∧ p.db.keys [9] = some (.integer 5) ∧
    ∃ place, Accounts [⟨.rename, none, [[1], [9]]⟩, ⟨.rename, none, [[2], [9]]⟩, ⟨.delete, none, [[3]]⟩] db.keys place
      p.threads p.db.keys := by
  have hs : Sees [(call .rename none [[1], [9]], []), (call .rename none [[2], [9]], []), (call .delete none [[3]], [])]
      [⟨.rename, none, [[1], [9]]⟩, ⟨.rename, none, [[2], [9]]⟩, ⟨.delete, none, [[3]]⟩] :=
    .cons (call_views _ _ _ (by decide) (by decide) (by decide)) (.cons (call_views _ _ _ (by decide) (by decide) (by decide))
      (.cons (call_views _ _ _ (by decide) (by decide) (by decide)) .nil))
  exact ⟨rfl, by decide +kernel, C123_accounts hs _ (by simp [Mover]) (sampleDb_roomy _ _ (by decide)) _⟩

/-- Beside C123: two Renames exchange places with the help of a third key; nothing is lost. -/
example : let rs := [(call .rename none [[1], [9]], []), (call .rename none [[2], [1]], [])]
    let db := sampleDb [([1], .boolean true), ([2], .integer 5)]
    let p := (Pool.start (sampleEnv .debug) rs db).exec [0, 0, 1, 0, 1, 1, 1, 0, 1, 0]
    p.db.keys [1] = some (.integer 5) ∧ p.db.keys [9] = some (.boolean true) ∧ p.db.keys [2] = none ∧
    ∃ home : Bytes → Bytes, (∀ k v, db.keys k = some v → p.db.keys (home k) = some v) ∧
      (∀ k k', db.keys k ≠ none → db.keys k' ≠ none → home k = home k' → k = k') ∧
      (∀ k', p.db.keys k' ≠ none → ∃ k, db.keys k ≠ none ∧ home k = k') := by
  have hs : Sees [(call .rename none [[1], [9]], []), (call .rename none [[2], [1]], [])]
      [⟨.rename, none, [[1], [9]]⟩, ⟨.rename, none, [[2], [1]]⟩] :=
    .cons (call_views _ _ _ (by decide) (by decide) (by decide)) (.cons (call_views _ _ _ (by decide) (by decide) (by decide)) .nil)
  refine ⟨by decide +kernel, by decide +kernel, by decide +kernel, C123_nothing_lost hs _ (by simp [Mover])
    (sampleDb_roomy _ _ (by decide)) _ (by simp) ?_ ?_⟩
  · intro i j c d b h1 h2 h3 h4
    rcases i with _ | _ | i <;> rcases j with _ | _ | j <;> simp at h1 h2 <;> subst h1 <;> subst h2 <;>
      simp [target] at h3 h4 <;> first | rfl | (subst h3; simp at h4)
  · intro t ht
    rw [show ((Pool.start (sampleEnv .debug) [(call .rename none [[1], [9]], []), (call .rename none [[2], [1]], [])]
      (sampleDb [([1], .boolean true), ([2], .integer 5)])).exec [0, 0, 1, 0, 1, 1, 1, 0, 1, 0]).threads =
      [.done (.ok (frame (.value (.bytes [9])))), .done (.ok (frame (.value (.bytes [1]))))] from rfl] at ht
    simp at ht
    rcases ht with rfl | rfl <;> trivial

end Hop
