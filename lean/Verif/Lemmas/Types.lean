import Verif.Lemmas.Calls

/-! # How a command changes one entry of the store: kinds and well-formedness -/

namespace Hop

open Spec

theorem plus_addInteger (m : Mode) (k : Bytes) (n : Int) (s : Store) :
    (addInteger m k n s).2 = s ∨ ∃ i j, (s k).getD (.integer 0) = .integer i ∧
      (addInteger m k n s).2 = s.put k (some (.integer j)) := by
  simp only [addInteger]
  split
  · exact Or.inl rfl
  · split
    · rename_i i hi
      split
      · exact Or.inr ⟨i, _, hi, rfl⟩
      · exact Or.inl rfl
    · exact Or.inl rfl

theorem plus_addFloat (m : Mode) (f : F64 → F64) (k : Bytes) (s : Store) :
    (addFloat m f k s).2 = s ∨ (∃ i j, s k = some (.float i) ∧ (addFloat m f k s).2 = s.put k (some (.float j))) ∨
      (s k = none ∧ (addFloat m f k s).2 = s.put k (some (.integer 0))) := by
  simp only [addFloat]
  split
  · exact Or.inl rfl
  · split
    · rename_i i hi
      exact Or.inr (Or.inl ⟨i, _, hi, rfl⟩)
    · exact Or.inl rfl
    · exact Or.inr (Or.inr ⟨‹_›, rfl⟩)

theorem appended_kind {v w : Value} {items : List Bytes} (h : appended v items = some w) : w.kind = v.kind := by
  cases v <;> simp [appended] at h <;> subst h <;> rfl

/-- What a command other than Set, Delete and Rename does to the store: nothing, or it replaces one value by
one of the same type, or it creates a value; never a map or a set. -/
theorem execute_shape (env : Env) (ctrs : Metric → Option Nat) (c : CommandId) (kt : Option KeyType)
    (args : List Bytes) (s : Store) (h1 : c ≠ .set) (h2 : c ≠ .delete) (h3 : c ≠ .rename) :
    (execute env ctrs c kt args s).2 = s ∨ ∃ k w, args[0]? = some k ∧
      (execute env ctrs c kt args s).2 = s.put k (some w) ∧ (∀ v, s k = some v → w.kind = v.kind) ∧
      w.kind ∈ [.bytes, .list, .string, .integer, .float] := by
  have hint : ∀ (k : Bytes) (n : Int), (addInteger env.mode k n s).2 = s ∨ ∃ w,
      (addInteger env.mode k n s).2 = s.put k (some w) ∧ (∀ v, s k = some v → w.kind = v.kind) ∧
      w.kind ∈ [.bytes, .list, .string, .integer, .float] := by
    intro k n
    rcases plus_addInteger env.mode k n s with h | ⟨i, j, h, h'⟩
    · exact Or.inl h
    · refine Or.inr ⟨_, h', ?_, by simp [Value.kind]⟩
      intro v hv
      rw [hv] at h
      simp at h
      subst h
      rfl
  have hfl : ∀ (k : Bytes) (f : F64 → F64), (addFloat env.mode f k s).2 = s ∨ ∃ w,
      (addFloat env.mode f k s).2 = s.put k (some w) ∧ (∀ v, s k = some v → w.kind = v.kind) ∧
      w.kind ∈ [.bytes, .list, .string, .integer, .float] := by
    intro k f
    rcases plus_addFloat env.mode f k s with h | ⟨i, j, h, h'⟩ | ⟨h, h'⟩
    · exact Or.inl h
    · refine Or.inr ⟨_, h', ?_, by simp [Value.kind]⟩
      intro v hv
      rw [hv] at h
      simp at h
      subst h
      rfl
    · refine Or.inr ⟨_, h', ?_, by simp [Value.kind]⟩
      intro v hv
      rw [hv] at h
      simp at h
  cases c
  case set => exact absurd rfl h1
  case delete => exact absurd rfl h2
  case rename => exact absurd rfl h3
  case increment =>
    cases args with
    | nil => exact Or.inl rfl
    | cons k more =>
      simp only [execute]
      split
      · exact (hfl k _).imp id fun ⟨w, h⟩ => ⟨k, w, rfl, h⟩
      · exact (hint k _).imp id fun ⟨w, h⟩ => ⟨k, w, rfl, h⟩
  case decrement =>
    cases args with
    | nil => exact Or.inl rfl
    | cons k more =>
      simp only [execute]
      split
      · exact (hfl k _).imp id fun ⟨w, h⟩ => ⟨k, w, rfl, h⟩
      · exact (hint k _).imp id fun ⟨w, h⟩ => ⟨k, w, rfl, h⟩
  case incrementBy =>
    rcases args with _ | ⟨k, _ | ⟨a, more⟩⟩
    · exact Or.inl rfl
    · exact Or.inl rfl
    · simp only [execute]
      split
      · exact (hint k _).imp id fun ⟨w, h⟩ => ⟨k, w, rfl, h⟩
      · exact Or.inl rfl
  case decrementBy =>
    rcases args with _ | ⟨k, _ | ⟨a, more⟩⟩
    · exact Or.inl rfl
    · exact Or.inl rfl
    · simp only [execute]
      split
      · split
        · exact Or.inl rfl
        · exact (hint k _).imp id fun ⟨w, h⟩ => ⟨k, w, rfl, h⟩
      · exact Or.inl rfl
  case append =>
    cases args with
    | nil => exact Or.inl rfl
    | cons k items =>
      simp only [execute]
      split
      · exact Or.inl rfl
      · rename_i ht
        split
        · exact Or.inl rfl
        · split
          · exact Or.inl rfl
          · rename_i hk
            cases ha : appended ((s k).getD (.default (effectiveType kt (s k) .bytes))) items with
            | none => exact Or.inl rfl
            | some w =>
              have hw := appended_kind ha
              refine Or.inr ⟨k, w, rfl, rfl, ?_, ?_⟩
              · intro v hv
                rw [hw, hv]
                rfl
              · rw [hw]
                have : ((s k).getD (.default (effectiveType kt (s k) .bytes))).kind = effectiveType kt (s k) .bytes :=
                  Classical.not_not.mp hk
                rw [this]
                revert ht
                cases effectiveType kt (s k) .bytes <;> simp
  all_goals
    left
    rcases args with _ | ⟨k, _ | ⟨a, more⟩⟩ <;> simp only [execute]
    all_goals
      repeat' split
      all_goals rfl

end Hop
