import Verif.Lemmas.Calls

/-! # What maps and sets built from argument lists contain -/

namespace Hop

open Spec

/-- Spec: consecutive pairs; a trailing single item is dropped. -/
def Spec.pairsOf : List Bytes → List (Bytes × Bytes)
  | k :: v :: rest => (k, v) :: pairsOf rest
  | _ => []

theorem lookup_insert (m : BMap) (k v k' : Bytes) :
    List.lookup k' (BMap.insert m k v) = if k' = k then some v else List.lookup k' m := by
  induction m with
  | nil => simp only [BMap.insert, List.lookup]; split <;> simp_all
  | cons e m ih =>
    obtain ⟨a, b⟩ := e
    simp only [BMap.insert]
    by_cases h : a = k
    · subst h
      simp only [if_true]
      by_cases h' : k' = a
      · simp [List.lookup, h']
      · simp [List.lookup, h', beq_eq_false_iff_ne.mpr h']
    · simp only [if_neg h, List.lookup_cons, ih]
      by_cases h' : k' = a
      · subst h'; simp [h]
      · simp [beq_eq_false_iff_ne.mpr h']

theorem insert_keys_mem (m : BMap) (k v k' : Bytes) :
    k' ∈ (BMap.insert m k v).map Prod.fst ↔ k' = k ∨ k' ∈ m.map Prod.fst := by
  induction m with
  | nil => simp [BMap.insert]
  | cons e m ih =>
    obtain ⟨a, b⟩ := e
    simp only [BMap.insert]
    by_cases h : a = k
    · subst h
      simp
    · simp only [if_neg h, List.map_cons, List.mem_cons, ih]
      constructor
      · rintro (h | h | h)
        · exact Or.inr (Or.inl h)
        · exact Or.inl h
        · exact Or.inr (Or.inr h)
      · rintro (h | h | h)
        · exact Or.inr (Or.inl h)
        · exact Or.inl h
        · exact Or.inr (Or.inr h)

theorem insert_nodup (m : BMap) (k v : Bytes) (h : (m.map Prod.fst).Nodup) :
    ((BMap.insert m k v).map Prod.fst).Nodup := by
  induction m with
  | nil => simp [BMap.insert]
  | cons e m ih =>
    obtain ⟨a, b⟩ := e
    simp only [List.map_cons, List.nodup_cons] at h
    simp only [BMap.insert]
    by_cases hk : a = k
    · simp only [if_pos hk, List.map_cons, List.nodup_cons]
      rw [← hk]; exact h
    · simp only [if_neg hk, List.map_cons, List.nodup_cons]
      refine ⟨?_, ih h.2⟩
      rw [insert_keys_mem]
      rintro (h' | h')
      · exact hk h'
      · exact h.1 h'

theorem convMapAux_nodup (args : List Bytes) (m : BMap) (h : (m.map Prod.fst).Nodup) :
    ((convMapAux m args).map Prod.fst).Nodup := by
  induction m, args using convMapAux.induct with
  | case1 m k v rest ih => rw [convMapAux]; exact ih (insert_nodup _ _ _ h)
  | case2 m args hn => rw [convMapAux]; exact h; exact hn

theorem convMapAux_lookup (args : List Bytes) (m : BMap) (k : Bytes) :
    List.lookup k (convMapAux m args) = ((pairsOf args).reverse.lookup k).or (List.lookup k m) := by
  induction m, args using convMapAux.induct with
  | case1 m a v rest ih =>
    rw [convMapAux, ih, lookup_insert, pairsOf, List.reverse_cons, List.lookup_append]
    by_cases h : k = a
    · subst h
      cases List.lookup k (pairsOf rest).reverse <;> simp [List.lookup]
    · rw [if_neg h]
      have : List.lookup k [(a, v)] = none := by simp [List.lookup, beq_eq_false_iff_ne.mpr h]
      rw [this]
      simp
  | case2 args m hn =>
    rw [convMapAux]
    · have : pairsOf args = [] := by
        match args with
        | [] => rfl
        | [_] => rfl
        | a :: b :: rest => exact absurd rfl (hn a b rest)
      rw [this]; simp
    · exact hn

theorem foldl_insert_mem (args : List Bytes) (s : BSet) (x : Bytes) :
    x ∈ args.foldl BSet.insert s ↔ x ∈ s ∨ x ∈ args := by
  induction args generalizing s with
  | nil => simp
  | cons a args ih =>
    rw [List.foldl_cons, ih]
    simp only [BSet.insert]
    split
    · rename_i h
      simp only [List.mem_cons]
      constructor
      · rintro (h | h)
        · exact Or.inl h
        · exact Or.inr (Or.inr h)
      · rintro (h' | rfl | h')
        · exact Or.inl h'
        · exact Or.inl h
        · exact Or.inr h'
    · simp only [List.mem_append, List.mem_cons, List.not_mem_nil, or_false]
      exact or_assoc

theorem foldl_insert_nodup (args : List Bytes) (s : BSet) (h : s.Nodup) : (args.foldl BSet.insert s).Nodup := by
  induction args generalizing s with
  | nil => exact h
  | cons a args ih =>
    refine ih _ ?_
    simp only [BSet.insert]
    split
    · exact h
    · rename_i hn
      rw [List.nodup_append]
      refine ⟨h, by simp, ?_⟩
      intro x hx y hy e
      simp at hy
      subst hy e
      exact hn hx

theorem parseValue_WF {t : KeyType} {items : List Bytes} {v : Value} (h : parseValue t items = some v) : WF v := by
  have hk := parseValue_kind h
  cases v with
  | map m =>
    simp only [Value.kind] at hk
    subst hk
    cases items <;> simp only [parseValue, Option.some.injEq, Value.map.injEq] at h <;> subst h <;>
      exact convMapAux_nodup _ _ (by simp)
  | set s =>
    simp only [Value.kind] at hk
    subst hk
    cases items <;> simp only [parseValue, Option.some.injEq, Value.set.injEq] at h <;> subst h <;>
      exact foldl_insert_nodup _ _ (by simp)
  | _ => trivial

end Hop
