import Verif.Lemmas.Builder

/-! The wire layout can be read back. -/

namespace Hop

open Spec

theorem encodeArg_append_inj {a a' r r' : Bytes} (ha : a.length < 2 ^ 32) (ha' : a'.length < 2 ^ 32)
    (h : encodeArg a ++ r = encodeArg a' ++ r') : a = a' ∧ r = r' := by
  simp only [encodeArg, List.append_assoc] at h
  obtain ⟨h1, h2⟩ := List.append_inj h (by simp)
  have hl : a.length = a'.length := beBytes_inj (by omega) (by omega) h1
  exact List.append_inj h2 hl

theorem flatMap_encodeArg_inj {as as' : List Bytes} (hn : as.length = as'.length)
    (ha : ∀ a ∈ as, a.length < 2 ^ 32) (ha' : ∀ a ∈ as', a.length < 2 ^ 32)
    (h : as.flatMap encodeArg = as'.flatMap encodeArg) : as = as' := by
  induction as generalizing as' with
  | nil =>
    cases as' with
    | nil => rfl
    | cons => simp at hn
  | cons a as ih =>
    cases as' with
    | nil => simp at hn
    | cons a' as' =>
      simp only [List.flatMap_cons] at h
      obtain ⟨rfl, h2⟩ := encodeArg_append_inj (ha _ List.mem_cons_self) (ha' _ List.mem_cons_self) h
      rw [ih (by simpa using hn) (fun x hx => ha x (List.mem_cons_of_mem _ hx))
        (fun x hx => ha' x (List.mem_cons_of_mem _ hx)) h2]

theorem flatMap_encodeArg_append_inj {as as' : List Bytes} {r r' : Bytes} (hn : as.length = as'.length)
    (ha : ∀ a ∈ as, a.length < 2 ^ 32) (ha' : ∀ a ∈ as', a.length < 2 ^ 32)
    (h : as.flatMap encodeArg ++ r = as'.flatMap encodeArg ++ r') : as = as' ∧ r = r' := by
  induction as generalizing as' with
  | nil =>
    cases as' with
    | nil => exact ⟨rfl, by simpa using h⟩
    | cons => simp at hn
  | cons a as ih =>
    cases as' with
    | nil => simp at hn
    | cons a' as' =>
      simp only [List.flatMap_cons, List.append_assoc] at h
      obtain ⟨rfl, h2⟩ := encodeArg_append_inj (ha _ List.mem_cons_self) (ha' _ List.mem_cons_self) h
      obtain ⟨h3, h4⟩ := ih (by simpa using hn) (fun x hx => ha x (List.mem_cons_of_mem _ hx))
        (fun x hx => ha' x (List.mem_cons_of_mem _ hx)) h2
      exact ⟨by rw [h3], h4⟩

theorem encodeHead_append_inj {c c' : CommandId} {kt kt' : Option KeyType} {r r' : Bytes}
    (h : encodeHead c kt ++ r = encodeHead c' kt' ++ r') : c = c' ∧ kt = kt' ∧ r = r' := by
  have e1 : ∀ c c' : CommandId, c.toByte = c'.toByte → c = c' := by
    intro c c'; cases c <;> cases c' <;> decide
  have e2 : ∀ c c' : CommandId, c.toByte ||| 128 = c'.toByte ||| 128 → c = c' := by
    intro c c'; cases c <;> cases c' <;> decide
  have e3 : ∀ c c' : CommandId, c.toByte ||| 128 ≠ c'.toByte := by
    intro c c'; cases c <;> cases c' <;> decide
  have e4 : ∀ t t' : KeyType, t.toByte = t'.toByte → t = t' := by
    intro t t'; cases t <;> cases t' <;> decide
  cases kt <;> cases kt' <;> simp only [encodeHead, List.cons_append, List.nil_append,
    List.cons.injEq] at h
  · exact ⟨e1 _ _ h.1, rfl, h.2⟩
  · exact absurd h.1.symm (e3 _ _)
  · exact absurd h.1 (e3 _ _)
  · exact ⟨e2 _ _ h.1, by rw [e4 _ _ h.2.1], h.2.2⟩

theorem encode_inj {c c' : CommandId} {kt kt' : Option KeyType} {as as' : List Bytes}
    (hn : as.length ≤ 255) (hn' : as'.length ≤ 255)
    (ha : ∀ a ∈ as, a.length < 2 ^ 32) (ha' : ∀ a ∈ as', a.length < 2 ^ 32)
    (h : encode c kt as = encode c' kt' as') : c = c' ∧ kt = kt' ∧ as = as' := by
  simp only [encode, List.append_assoc] at h
  obtain ⟨h1, h2, h3⟩ := encodeHead_append_inj h
  simp only [List.cons_append, List.nil_append, List.cons.injEq] at h3
  refine ⟨h1, h2, flatMap_encodeArg_inj ?_ ha ha' h3.2⟩
  have := congrArg UInt8.toNat h3.1
  simp only [UInt8.toNat_ofNat'] at this
  omega

end Hop
