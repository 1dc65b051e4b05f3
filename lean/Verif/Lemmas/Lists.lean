/-! # List facts shared by the smaller components -/

namespace Hop

/-- Induction on the last element. -/
theorem snoc_ind {α : Type} {P : List α → Prop} (h0 : P []) (h1 : ∀ s i, P s → P (s ++ [i])) (s : List α) :
    P s := by
  have : ∀ r : List α, P r.reverse := by
    intro r
    induction r with
    | nil => exact h0
    | cons a r ih => rw [List.reverse_cons]; exact h1 _ _ ih
  have h := this s.reverse
  rwa [List.reverse_reverse] at h

end Hop
