/-! # Infinite executions that cannot go on for ever -/

namespace Hop

/-- One element of a list goes on. -/
inductive OneOf {α : Type} (r : α → α → Prop) : List α → List α → Prop
  | head {a b l} : r a b → OneOf r (a :: l) (b :: l)
  | tail {a l l'} : OneOf r l l' → OneOf r (a :: l) (a :: l')

theorem OneOf.acc_cons {α : Type} {r : α → α → Prop} {a : α} (ha : Acc r a) : ∀ {l}, Acc (OneOf r) l → Acc (OneOf r) (a :: l) := by
  induction ha with
  | intro a ha iha =>
    intro l hl
    induction hl with
    | intro l hl ihl =>
      refine ⟨_, fun l' h => ?_⟩
      cases h with
      | head h => exact iha _ h ⟨l, hl⟩
      | tail h => exact ihl _ h

theorem OneOf.acc {α : Type} {r : α → α → Prop} (h : ∀ a, Acc r a) (l : List α) : Acc (OneOf r) l := by
  induction l with
  | nil => exact ⟨_, fun _ h => by cases h⟩
  | cons a l ih => exact OneOf.acc_cons (h a) ih

theorem OneOf.set {α : Type} {r : α → α → Prop} {l : List α} {i : Nat} {t t' : α} (hi : l[i]? = some t) (h : r t' t) :
    OneOf r (l.set i t') l := by
  induction l generalizing i with
  | nil => simp at hi
  | cons a l ih =>
    cases i with
    | zero =>
      simp only [List.getElem?_cons_zero, Option.some.injEq] at hi
      subst hi
      exact .head h
    | succ i =>
      simp only [List.getElem?_cons_succ] at hi
      exact .tail (ih hi)

theorem acc_irrefl {α : Type} {r : α → α → Prop} {a : α} (h : Acc r a) : ¬ r a a := by
  induction h with
  | intro a _ ih => intro hr; exact ih a hr hr

theorem set_same {α : Type} {l : List α} {i : Nat} {a : α} (h : l[i]? = some a) : l.set i a = l := by
  obtain ⟨h1, rfl⟩ := List.getElem?_eq_some_iff.mp h
  exact List.set_getElem_self h1

/-- A sequence each step of which changes nothing or goes down does not change for ever. -/
theorem settles {α : Type} {r : α → α → Prop} (run : Nat → α) (hacc : Acc r (run 0))
    (h : ∀ m, run (m + 1) = run m ∨ r (run (m + 1)) (run m)) : ∃ N, ∀ m, N ≤ m → run m = run N := by
  have main : ∀ s, Acc r s → ∀ m, run m = s → ∃ N, ∀ m', N ≤ m' → run m' = run N := by
    intro s hs
    induction hs with
    | intro s _ ih =>
      intro m hm
      by_cases hc : ∀ d, run (m + d) = s
      · exact ⟨m, fun m' h' => by
          have := hc (m' - m)
          rw [Nat.add_sub_cancel' h'] at this
          rw [this, hm]⟩
      · have hex : ∃ d, run (m + d) ≠ s := Classical.not_forall.mp hc
        obtain ⟨d, hd⟩ := hex
        clear hc
        induction d generalizing m with
        | zero => exact absurd hm hd
        | succ d ihd =>
          rcases h m with e | e
          · exact ihd (m + 1) (by rw [e, hm]) (by rw [Nat.add_right_comm]; exact hd)
          · exact ih _ (hm ▸ e) (m + 1) rfl
  exact main _ hacc 0 rfl

end Hop
