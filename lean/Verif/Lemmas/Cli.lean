import Verif.Spec.Cli
import Verif.Lemmas.Client

/-! # Lemmas about the command line interface -/

namespace Hop

open Spec
open Hop.Cli (Text Std ParseError Fault splitOn rsplit2 parseInt parseBool digit digits)

/-! ## Splitting -/

theorem splitOn_single (sep : Char) (w : Text) (h : sep ∉ w) : splitOn sep w = [w] := by
  induction w with
  | nil => rfl
  | cons c w ih =>
    simp only [List.mem_cons, not_or] at h
    simp only [splitOn, if_neg (Ne.symm h.1), ih h.2]

theorem splitOn_cons (sep : Char) (w rest : Text) (h : sep ∉ w) :
    splitOn sep (w ++ sep :: rest) = w :: splitOn sep rest := by
  induction w with
  | nil => simp [splitOn]
  | cons c w ih =>
    simp only [List.mem_cons, not_or] at h
    simp only [List.cons_append, splitOn, if_neg (Ne.symm h.1), ih h.2]

theorem splitOn_lineOf (w : Text) (words : List Text) (hw : ' ' ∉ w) (hs : ∀ x ∈ words, ' ' ∉ x) :
    splitOn ' ' (lineOf w words) = w :: words := by
  induction words generalizing w with
  | nil => simp [lineOf, splitOn_single _ _ hw]
  | cons x words ih =>
    have : lineOf w (x :: words) = w ++ ' ' :: lineOf x words := by simp [lineOf]
    rw [this, splitOn_cons _ _ _ hw, ih x (hs x (by simp)) (fun y hy => hs y (by simp [hy]))]

theorem splitOn_inv (s : Text) :
    ∃ w words, splitOn ' ' s = w :: words ∧ s = lineOf w words ∧ ' ' ∉ w ∧ ∀ x ∈ words, ' ' ∉ x := by
  induction s with
  | nil => exact ⟨[], [], rfl, rfl, by simp, by simp⟩
  | cons c s ih =>
    obtain ⟨w, words, h1, h2, h3, h4⟩ := ih
    by_cases hc : c = ' '
    · subst hc
      refine ⟨[], w :: words, by simp [splitOn, h1], by simp [h2, lineOf], by simp, ?_⟩
      intro x hx
      rcases List.mem_cons.mp hx with rfl | hx
      · exact h3
      · exact h4 x hx
    · exact ⟨c :: w, words, by simp [splitOn, hc, h1], by simp [h2, lineOf],
        by simp [h3, Ne.symm hc], h4⟩

/-! ## Commands -/

theorem ite_some_inv {α} {p : Prop} [Decidable p] {x c : α} {y : Option α} (h : (if p then some x else y) = some c) :
    (p ∧ x = c) ∨ y = some c := by
  by_cases hp : p
  · rw [if_pos hp] at h; exact .inl ⟨hp, Option.some.inj h⟩
  · rw [if_neg hp] at h; exact .inr h

theorem ofName_iff (s : String) (c : CommandId) : CommandId.ofName s = some c ↔ s = c.name := by
  constructor
  · intro h
    unfold CommandId.ofName at h
    iterate 16
      rcases ite_some_inv h with ⟨hs, rfl⟩ | h
      · exact hs
    cases h
  · rintro rfl
    cases c <;> decide

theorem keyType_iff (s : Text) (t : KeyType) :
    Cli.keyType s = some t ↔ ∃ a ∈ typeNames t, s = a.toList := by
  constructor
  · intro h
    simp only [Cli.keyType] at h
    repeat' split at h
    all_goals first
      | (simp only [Option.some.injEq] at h; subst h; rename_i hs; simp only [typeNames]
         first
           | exact ⟨_, List.mem_singleton.mpr rfl, hs⟩
           | (rcases hs with hs | hs <;> exact ⟨_, by simp, hs⟩))
      | simp at h
  · rintro ⟨a, ha, rfl⟩
    cases t <;> simp only [typeNames, List.mem_cons, List.not_mem_nil, or_false] at ha
    all_goals first | (subst ha; decide) | (rcases ha with rfl | rfl <;> decide)

theorem takeWhile_append_sep (sep : Char) (a : Text) (b : Text) (h : sep ∉ a) :
    (a ++ sep :: b).takeWhile (· ≠ sep) = a ∧ (a ++ sep :: b).dropWhile (· ≠ sep) = sep :: b := by
  induction a with
  | nil => simp
  | cons c a ih =>
    simp only [List.mem_cons, not_or] at h
    obtain ⟨h1, h2⟩ := ih h.2
    have hc : c ≠ sep := fun e => h.1 e.symm
    rw [List.cons_append, List.takeWhile_cons_of_pos (by simpa using hc), List.dropWhile_cons_of_pos (by simpa using hc),
      h1, h2]
    exact ⟨rfl, rfl⟩

theorem rsplit2_sep (sep : Char) (a b : Text) (h : sep ∉ a) : rsplit2 sep (b ++ sep :: a) = (a, some b) := by
  have := takeWhile_append_sep sep a.reverse b.reverse (by simpa using h)
  have hr : (b ++ sep :: a).reverse = a.reverse ++ sep :: b.reverse := by simp
  simp only [rsplit2, hr, this.1, this.2, List.reverse_reverse]

theorem rsplit2_inv {sep : Char} {s a b : Text} (h : rsplit2 sep s = (a, some b)) : s = b ++ sep :: a := by
  simp only [rsplit2, Prod.mk.injEq] at h
  obtain ⟨h1, h2⟩ := h
  split at h2
  · simp at h2
  · rename_i x before hx
    have hx' : x = sep := by
      have := List.head?_dropWhile_not (fun c => decide (c ≠ sep)) s.reverse
      rw [hx] at this
      simpa using this
    have := List.takeWhile_append_dropWhile (p := fun c => decide (c ≠ sep)) (l := s.reverse)
    rw [hx, hx'] at this
    have h3 := congrArg List.reverse this
    simp only [List.reverse_append, List.reverse_cons, List.reverse_reverse] at h3
    simp only [Option.some.injEq] at h2
    rw [← h1, ← h2]
    rw [List.append_assoc] at h3
    exact h3.symm

theorem typeNames_plain : ∀ (t : KeyType), ∀ a ∈ typeNames t, ':' ∉ a.toList ∧ ' ' ∉ a.toList := by
  intro t
  cases t <;> decide

theorem typed_name (c : CommandId) (t : KeyType) (a : String) (h : a ∈ typeNames t) :
    CommandId.ofName (String.ofList (c.name.toList ++ ':' :: a.toList)) = none := by
  cases t <;> simp only [typeNames, List.mem_cons, List.not_mem_nil, or_false] at h
  all_goals first
    | (subst h; cases c <;> decide +kernel)
    | (rcases h with rfl | rfl <;> cases c <;> decide +kernel)

theorem command_iff (w : Text) (c : CommandId) (t : KeyType) :
    (∃ kt, Cli.command w = some (c, kt) ∧ kt.getD .bytes = t) ↔ Head c t w := by
  constructor
  · rintro ⟨kt, h, rfl⟩
    simp only [Cli.command] at h
    split at h
    · rename_i c' hc
      simp only [Option.some.injEq, Prod.mk.injEq] at h
      obtain ⟨rfl, rfl⟩ := h
      rw [ofName_iff] at hc
      left
      exact ⟨by rw [← hc]; simp, rfl⟩
    · split at h
      · simp at h
      · rename_i t' ht
        split at h
        · simp at h
        · rename_i b hb
          split at h
          · simp at h
          · rename_i c' hc
            simp only [Option.some.injEq, Prod.mk.injEq] at h
            obtain ⟨rfl, rfl⟩ := h
            rw [ofName_iff] at hc
            rw [keyType_iff] at ht
            obtain ⟨a, ha, hs⟩ := ht
            right
            refine ⟨a, ha, ?_⟩
            have := rsplit2_inv (sep := ':') (s := w) (a := (rsplit2 ':' w).1) (b := b) (by rw [← hb])
            rw [hs] at this
            rw [this, ← hc]
            simp
  · rintro (⟨rfl, rfl⟩ | ⟨a, ha, rfl⟩)
    · refine ⟨none, ?_, rfl⟩
      simp only [Cli.command, String.ofList_toList, (ofName_iff c.name c).mpr rfl]
    · refine ⟨some t, ?_, rfl⟩
      simp only [Cli.command, typed_name c t a ha, rsplit2_sep ':' a.toList c.name.toList (typeNames_plain t a ha).1,
        (keyType_iff a.toList t).mpr ⟨a, ha, rfl⟩, String.ofList_toList, (ofName_iff c.name c).mpr rfl]

theorem name_plain (c : CommandId) : ' ' ∉ c.name.toList ∧ c.name.toList ≠ [] := by
  cases c <;> decide

theorem head_plain {c : CommandId} {t : KeyType} {w : Text} (h : Head c t w) : ' ' ∉ w ∧ w ≠ [] := by
  obtain ⟨h1, h2⟩ := name_plain c
  rcases h with ⟨rfl, rfl⟩ | ⟨a, ha, rfl⟩
  · exact ⟨h1, h2⟩
  · refine ⟨?_, by simp⟩
    have := (typeNames_plain t a ha).2
    simp only [List.mem_append, List.mem_cons, not_or]
    exact ⟨h1, by decide, this⟩

/-- A line has at most one reading. -/
theorem head_unique {c c' : CommandId} {t t' : KeyType} {w : Text} (h : Head c t w) (h' : Head c' t' w) :
    c = c' ∧ t = t' := by
  rw [← command_iff] at h h'
  obtain ⟨kt, h1, rfl⟩ := h
  obtain ⟨kt', h2, rfl⟩ := h'
  rw [h1] at h2
  simp only [Option.some.injEq, Prod.mk.injEq] at h2
  obtain ⟨rfl, rfl⟩ := h2
  exact ⟨rfl, rfl⟩

/-! ## Values -/

theorem digit_iff (c : Char) (d : Nat) : digit c = some d ↔ c.isDigit = true ∧ d = c.toNat - 48 := by
  have : c.isDigit = true ↔ 48 ≤ c.toNat ∧ c.toNat ≤ 57 := by
    simp only [Char.isDigit, Bool.and_eq_true, decide_eq_true_eq, ge_iff_le]
    exact Iff.rfl
  rw [this]
  simp only [digit]
  split
  · rename_i h
    simp only [Option.some.injEq, h, and_self, true_and]
    exact eq_comm
  · rename_i h
    simp only [reduceCtorEq, h, false_and]

theorem digits_iff (s : Text) (acc n : Nat) :
    digits acc s = some n ↔ (∀ c ∈ s, c.isDigit = true) ∧ n = Nat.ofDigitChars 10 s acc := by
  induction s generalizing acc with
  | nil =>
    simp only [digits, Nat.ofDigitChars_nil, Option.some.injEq, List.not_mem_nil, false_implies, implies_true, true_and]
    exact eq_comm
  | cons c s ih =>
    simp only [digits, Nat.ofDigitChars_cons, List.mem_cons, forall_eq_or_imp]
    cases hd : digit c with
    | none =>
      have : c.isDigit = false := by
        rw [Bool.eq_false_iff]
        intro h
        have := (digit_iff c _).mpr ⟨h, rfl⟩
        rw [hd] at this
        simp at this
      simp [this]
    | some d =>
      obtain ⟨h1, h2⟩ := (digit_iff c d).mp hd
      subst h2
      simp only [h1, true_and, ih]
      exact Iff.rfl

theorem decimal_iff (s : Text) (n : Int) :
    Decimal s n ↔ (Cli.signed s).2 ≠ [] ∧ (∀ c ∈ (Cli.signed s).2, c.isDigit = true) ∧
      n = if (Cli.signed s).1 then -(Nat.ofDigitChars 10 (Cli.signed s).2 0 : Int)
        else (Nat.ofDigitChars 10 (Cli.signed s).2 0 : Int) := by
  have nodig : ¬ ('-'.isDigit = true) ∧ ¬ ('+'.isDigit = true) := by decide
  unfold Cli.signed
  split
  · rename_i ds'
    constructor
    · rintro ⟨ds, h1, h2, h | ⟨h, rfl⟩⟩
      · rcases h.1 with h | h
        · subst h; exact absurd (h2 '-' (by simp)) nodig.1
        · exact absurd (List.cons.inj h).1 (by decide)
      · obtain ⟨-, rfl⟩ := List.cons.inj h
        exact ⟨h1, h2, rfl⟩
    · rintro ⟨h1, h2, rfl⟩
      exact ⟨ds', h1, h2, .inr ⟨rfl, rfl⟩⟩
  · rename_i ds'
    constructor
    · rintro ⟨ds, h1, h2, ⟨h, rfl⟩ | ⟨h, rfl⟩⟩
      · rcases h with h | h
        · subst h; exact absurd (h2 '+' (by simp)) nodig.2
        · obtain ⟨-, rfl⟩ := List.cons.inj h
          exact ⟨h1, h2, rfl⟩
      · exact absurd (List.cons.inj h).1 (by decide)
    · rintro ⟨h1, h2, rfl⟩
      exact ⟨ds', h1, h2, .inl ⟨.inr rfl, rfl⟩⟩
  · rename_i hm hp
    constructor
    · rintro ⟨ds, h1, h2, ⟨h, rfl⟩ | ⟨h, rfl⟩⟩
      · rcases h with h | h
        · subst h; exact ⟨h1, h2, rfl⟩
        · exact absurd h (hp _)
      · exact absurd h (hm _)
    · rintro ⟨h1, h2, rfl⟩
      exact ⟨_, h1, h2, .inl ⟨.inl rfl, rfl⟩⟩

theorem parseInt_iff (s : Text) (i : Int64) :
    parseInt s = some i ↔ ∃ n : Int, Decimal s n ∧ inRange n ∧ i = Int64.ofInt n := by
  simp only [decimal_iff, parseInt]
  generalize (Cli.signed s).2 = ds
  generalize (Cli.signed s).1 = neg
  by_cases hd : ds = []
  · rw [if_pos hd]
    constructor
    · intro h; cases h
    · rintro ⟨n, ⟨h, -⟩, -⟩; exact absurd hd h
  · rw [if_neg hd]
    cases h : digits 0 ds with
    | none =>
      constructor
      · intro h; cases h
      · rintro ⟨n, ⟨-, h1, -⟩, -⟩
        have := (digits_iff ds 0 _).mpr ⟨h1, rfl⟩
        rw [h] at this
        cases this
    | some k =>
      obtain ⟨h1, rfl⟩ := (digits_iff ds 0 k).mp h
      dsimp only
      generalize hz : (if neg = true then -(Nat.ofDigitChars 10 ds 0 : Int) else (Nat.ofDigitChars 10 ds 0 : Int)) = z
      constructor
      · intro h
        by_cases hr : -2 ^ 63 ≤ z ∧ z < 2 ^ 63
        · rw [if_pos hr] at h
          exact ⟨z, ⟨hd, h1, rfl⟩, hr, (Option.some.inj h).symm⟩
        · rw [if_neg hr] at h; cases h
      · rintro ⟨n, ⟨-, -, rfl⟩, hr, rfl⟩
        exact if_pos hr

theorem parseBool_iff (s : Text) (b : Bool) :
    parseBool s = some b ↔ (s = "true".toList ∧ b = true) ∨ (s = "false".toList ∧ b = false) := by
  have hne : "true".toList ≠ "false".toList := by decide
  unfold parseBool
  by_cases h1 : s = "true".toList
  · rw [if_pos h1]
    subst h1
    constructor
    · intro h; exact .inl ⟨rfl, (Option.some.inj h).symm⟩
    · rintro (⟨-, rfl⟩ | ⟨h, -⟩)
      · rfl
      · exact absurd h hne
  · rw [if_neg h1]
    by_cases h2 : s = "false".toList
    · rw [if_pos h2]
      constructor
      · intro h; exact .inr ⟨h2, (Option.some.inj h).symm⟩
      · rintro (⟨h, -⟩ | ⟨-, rfl⟩)
        · exact absurd h h1
        · rfl
    · rw [if_neg h2]
      constructor
      · intro h; cases h
      · rintro (⟨h, -⟩ | ⟨h, -⟩)
        · exact absurd h h1
        · exact absurd h h2

/-- One value word, of a type other than map. -/
theorem values_cons (std : Std) (t : KeyType) (ht : t ≠ .map) (w : Text) (ws : List Text) :
    (∃ b, Spells std t w b ∧ Cli.values std t (w :: ws) = (Cli.values std t ws).map (b :: ·)) ∨
    ((∀ b, ¬ Spells std t w b) ∧ Cli.values std t (w :: ws) = .error (.argumentInvalid w t)) := by
  cases t with
  | map => exact absurd rfl ht
  | boolean =>
    simp only [Cli.values]
    cases h : parseBool w with
    | some b =>
      left
      refine ⟨[if b then 1 else 0], ?_, rfl⟩
      rcases (parseBool_iff w b).mp h with ⟨hw, rfl⟩ | ⟨hw, rfl⟩
      · exact .inl ⟨hw, rfl⟩
      · exact .inr ⟨hw, rfl⟩
    | none =>
      right
      refine ⟨?_, rfl⟩
      rintro b (⟨h', -⟩ | ⟨h', -⟩)
      · have := (parseBool_iff w true).mpr (.inl ⟨h', rfl⟩); rw [h] at this; cases this
      · have := (parseBool_iff w false).mpr (.inr ⟨h', rfl⟩); rw [h] at this; cases this
  | integer =>
    simp only [Cli.values]
    cases h : parseInt w with
    | some i =>
      left
      refine ⟨i64Bytes i, ?_, rfl⟩
      obtain ⟨n, h1, h2, rfl⟩ := (parseInt_iff w i).mp h
      exact ⟨n, h1, h2, rfl⟩
    | none =>
      right
      refine ⟨?_, rfl⟩
      rintro b ⟨n, h1, h2, -⟩
      have := (parseInt_iff w _).mpr ⟨n, h1, h2, rfl⟩
      rw [h] at this; cases this
  | float =>
    simp only [Cli.values]
    cases h : std.parseFloat w with
    | some f => exact .inl ⟨f.toBytes, ⟨f, h, rfl⟩, rfl⟩
    | none =>
      right
      refine ⟨?_, rfl⟩
      rintro b ⟨f, h1, -⟩
      rw [h] at h1; cases h1
  | bytes => exact .inl ⟨strBytes w, rfl, rfl⟩
  | list => exact .inl ⟨strBytes w, rfl, rfl⟩
  | set => exact .inl ⟨strBytes w, rfl, rfl⟩
  | string => exact .inl ⟨strBytes w, rfl, rfl⟩

theorem spells_unique {std : Std} {t : KeyType} {w : Text} {a b : Bytes} (ha : Spells std t w a)
    (hb : Spells std t w b) : a = b := by
  have hne : "true".toList ≠ "false".toList := by decide
  cases t with
  | boolean =>
    rcases ha with ⟨h1, rfl⟩ | ⟨h1, rfl⟩ <;> rcases hb with ⟨h2, rfl⟩ | ⟨h2, rfl⟩
    · rfl
    · exact absurd (h1.symm.trans h2) hne
    · exact absurd (h2.symm.trans h1) hne
    · rfl
  | integer =>
    obtain ⟨n, h1, -, rfl⟩ := ha
    obtain ⟨k, h2, -, rfl⟩ := hb
    rw [decimal_iff] at h1 h2
    rw [h1.2.2, h2.2.2]
  | float =>
    obtain ⟨n, h1, rfl⟩ := ha
    obtain ⟨k, h2, rfl⟩ := hb
    rw [h1] at h2
    cases h2
    rfl
  | bytes => exact ha.trans hb.symm
  | list => exact ha.trans hb.symm
  | set => exact ha.trans hb.symm
  | map => exact ha.trans hb.symm
  | string => exact ha.trans hb.symm

theorem values_map_ok {std : Std} : ∀ (ws : List Text) (bs : List Bytes), SpellsAll std .map ws bs →
    ws.length % 2 = 0 → Cli.values std .map ws = .ok bs
  | [], _, .nil, _ => rfl
  | [_], _, .cons _ .nil, he => by simp at he
  | w :: v :: ws, _, .cons h1 (.cons h2 h3), he => by
    have := values_map_ok ws _ h3 (by simp at he; omega)
    simp only [Spells] at h1 h2
    subst h1 h2
    simp only [Cli.values, this]
    rfl

theorem values_ok {std : Std} {t : KeyType} {ws : List Text} {bs : List Bytes} (h : SpellsAll std t ws bs)
    (he : t = .map → ws.length % 2 = 0) : Cli.values std t ws = .ok bs := by
  by_cases ht : t = .map
  · subst ht
    exact values_map_ok ws bs h (he rfl)
  · clear he
    induction h with
    | nil => rfl
    | cons h1 h2 ih =>
      rename_i w b ws bs
      rcases values_cons std t ht w ws with ⟨b', hb, hv⟩ | ⟨hb, -⟩
      · rw [hv, ih, spells_unique h1 hb]
        rfl
      · exact absurd h1 (hb b)

theorem values_map_inv {std : Std} : ∀ (ws : List Text) (bs : List Bytes), Cli.values std .map ws = .ok bs →
    ∃ vs lost, ws = vs ++ lost ∧ lost.length ≤ 1 ∧ vs.length % 2 = 0 ∧ SpellsAll std .map vs bs
  | [], _, h => by
    simp only [Cli.values, Except.ok.injEq] at h
    subst h
    exact ⟨[], [], rfl, by simp, rfl, .nil⟩
  | [w], _, h => by
    simp only [Cli.values, Except.ok.injEq] at h
    subst h
    exact ⟨[], [w], rfl, by simp, rfl, .nil⟩
  | w :: v :: ws, bs, h => by
    simp only [Cli.values] at h
    cases hv : Cli.values std .map ws with
    | error e => rw [hv] at h; cases h
    | ok l =>
      obtain ⟨vs, lost, h1, h2, h3, h4⟩ := values_map_inv ws l hv
      rw [hv] at h
      simp only [Except.map, Except.ok.injEq] at h
      subst h
      exact ⟨w :: v :: vs, lost, by simp [h1], h2, by simp; omega, .cons rfl (.cons rfl h4)⟩

theorem values_inv {std : Std} {t : KeyType} {ws : List Text} {bs : List Bytes}
    (h : Cli.values std t ws = .ok bs) :
    ∃ vs lost, ws = vs ++ lost ∧ lost.length ≤ 1 ∧ (lost ≠ [] → t = .map) ∧ (t = .map → vs.length % 2 = 0) ∧
      SpellsAll std t vs bs := by
  by_cases ht : t = .map
  · subst ht
    obtain ⟨vs, lost, h1, h2, h3, h4⟩ := values_map_inv ws bs h
    exact ⟨vs, lost, h1, h2, fun _ => rfl, fun _ => h3, h4⟩
  · suffices SpellsAll std t ws bs from
      ⟨ws, [], by simp, by simp, fun h => absurd rfl h, fun h => absurd h ht, this⟩
    induction ws generalizing bs with
    | nil =>
      simp only [Cli.values, Except.ok.injEq] at h
      subst h
      exact .nil
    | cons w ws ih =>
      rcases values_cons std t ht w ws with ⟨b, hb, hv⟩ | ⟨-, hv⟩
      · rw [hv] at h
        cases hw : Cli.values std t ws with
        | error e => rw [hw] at h; cases h
        | ok l =>
          rw [hw] at h
          simp only [Except.map, Except.ok.injEq] at h
          subst h
          exact .cons hb (ih hw)
      · rw [hv] at h; cases h

/-- Values are only ever refused for a word that does not spell a value of the type. -/
theorem values_error {std : Std} {t : KeyType} {ws : List Text} {e : ParseError}
    (h : Cli.values std t ws = .error e) :
    ∃ w ∈ ws, (∀ b, ¬ Spells std t w b) ∧ e = .argumentInvalid w t := by
  by_cases ht : t = .map
  · subst ht
    exfalso
    have : ∀ (n : Nat) (ws : List Text), ws.length ≤ n → Cli.values std .map ws ≠ .error e := by
      intro n
      induction n with
      | zero => intro ws hn; cases ws <;> simp_all [Cli.values]
      | succ n ih =>
        intro ws hn
        match ws with
        | [] => simp [Cli.values]
        | [_] => simp [Cli.values]
        | _ :: _ :: ws =>
          simp only [Cli.values]
          have := ih ws (by simp at hn; omega)
          cases hv : Cli.values std .map ws with
          | error e' => rw [hv] at this; intro h; cases h; exact this rfl
          | ok l => intro h; cases h
    exact this _ ws (Nat.le_refl _) h
  · induction ws with
    | nil => cases h
    | cons w ws ih =>
      rcases values_cons std t ht w ws with ⟨b, hb, hv⟩ | ⟨hb, hv⟩
      · rw [hv] at h
        cases hw : Cli.values std t ws with
        | error e' =>
          rw [hw] at h
          cases h
          obtain ⟨x, hx, h1, h2⟩ := ih hw
          exact ⟨x, by simp [hx], h1, h2⟩
        | ok l => rw [hw] at h; cases h
      · rw [hv] at h
        cases h
        exact ⟨w, by simp, hb, rfl⟩

theorem spellsAll_ne_nil {std : Std} {t : KeyType} {ws : List Text} {bs : List Bytes} (h : SpellsAll std t ws bs)
    (hw : ∀ w ∈ ws, w ≠ []) : ∀ b ∈ bs, b ≠ [] := by
  induction h with
  | nil => simp
  | cons h1 h2 ih =>
    rename_i w b ws bs
    intro x hx
    rcases List.mem_cons.mp hx with rfl | hx
    · have := hw w (by simp)
      cases t with
      | boolean => rcases h1 with ⟨-, rfl⟩ | ⟨-, rfl⟩ <;> simp
      | integer => obtain ⟨n, -, -, rfl⟩ := h1; exact fun h => by have := congrArg List.length h; simp at this
      | float => obtain ⟨n, -, rfl⟩ := h1; exact fun h => by have := congrArg List.length h; simp at this
      | _ => simp only [Spells] at h1; subst h1; simpa [strBytes_eq_nil] using this
    · exact ih (fun y hy => hw y (by simp [hy])) x hx

theorem spellsAll_length {std : Std} {t : KeyType} {ws : List Text} {bs : List Bytes} (h : SpellsAll std t ws bs) :
    bs.length = ws.length := by
  induction h with
  | nil => rfl
  | cons _ _ ih => simp [ih]

/-! ## Arguments -/

theorem inputArgs_ok {std : Std} {c : CommandId} {t : KeyType} {words : List Text} {args : List Bytes}
    (hw : words ≠ []) (h : Arguments std c t words args) : Cli.inputArgs std words c t = .ok args := by
  rcases h with ⟨rfl, -⟩ | ⟨ks, vs, bs, rfl, hk, hs, he, rfl⟩
  · exact absurd rfl hw
  · have hv := values_ok hs he
    have multi : ks.length = (ks ++ vs).length → ((ks ++ vs).map strBytes) = ks.map strBytes ++ bs := by
      intro hk
      have : vs = [] := by simpa using hk
      subst this
      cases hs
      simp
    have zero : ks.length = 0 → Cli.values std t (ks ++ vs) = .ok (ks.map strBytes ++ bs) := by
      intro h
      have : ks = [] := by simpa using h
      subst this
      simpa using hv
    have one : ks.length = 1 → (match ks ++ vs with
        | [] => Except.error ParseError.keyUnspecified
        | k :: rest => (Cli.values std t rest).map (strBytes k :: ·)) = .ok (ks.map strBytes ++ bs) := by
      intro h
      match ks, h with
      | [k], _ => simp only [List.singleton_append, hv, Except.map, List.map_cons, List.map_nil]
    have two : ks.length = 2 → (match ks ++ vs with
        | k :: l :: rest => (Cli.values std t rest).map (fun x => strBytes k :: strBytes l :: x)
        | _ => Except.error ParseError.keyUnspecified) = .ok (ks.map strBytes ++ bs) := by
      intro h
      match ks, h with
      | [k, l], _ => simp only [List.cons_append, List.nil_append, hv, Except.map, List.map_cons, List.map_nil]
    unfold Cli.inputArgs
    cases c
    case echo => exact zero hk
    case stats => exact zero hk
    case «exists» => exact congrArg Except.ok (multi hk)
    case is => exact congrArg Except.ok (multi hk)
    case rename => exact two hk
    all_goals exact one hk

theorem inputArgs_inv {std : Std} {c : CommandId} {t : KeyType} {words : List Text} {args : List Bytes}
    (h : Cli.inputArgs std words c t = .ok args) : Ignoring std c t words args := by
  have zero : Cli.values std t words = .ok args → keyWords c [] = 0 → (∀ x, keyWords c x = keyWords c []) →
      Ignoring std c t words args := by
    intro h hk hk'
    obtain ⟨vs, lost, h1, h2, h3, h4, h5⟩ := values_inv h
    exact ⟨vs, lost, h1, h2, h3, .inr ⟨[], vs, args, rfl, by rw [hk', hk]; rfl, h5, h4, rfl⟩⟩
  have one : (match words with
      | [] => Except.error ParseError.keyUnspecified
      | k :: rest => (Cli.values std t rest).map (strBytes k :: ·)) = .ok args → (∀ x, keyWords c x = 1) →
      Ignoring std c t words args := by
    intro h hk
    match words, h with
    | k :: rest, h =>
      simp only at h
      cases hv : Cli.values std t rest with
      | error e => rw [hv] at h; cases h
      | ok bs =>
        rw [hv] at h
        cases h
        obtain ⟨vs, lost, h1, h2, h3, h4, h5⟩ := values_inv hv
        exact ⟨k :: vs, lost, by simp [h1], h2, h3, .inr ⟨[k], vs, bs, rfl, by rw [hk]; rfl, h5, h4, rfl⟩⟩
  have two : (match words with
      | k :: l :: rest => (Cli.values std t rest).map (fun x => strBytes k :: strBytes l :: x)
      | _ => Except.error ParseError.keyUnspecified) = .ok args → (∀ x, keyWords c x = 2) →
      Ignoring std c t words args := by
    intro h hk
    match words, h with
    | k :: l :: rest, h =>
      simp only at h
      cases hv : Cli.values std t rest with
      | error e => rw [hv] at h; cases h
      | ok bs =>
        rw [hv] at h
        cases h
        obtain ⟨vs, lost, h1, h2, h3, h4, h5⟩ := values_inv hv
        exact ⟨k :: l :: vs, lost, by simp [h1], h2, h3, .inr ⟨[k, l], vs, bs, rfl, by rw [hk]; rfl, h5, h4, rfl⟩⟩
  have multi : Except.ok (words.map strBytes) = (Except.ok args : Except ParseError _) → (∀ x, keyWords c x = x.length) →
      Ignoring std c t words args := by
    intro h hk
    cases h
    exact ⟨words, [], by simp, by simp, fun h => absurd rfl h,
      .inr ⟨words, [], [], by simp, by rw [hk], .nil, fun _ => rfl, by simp⟩⟩
  unfold Cli.inputArgs at h
  cases c
  case echo => exact zero h rfl (fun _ => rfl)
  case stats => exact zero h rfl (fun _ => rfl)
  case «exists» => exact multi h (fun _ => rfl)
  case is => exact multi h (fun _ => rfl)
  case rename => exact two h (fun _ => rfl)
  all_goals exact one h (fun _ => rfl)

theorem inputArgs_error {std : Std} {c : CommandId} {t : KeyType} {words : List Text} {e : ParseError}
    (h : Cli.inputArgs std words c t = .error e) :
    (e = .keyUnspecified ∧ words.length < keyWords c words) ∨
      ∃ w ∈ words.drop (keyWords c words), (∀ b, ¬ Spells std t w b) ∧ e = .argumentInvalid w t := by
  have one : (match words with
      | [] => Except.error ParseError.keyUnspecified
      | k :: rest => (Cli.values std t rest).map (strBytes k :: ·)) = .error e →
      (e = .keyUnspecified ∧ words.length < 1) ∨
      ∃ w ∈ words.drop 1, (∀ b, ¬ Spells std t w b) ∧ e = .argumentInvalid w t := by
    intro h
    match words, h with
    | [], h => cases h; exact .inl ⟨rfl, by simp⟩
    | k :: rest, h =>
      simp only at h
      cases hv : Cli.values std t rest with
      | ok bs => rw [hv] at h; cases h
      | error e' => rw [hv] at h; cases h; exact .inr (values_error hv)
  have two : (match words with
      | k :: l :: rest => (Cli.values std t rest).map (fun x => strBytes k :: strBytes l :: x)
      | _ => Except.error ParseError.keyUnspecified) = .error e →
      (e = .keyUnspecified ∧ words.length < 2) ∨
      ∃ w ∈ words.drop 2, (∀ b, ¬ Spells std t w b) ∧ e = .argumentInvalid w t := by
    intro h
    match words, h with
    | [], h => cases h; exact .inl ⟨rfl, by simp⟩
    | [_], h => cases h; exact .inl ⟨rfl, by simp⟩
    | k :: l :: rest, h =>
      simp only at h
      cases hv : Cli.values std t rest with
      | ok bs => rw [hv] at h; cases h
      | error e' => rw [hv] at h; cases h; exact .inr (values_error hv)
  unfold Cli.inputArgs at h
  cases c
  case echo => exact .inr (by simpa [keyWords] using values_error h)
  case stats => exact .inr (by simpa [keyWords] using values_error h)
  case «exists» => cases h
  case is => cases h
  case rename => exact two h
  all_goals exact one h

theorem arguments_ne_nil {std : Std} {c : CommandId} {t : KeyType} {words : List Text} {args : List Bytes}
    (h : Arguments std c t words args) (hw : ∀ w ∈ words, w ≠ []) : ∀ a ∈ args, a ≠ [] := by
  rcases h with ⟨rfl, rfl⟩ | ⟨ks, vs, bs, rfl, hk, hs, he, rfl⟩
  · simp
  · intro a ha
    rcases List.mem_append.mp ha with ha | ha
    · obtain ⟨k, hk, rfl⟩ := List.mem_map.mp ha
      simpa [strBytes_eq_nil] using hw k (by simp [hk])
    · exact spellsAll_ne_nil hs (fun w h => hw w (by simp [h])) a ha

/-! ## Building, for any command -/

/-- A builder that holds `n` arguments. -/
structure Holds (b : Builder) (n : Nat) : Prop where
  count : b.argumentCount = n
  positions : b.positions.length = n
  buf : 1 + b.base ≤ b.buf.length

theorem Holds.new (c : CommandId) (kt : Option KeyType) : Holds (Builder.newWithKeyType c kt) 0 := by
  refine ⟨rfl, rfl, ?_⟩
  cases kt <;> simp [Builder.newWithKeyType, Builder.base]

theorem Holds.push {b : Builder} {n : Nat} (h : Holds b n) (m : Mode) (a : Bytes) :
    (n < 255 → ∃ b', b.pushArgument m a = some b' ∧ Holds b' (n + 1) ∧ b'.commandId = b.commandId ∧
      b'.keyType = b.keyType) ∧
    (n = 255 → m = .debug → b.pushArgument m a = none) := by
  constructor
  · intro hn
    have hadd : addU m 8 b.argumentCount 1 = some (n + 1) := by
      unfold addU; rw [h.count, if_pos (by omega)]
    have hlt : 1 + b.base < (b.buf ++ beBytes 4 (a.length % 2 ^ 32) ++ a).length := by
      have := h.buf
      simp only [List.length_append, beBytes_length]; omega
    have hp : b.positions.length < 256 := by rw [h.positions]; omega
    obtain ⟨b', hb', h1, h2, h3, h4, h5⟩ : ∃ b', b.pushArgument m a = some b' ∧ b'.argumentCount = n + 1 ∧
        b'.positions.length = n + 1 ∧ b'.buf.length = (b.buf ++ beBytes 4 (a.length % 2 ^ 32) ++ a).length ∧
        b'.commandId = b.commandId ∧ b'.keyType = b.keyType := by
      unfold Builder.pushArgument
      simp only [hadd, if_pos hlt, if_pos hp]
      exact ⟨_, rfl, rfl, by simp [h.positions], by simp, rfl, rfl⟩
    refine ⟨b', hb', ⟨h1, h2, ?_⟩, h4, h5⟩
    have hbb : b'.base = b.base := by simp only [Builder.base, h5]
    rw [h3, hbb]
    omega
  · rintro rfl rfl
    have hd : addU .debug 8 b.argumentCount 1 = none := by rw [h.count]; rfl
    simp [Builder.pushArgument, hd]

theorem bytes_keeps {m : Mode} {b b' : Builder} {a : Bytes} (h : b.bytes m a = (.ok (), b')) :
    b'.commandId = b.commandId ∧ b'.keyType = b.keyType ∧ a ≠ [] := by
  unfold Builder.bytes at h
  by_cases ha : a = []
  · rw [if_pos ha] at h; cases h
  · rw [if_neg ha] at h
    simp only [Builder.pushAll] at h
    cases hp : b.pushArgument m a with
    | none => rw [hp] at h; cases h
    | some b1 =>
      rw [hp] at h
      cases h
      simp only [Builder.pushArgument] at hp
      split at hp
      · cases hp
      · split at hp
        · split at hp
          · cases hp; exact ⟨rfl, rfl, ha⟩
          · cases hp
        · cases hp

theorem bytesAll_keeps {m : Mode} {b b' : Builder} {as : List Bytes} (h : b.bytesAll m as = (.ok (), b')) :
    b'.commandId = b.commandId ∧ b'.keyType = b.keyType ∧ ∀ a ∈ as, a ≠ [] := by
  induction as generalizing b with
  | nil => cases h; exact ⟨rfl, rfl, by simp⟩
  | cons a as ih =>
    simp only [Builder.bytesAll] at h
    split at h
    · rename_i b1 hb
      obtain ⟨h1, h2, h3⟩ := bytes_keeps hb
      obtain ⟨h4, h5, h6⟩ := ih h
      refine ⟨h4.trans h1, h5.trans h2, ?_⟩
      intro x hx
      rcases List.mem_cons.mp hx with rfl | hx
      · exact h3
      · exact h6 x hx
    · rename_i hne
      exact absurd h (hne b')

/-- Everything `bytesAll` can do with non-empty arguments up to the limit, for any command. -/
theorem Holds.bytesAll {b : Builder} {n : Nat} (h : Holds b n) (m : Mode) (as : List Bytes) (hn : n ≤ 255) :
    ((b.bytesAll m as).1 = .panic → 255 < n + as.length) ∧
    (∀ e, (b.bytesAll m as).1 = .err e → e = .argumentEmpty ∧ [] ∈ as) ∧
    (b.bytesAll m as).1 ≠ .stuck ∧
    ((b.bytesAll m as).1 = .ok () → m = .debug → n + as.length ≤ 255) := by
  induction as generalizing b n with
  | nil => simp [Builder.bytesAll, hn]
  | cons a as ih =>
    by_cases ha : a = []
    · subst ha
      simp [Builder.bytesAll, bytes_nil]
    · by_cases hf : n = 255
      · subst hf
        cases hp : b.pushArgument m a with
        | none => simp [Builder.bytesAll, Builder.bytes, ha, Builder.pushAll, hp]
        | some b1 =>
          have hm : m ≠ .debug := by
            intro hm
            have := (h.push m a).2 rfl hm
            rw [hp] at this
            cases this
          have hr : ∀ (bs : List Bytes) (b : Builder), (b.bytesAll m bs).1 ≠ .stuck ∧
              ∀ e, (b.bytesAll m bs).1 = .err e → e = .argumentEmpty ∧ [] ∈ bs := by
            intro bs
            induction bs with
            | nil => intro b; simp [Builder.bytesAll]
            | cons x xs ihx =>
              intro b
              by_cases hx : x = []
              · subst hx; simp [Builder.bytesAll, bytes_nil]
              · cases hq : b.pushArgument m x with
                | none => simp [Builder.bytesAll, Builder.bytes, hx, Builder.pushAll, hq]
                | some b2 =>
                  have : b.bytesAll m (x :: xs) = b2.bytesAll m xs := by
                    simp only [Builder.bytesAll, Builder.bytes, if_neg hx, Builder.pushAll, hq]
                  rw [this]
                  refine ⟨(ihx b2).1, fun e he => ?_⟩
                  obtain ⟨h1, h2⟩ := (ihx b2).2 e he
                  exact ⟨h1, by simp [h2]⟩
          obtain ⟨h1, h2⟩ := hr (a :: as) b
          exact ⟨fun _ => by simp, h2, h1, fun _ hd => absurd hd hm⟩
      · obtain ⟨b1, hb1, hh, -⟩ := (h.push m a).1 (by omega)
        have : b.bytesAll m (a :: as) = b1.bytesAll m as := by
          simp only [Builder.bytesAll, Builder.bytes, if_neg ha, Builder.pushAll, hb1]
        rw [this]
        obtain ⟨h1, h2, h3, h4⟩ := ih hh (by omega)
        refine ⟨fun h => ?_, fun e he => ?_, h3, fun h hm => ?_⟩
        · have := h1 h; simp; omega
        · obtain ⟨h5, h6⟩ := h2 e he; exact ⟨h5, by simp [h6]⟩
        · have := h4 h hm; simp; omega

end Hop
