import Verif.Props.ResponseAsks
import Verif.Props.Collections
import Verif.Spec.ResponseReads

/-! # What the response decoder makes of any bytes: C180 -/

namespace Hop

open Spec RespParser

/-! ## Items one after the other -/

/-- What one round within a collection does: it takes an item from the front, or gets nowhere. -/
def TakesItem {σ ι : Type} (m : Mode) (buf : Bytes) (st : σ → Stage) (ins : σ → ι → σ) (size : σ → Nat) (fin : σ → Response)
    (len : Nat) (ok : ι → Prop) (lay : ι → Bytes) : Prop :=
  ∀ (pos : Nat) (s : σ), 6 < pos → pos ≤ buf.length →
    (∃ x, ok x ∧ lay x <+: buf.drop pos ∧ RespParser.step m { idx := pos, stage := st s } buf =
      if size (ins s x) < len then .next { idx := pos + (lay x).length, stage := st (ins s x) }
      else .concluded (fin (ins s x))) ∨
    ((∀ x, ok x → ¬ lay x <+: buf.drop pos) ∧ ∃ n, RespParser.step m { idx := pos, stage := st s } buf = .readBytes n)

theorem items_read {σ ι : Type} {m : Mode} {buf : Bytes} {st : σ → Stage} {ins : σ → ι → σ} {size : σ → Nat}
    {fin : σ → Response} {len : Nat} {ok : ι → Prop} {lay : ι → Bytes} (ht : TakesItem m buf st ins size fin len ok lay)
    (hpos : ∀ x, 0 < (lay x).length)
    (huniq : ∀ x y b, ok x → ok y → lay x <+: b → lay y <+: b → x = y) : ∀ (n pos : Nat) (s : σ) (r : Response),
    buf.length - pos ≤ n → 6 < pos → pos ≤ buf.length →
    ((RespParser.feed m { idx := pos, stage := st s } buf).1 = .concluded r ↔
      ∃ items : List ι, items ≠ [] ∧ (∀ x ∈ items, ok x) ∧ items.flatMap lay <+: buf.drop pos ∧
        len ≤ size (items.foldl ins s) ∧
        (∀ p q, items = p ++ q → p ≠ [] → q ≠ [] → size (p.foldl ins s) < len) ∧ r = fin (items.foldl ins s)) := by
  intro n
  induction n using Nat.strongRecOn with
  | ind n ih =>
    intro pos s r hn h6 hl
    rcases ht pos s h6 hl with ⟨x, hx, hlay, hst⟩ | ⟨hno, k, hst⟩
    · have hle : (lay x).length ≤ buf.length - pos := by
        have := hlay.length_le
        simpa using this
      have hx0 := hpos x
      by_cases hlt : size (ins s x) < len
      · rw [if_pos hlt] at hst
        rw [feed_next hst, ih (buf.length - (pos + (lay x).length)) (by omega) _ _ _ (Nat.le_refl _) (by omega) (by omega)]
        obtain ⟨t, hbt⟩ := hlay
        have hdd : buf.drop (pos + (lay x).length) = t := by
          rw [← List.drop_drop, ← hbt]; simp
        constructor
        · rintro ⟨items, hne, hok, hpre, hsz, hpq, hr⟩
          refine ⟨x :: items, by simp, ?_, ?_, hsz, ?_, hr⟩
          · intro y hy
            rcases List.mem_cons.mp hy with rfl | hy
            · exact hx
            · exact hok y hy
          · rw [List.flatMap_cons, ← hbt]
            rw [hdd] at hpre
            exact (List.prefix_append_right_inj _).mpr hpre
          · intro p q hpq' hp hq
            cases p with
            | nil => exact absurd rfl hp
            | cons y p =>
              simp only [List.cons_append, List.cons.injEq] at hpq'
              obtain ⟨rfl, hpq'⟩ := hpq'
              cases p with
              | nil => exact hlt
              | cons z p => exact hpq _ q hpq' (by simp) hq
        · rintro ⟨items, hne, hok, hpre, hsz, hpq, hr⟩
          cases items with
          | nil => exact absurd rfl hne
          | cons y items =>
            have hyx : y = x := by
              rw [List.flatMap_cons] at hpre
              exact huniq y x _ (hok y List.mem_cons_self) hx ((List.prefix_append _ _).trans hpre) ⟨t, hbt⟩
            subst hyx
            have hne' : items ≠ [] := by
              rintro rfl
              simp only [List.foldl_cons, List.foldl_nil] at hsz
              omega
            refine ⟨items, hne', fun z hz => hok z (List.mem_cons_of_mem _ hz), ?_, hsz, ?_, hr⟩
            · rw [hdd]
              rw [List.flatMap_cons, ← hbt] at hpre
              exact (List.prefix_append_right_inj _).mp hpre
            · intro p q hpq' hp hq
              exact hpq (y :: p) q (by rw [hpq']; rfl) (by simp) hq
      · rw [if_neg hlt] at hst
        rw [feed_concluded hst]
        simp only [Fed.concluded.injEq]
        constructor
        · rintro rfl
          refine ⟨[x], by simp, by simpa using hx, by simpa using hlay, by simpa using hlt, ?_, by simp⟩
          intro p q hpq hp hq
          have := congrArg List.length hpq
          simp only [List.length_append, List.length_singleton] at this
          have := List.length_pos_iff.mpr hp
          have := List.length_pos_iff.mpr hq
          omega
        · rintro ⟨items, hne, hok, hpre, hsz, hpq, rfl⟩
          cases items with
          | nil => exact absurd rfl hne
          | cons y items =>
            have hyx : y = x := by
              rw [List.flatMap_cons] at hpre
              exact huniq y x _ (hok y List.mem_cons_self) hx ((List.prefix_append _ _).trans hpre) hlay
            subst hyx
            cases items with
            | nil => rfl
            | cons z items =>
              have := hpq [y] (z :: items) rfl (by simp) (by simp)
              simp only [List.foldl_cons, List.foldl_nil] at this
              omega
    · rw [feed_readBytes hst]
      simp only [reduceCtorEq, false_iff]
      rintro ⟨items, hne, hok, hpre, -⟩
      cases items with
      | nil => exact hne rfl
      | cons y items =>
        rw [List.flatMap_cons] at hpre
        exact hno y (hok y List.mem_cons_self) ((List.prefix_append _ _).trans hpre)

/-! ## Something of a given length, with the length in front -/

theorem sized_prefix {w : Nat} {rest x : Bytes} (hx : x.length < 256 ^ w) :
    beBytes w x.length ++ x <+: rest ↔
      w ≤ rest.length ∧ w + beNat (rest.take w) ≤ rest.length ∧ x = (rest.drop w).take (beNat (rest.take w)) := by
  constructor
  · rintro ⟨t, rfl⟩
    have h1 : (beBytes w x.length ++ x ++ t).take w = beBytes w x.length := by
      rw [List.append_assoc, List.take_append_of_le_length (by simp), List.take_of_length_le (by simp)]
    rw [h1, beNat_beBytes_of_lt hx]
    refine ⟨by simp, by simp, ?_⟩
    rw [List.append_assoc, List.drop_append_of_le_length (by simp), List.drop_of_length_le (by simp), List.nil_append,
      List.take_append_of_le_length (by omega), List.take_of_length_le (by omega)]
  · rintro ⟨h1, h2, h3⟩
    have hl : x.length = beNat (rest.take w) := by
      rw [h3, List.length_take, List.length_drop]; omega
    have hb : beBytes w x.length = rest.take w := by
      rw [hl]
      have := beBytes_beNat (rest.take w)
      rwa [List.length_take, Nat.min_eq_left h1] at this
    refine ⟨rest.drop (w + x.length), ?_⟩
    have hx' : x = (rest.drop w).take x.length := by rw [hl]; exact h3
    have hcat : x ++ (rest.drop w).drop x.length = rest.drop w := by
      conv => lhs; arg 1; rw [hx']
      exact List.take_append_drop _ _
    rw [hb, List.append_assoc, ← List.drop_drop, hcat, List.take_append_drop]

theorem taken_lt {w : Nat} {rest : Bytes} (h : w ≤ rest.length) : beNat (rest.take w) < 256 ^ w := by
  have := beNat_lt (rest.take w)
  rwa [List.length_take, Nat.min_eq_left h] at this

/-- The item in front, if there is one. -/
theorem sized_front {w : Nat} {rest : Bytes} (h : w ≤ rest.length) (h2 : w + beNat (rest.take w) ≤ rest.length) :
    ((rest.drop w).take (beNat (rest.take w))).length = beNat (rest.take w) ∧
    beBytes w ((rest.drop w).take (beNat (rest.take w))).length ++ (rest.drop w).take (beNat (rest.take w)) <+: rest := by
  have hl : ((rest.drop w).take (beNat (rest.take w))).length = beNat (rest.take w) := by
    rw [List.length_take, List.length_drop]; omega
  exact ⟨hl, (sized_prefix (by rw [hl]; exact taken_lt h)).mpr ⟨h, h2, rfl⟩⟩

theorem sized_uniq {w : Nat} {x y b : Bytes} (hx : x.length < 256 ^ w) (hy : y.length < 256 ^ w)
    (h1 : beBytes w x.length ++ x <+: b) (h2 : beBytes w y.length ++ y <+: b) : x = y := by
  rw [((sized_prefix hx).mp h1).2.2, ((sized_prefix hy).mp h2).2.2]

theorem list_takes (m : Mode) (buf : Bytes) (hb : 6 < buf.length) (len : Nat) :
    TakesItem m buf (fun args => .list args len) (fun args x => args ++ [x]) List.length (fun l => .value (.list l)) len
      (fun x => x.length < 2 ^ 32) listItem := by
  intro pos args hp hl
  have e1 := slice_at (a := 0) (b := 4) hl (by omega)
  simp only [Nat.add_zero, List.drop_zero, Nat.sub_zero] at e1
  have hst : ∀ s, stageList m { idx := pos, stage := .list args len } buf args len = s →
    RespParser.step m { idx := pos, stage := .list args len } buf = s := fun s h => h
  unfold stageList at hst
  rw [debugAssert_true (by simpa using hp), debugAssert_true (by simpa using hb)] at hst
  simp only at hst
  have e2 := slice_at (a := 4) (b := 4 + beNat ((buf.drop pos).take 4)) hl (by omega)
  rw [show pos + (4 + beNat ((buf.drop pos).take 4)) = pos + 4 + beNat ((buf.drop pos).take 4) by omega,
    Nat.add_sub_cancel_left] at e2
  by_cases h4 : (buf.drop pos).length < 4
  · right
    refine ⟨fun x hx h => ?_, ?_⟩
    · have := (sized_prefix (w := 4) (by omega)).mp h; omega
    · rw [e1, if_pos h4] at hst
      simp only at hst
      simp only [List.length_drop] at h4
      rw [remainingBytes_eq (by omega) (by omega)] at hst
      exact ⟨_, hst _ rfl⟩
  · rw [e1, if_neg h4] at hst
    simp only at hst
    by_cases hv : (buf.drop pos).length < 4 + beNat ((buf.drop pos).take 4)
    · right
      refine ⟨fun x hx h => ?_, ?_⟩
      · have := (sized_prefix (w := 4) (by omega)).mp h; omega
      · rw [e2, if_pos hv] at hst
        simp only at hst
        simp only [List.length_drop] at hv
        rw [subThen_eq (by omega)] at hst
        exact ⟨_, hst _ rfl⟩
    · left
      rw [e2, if_neg hv] at hst
      simp only at hst
      obtain ⟨hf1, hf2⟩ := sized_front (w := 4) (rest := buf.drop pos) (by omega) (by omega)
      refine ⟨_, by have := taken_lt (w := 4) (rest := buf.drop pos) (by omega); simp only [hf1]; omega, hf2, ?_⟩
      have e3 : pos + (listItem (((buf.drop pos).drop 4).take (beNat ((buf.drop pos).take 4)))).length =
          pos + 4 + beNat ((buf.drop pos).take 4) := by
        simp only [listItem, List.length_append, beBytes_length, hf1]; omega
      rw [e3]
      exact hst _ rfl

theorem set_takes (m : Mode) (buf : Bytes) (hb : 6 < buf.length) (len : Nat) :
    TakesItem m buf (fun args => .set args len) BSet.insert List.length (fun l => .value (.set l)) len
      (fun x => x.length < 2 ^ 16) setItem := by
  intro pos args hp hl
  have e1 := slice_at (a := 0) (b := 2) hl (by omega)
  simp only [Nat.add_zero, List.drop_zero, Nat.sub_zero] at e1
  have hst : ∀ s, stageSet m { idx := pos, stage := .set args len } buf args len = s →
    RespParser.step m { idx := pos, stage := .set args len } buf = s := fun s h => h
  unfold stageSet at hst
  rw [debugAssert_true (by simpa using hp), debugAssert_true (by simpa using hb)] at hst
  simp only at hst
  have e2 := slice_at (a := 2) (b := 2 + beNat ((buf.drop pos).take 2)) hl (by omega)
  rw [show pos + (2 + beNat ((buf.drop pos).take 2)) = pos + 2 + beNat ((buf.drop pos).take 2) by omega,
    Nat.add_sub_cancel_left] at e2
  by_cases h4 : (buf.drop pos).length < 2
  · right
    refine ⟨fun x hx h => ?_, ?_⟩
    · have := (sized_prefix (w := 2) (by omega)).mp h; omega
    · rw [e1, if_pos h4] at hst
      simp only at hst
      simp only [List.length_drop] at h4
      rw [remainingBytes_eq (by omega) (by omega)] at hst
      exact ⟨_, hst _ rfl⟩
  · rw [e1, if_neg h4] at hst
    simp only at hst
    by_cases hv : (buf.drop pos).length < 2 + beNat ((buf.drop pos).take 2)
    · right
      refine ⟨fun x hx h => ?_, ?_⟩
      · have := (sized_prefix (w := 2) (by omega)).mp h; omega
      · rw [e2, if_pos hv] at hst
        simp only at hst
        simp only [List.length_drop] at hv
        rw [remainingBytes_eq (by omega) (by omega)] at hst
        exact ⟨_, hst _ rfl⟩
    · left
      rw [e2, if_neg hv] at hst
      simp only at hst
      obtain ⟨hf1, hf2⟩ := sized_front (w := 2) (rest := buf.drop pos) (by omega) (by omega)
      refine ⟨_, by have := taken_lt (w := 2) (rest := buf.drop pos) (by omega); simp only [hf1]; omega, hf2, ?_⟩
      have e3 : pos + (setItem (((buf.drop pos).drop 2).take (beNat ((buf.drop pos).take 2)))).length =
          pos + 2 + beNat ((buf.drop pos).take 2) := by
        simp only [setItem, List.length_append, beBytes_length, hf1]; omega
      rw [e3]
      exact hst _ rfl

theorem append_prefix_iff {a b rest : Bytes} : a ++ b <+: rest ↔ a <+: rest ∧ b <+: rest.drop a.length := by
  constructor
  · rintro ⟨t, rfl⟩
    refine ⟨⟨b ++ t, by simp⟩, ⟨t, by simp⟩⟩
  · rintro ⟨⟨t, rfl⟩, h⟩
    simp only [List.drop_left] at h
    exact (List.prefix_append_right_inj a).mpr h

theorem mapItem_prefix {e : Bytes × Bytes} {rest : Bytes} : mapItem e <+: rest ↔
    beBytes 1 e.1.length ++ e.1 <+: rest ∧ beBytes 4 e.2.length ++ e.2 <+: rest.drop (1 + e.1.length) := by
  unfold mapItem
  rw [append_prefix_iff, List.length_append, beBytes_length]

theorem map_takes (m : Mode) (buf : Bytes) (hb : 6 < buf.length) (len : Nat) :
    TakesItem m buf (fun args => .map args len) (fun (args : BMap) (e : Bytes × Bytes) => BMap.insert args e.1 e.2)
      List.length (fun l => .value (.map l)) len (fun e => e.1.length < 2 ^ 8 ∧ e.2.length < 2 ^ 32) mapItem := by
  intro pos args hp hl
  have e1 := slice_at (a := 0) (b := 1) hl (by omega)
  simp only [Nat.add_zero, List.drop_zero, Nat.sub_zero] at e1
  have hst : ∀ s, stageMap m { idx := pos, stage := .map args len } buf args len = s →
    RespParser.step m { idx := pos, stage := .map args len } buf = s := fun s h => h
  unfold stageMap at hst
  rw [debugAssert_true (by simpa using hp), debugAssert_true (by simpa using hb)] at hst
  simp only at hst
  by_cases h4 : (buf.drop pos).length < 1
  · right
    refine ⟨fun x hx h => ?_, ?_⟩
    · have := (sized_prefix (w := 1) (by omega)).mp (mapItem_prefix.mp h).1; omega
    · rw [e1, if_pos h4] at hst
      simp only at hst
      simp only [List.length_drop] at h4
      rw [remainingBytes_eq (by omega) (by omega)] at hst
      exact ⟨_, hst _ rfl⟩
  rw [e1, if_neg h4] at hst
  simp only at hst
  have hk8 := taken_lt (w := 1) (rest := buf.drop pos) (by omega)
  have hkey : ∀ x : Bytes × Bytes, x.1.length < 2 ^ 8 ∧ x.2.length < 2 ^ 32 → mapItem x <+: buf.drop pos →
      x.1.length = beNat ((buf.drop pos).take 1) ∧ 1 + beNat ((buf.drop pos).take 1) ≤ (buf.drop pos).length := by
    intro x hx h
    obtain ⟨g1, g2, g3⟩ := (sized_prefix (w := 1) (by omega)).mp (mapItem_prefix.mp h).1
    refine ⟨?_, g2⟩
    have := (sized_front g1 g2).1
    rwa [← g3] at this
  by_cases hv : (buf.drop pos).length < 1 + beNat ((buf.drop pos).take 1)
  · right
    refine ⟨fun x hx h => ?_, ?_⟩
    · have := (hkey x hx h).2; omega
    · have e2 := slice_at (a := 1) (b := 1 + beNat ((buf.drop pos).take 1)) hl (by omega)
      rw [show pos + (1 + beNat ((buf.drop pos).take 1)) = pos + 1 + beNat ((buf.drop pos).take 1) by omega] at e2
      rw [e2, if_pos hv] at hst
      simp only at hst
      simp only [List.length_drop] at hv
      rw [remainingBytes_eq (by omega) (by omega)] at hst
      exact ⟨_, hst _ rfl⟩
  obtain ⟨hf1, hf2⟩ := sized_front (w := 1) (rest := buf.drop pos) (by omega) (by omega)
  generalize hk : beNat ((buf.drop pos).take 1) = k at *
  have e2 := slice_at (a := 1) (b := 1 + k) hl (by omega)
  rw [show pos + (1 + k) = pos + 1 + k by omega, Nat.add_sub_cancel_left] at e2
  rw [e2, if_neg hv] at hst
  simp only at hst
  have e3 := slice_at (a := 1 + k) (b := 1 + k + 4) hl (by omega)
  rw [show pos + (1 + k + 4) = pos + 1 + k + 4 by omega, show pos + (1 + k) = pos + 1 + k by omega,
    Nat.add_sub_cancel_left] at e3
  have hval : ∀ x : Bytes × Bytes, x.1.length < 2 ^ 8 ∧ x.2.length < 2 ^ 32 → mapItem x <+: buf.drop pos →
      4 ≤ ((buf.drop pos).drop (1 + k)).length ∧
      4 + beNat (((buf.drop pos).drop (1 + k)).take 4) ≤ ((buf.drop pos).drop (1 + k)).length := by
    intro x hx h
    have h2 := (mapItem_prefix.mp h).2
    rw [(hkey x hx h).1] at h2
    obtain ⟨g1, g2, -⟩ := (sized_prefix (w := 4) (by omega)).mp h2
    exact ⟨g1, g2⟩
  by_cases hz : (buf.drop pos).length < 1 + k + 4
  · right
    refine ⟨fun x hx h => ?_, ?_⟩
    · have := (hval x hx h).1
      rw [List.length_drop] at this
      omega
    · rw [e3, if_pos hz] at hst
      simp only at hst
      simp only [List.length_drop] at hz hv
      rw [remainingBytes_eq (by omega) (by omega)] at hst
      exact ⟨_, hst _ rfl⟩
  rw [e3, if_neg hz] at hst
  simp only at hst
  have hw32 := taken_lt (w := 4) (rest := (buf.drop pos).drop (1 + k)) (by rw [List.length_drop]; omega)
  generalize hw : beNat (((buf.drop pos).drop (1 + k)).take 4) = w at *
  have e4 := slice_at (a := 1 + k + 4) (b := 1 + k + 4 + w) hl (by omega)
  rw [show pos + (1 + k + 4 + w) = pos + 1 + k + 4 + w by omega,
    show pos + (1 + k + 4) = pos + 1 + k + 4 by omega, Nat.add_sub_cancel_left] at e4
  by_cases hy : (buf.drop pos).length < 1 + k + 4 + w
  · right
    refine ⟨fun x hx h => ?_, ?_⟩
    · have := (hval x hx h).2
      rw [List.length_drop] at this
      omega
    · rw [e4, if_pos hy] at hst
      simp only at hst
      simp only [List.length_drop] at hz hv hy
      rw [remainingBytes_eq (by omega) (by omega)] at hst
      exact ⟨_, hst _ rfl⟩
  left
  rw [e4, if_neg hy] at hst
  simp only at hst
  have hg := sized_front (w := 4) (rest := (buf.drop pos).drop (1 + k)) (by rw [List.length_drop]; omega)
    (by rw [hw, List.length_drop]; omega)
  rw [hw] at hg
  have hdd : ((buf.drop pos).drop (1 + k)).drop 4 = (buf.drop pos).drop (1 + k + 4) := List.drop_drop
  rw [hdd] at hg
  refine ⟨(((buf.drop pos).drop 1).take k, ((buf.drop pos).drop (1 + k + 4)).take w), ⟨?_, ?_⟩, ?_, ?_⟩
  · simp only [hf1]; omega
  · simp only [hg.1]; omega
  · rw [mapItem_prefix]
    simp only
    refine ⟨hf2, ?_⟩
    rw [hf1]
    exact hg.2
  · have e5 : pos + (mapItem (((buf.drop pos).drop 1).take k, ((buf.drop pos).drop (1 + k + 4)).take w)).length =
        pos + 1 + k + 4 + w := by
      simp only [mapItem, List.length_append, beBytes_length, hf1, hg.1]; omega
    rw [e5]
    exact hst _ rfl

theorem mapItem_uniq {x y : Bytes × Bytes} {b : Bytes} (hx : x.1.length < 2 ^ 8 ∧ x.2.length < 2 ^ 32)
    (hy : y.1.length < 2 ^ 8 ∧ y.2.length < 2 ^ 32) (h1 : mapItem x <+: b) (h2 : mapItem y <+: b) : x = y := by
  obtain ⟨a1, a2⟩ := mapItem_prefix.mp h1
  obtain ⟨b1, b2⟩ := mapItem_prefix.mp h2
  have hk : x.1 = y.1 := sized_uniq (w := 1) (by omega) (by omega) a1 b1
  rw [← hk] at b2
  exact Prod.ext hk (sized_uniq (w := 4) (by omega) (by omega) a2 b2)

/-! ## How many there are to be -/

theorem length_upTo {n : Nat} {l : List Bytes} :
    (l ≠ [] ∧ n ≤ l.length ∧ ∀ p q, l = p ++ q → p ≠ [] → q ≠ [] → p.length < n) ↔ l.length = max 1 n := by
  constructor
  · rintro ⟨h1, h2, h3⟩
    have hl := List.length_pos_iff.mpr h1
    by_cases h : l.length = 1
    · omega
    · have := h3 (l.take (l.length - 1)) (l.drop (l.length - 1)) (List.take_append_drop _ _).symm
        (by rw [← List.length_pos_iff, List.length_take]; omega) (by rw [← List.length_pos_iff, List.length_drop]; omega)
      rw [List.length_take] at this
      omega
  · intro h
    refine ⟨by rw [← List.length_pos_iff]; omega, by omega, ?_⟩
    rintro p q rfl hp hq
    have := List.length_pos_iff.mpr hp
    have := List.length_pos_iff.mpr hq
    rw [List.length_append] at h
    omega

theorem foldl_append_items (l : List Bytes) : ∀ a : List Bytes, l.foldl (fun a x => a ++ [x]) a = a ++ l := by
  induction l with
  | nil => simp
  | cons x l ih => intro a; rw [List.foldl_cons, ih]; simp

theorem SeenAll.foldl_insert (l : List Bytes) : ∀ (seen : List Bytes) (s : BSet), SeenAll seen s →
    SeenAll (l.foldl oneMore seen) (l.foldl BSet.insert s) := by
  induction l with
  | nil => exact fun _ _ h => h
  | cons x l ih => intro seen s h; exact ih _ _ (SeenAll.insert h x)

theorem collectSet_length (l : List Bytes) : (l.foldl BSet.insert ([] : BSet)).length = distinct l :=
  (SeenAll.foldl_insert l [] [] ⟨rfl, fun _ => Iff.rfl⟩).1.symm

theorem SeenAll.foldl_insertKey (l : List (Bytes × Bytes)) : ∀ (seen : List Bytes) (s : BMap),
    SeenAll seen (s.map Prod.fst) → SeenAll ((l.map Prod.fst).foldl oneMore seen)
      ((l.foldl (fun (m : BMap) e => BMap.insert m e.1 e.2) s).map Prod.fst) := by
  induction l with
  | nil => exact fun _ _ h => h
  | cons x l ih => intro seen s h; exact ih _ _ (SeenAll.insertKey h x.1 x.2)

theorem collectMap_length (l : List (Bytes × Bytes)) :
    (l.foldl (fun (m : BMap) e => BMap.insert m e.1 e.2) ([] : BMap)).length = distinct (l.map Prod.fst) := by
  have := (SeenAll.foldl_insertKey l [] [] ⟨rfl, fun _ => Iff.rfl⟩).1
  rw [List.length_map] at this
  exact this.symm

theorem map_upTo {n : Nat} {l : List (Bytes × Bytes)} : UpTo n (l.map Prod.fst) ↔
    l ≠ [] ∧ n ≤ distinct (l.map Prod.fst) ∧
      ∀ p q, l = p ++ q → p ≠ [] → q ≠ [] → distinct (p.map Prod.fst) < n := by
  unfold UpTo
  constructor
  · rintro ⟨h1, h2, h3⟩
    refine ⟨by rintro rfl; exact h1 rfl, h2, ?_⟩
    rintro p q rfl hp hq
    exact h3 _ (q.map Prod.fst) (by simp) (by simpa using hp) (by simpa using hq)
  · rintro ⟨h1, h2, h3⟩
    refine ⟨by simpa using h1, h2, ?_⟩
    intro p q h hp hq
    obtain ⟨p', q', rfl, rfl, rfl⟩ := List.map_eq_append_iff.mp h
    exact h3 p' q' rfl (by rintro rfl; exact hp rfl) (by rintro rfl; exact hq rfl)

/-! ## After the type -/

/-- The bytes after the type, for every type. -/
def TypeReads (m : Mode) : ResponseType → Bytes → Response → Prop
  | .boolean, rest, r => ∃ x, [x] <+: rest ∧ r = .value (.boolean (x != 0))
  | .bytes, rest, r => ∃ b : Bytes, b.length < 2 ^ 32 ∧ (m = .debug → b ≠ []) ∧ beBytes 4 b.length ++ b <+: rest ∧
      r = .value (.bytes b)
  | .float, rest, r => ∃ f : F64, beBytes 8 f.bits.toNat <+: rest ∧ r = .value (.float f)
  | .integer, rest, r => ∃ i : Int64, beBytes 8 i.toUInt64.toNat <+: rest ∧ r = .value (.integer i)
  | .list, rest, r => ∃ n, n < 2 ^ 16 ∧ ∃ l : List Bytes, l.length = max 1 n ∧ (∀ i ∈ l, i.length < 2 ^ 32) ∧
      beBytes 2 n ++ l.flatMap listItem <+: rest ∧ r = .value (.list l)
  | .map, rest, r => (beBytes 2 0 <+: rest ∧ r = .value (.map [])) ∨ ∃ n, n < 2 ^ 16 ∧ 0 < n ∧
      ∃ l : List (Bytes × Bytes), UpTo n (l.map Prod.fst) ∧ (∀ e ∈ l, e.1.length < 2 ^ 8 ∧ e.2.length < 2 ^ 32) ∧
      beBytes 2 n ++ l.flatMap mapItem <+: rest ∧ r = .value (.map (Client.collectMap l))
  | .set, rest, r => ∃ n, n < 2 ^ 16 ∧ ∃ l : List Bytes, UpTo n l ∧ (∀ i ∈ l, i.length < 2 ^ 16) ∧
      beBytes 2 n ++ l.flatMap setItem <+: rest ∧ r = .value (.set (Client.collectSet l))
  | .string, rest, r => ∃ s : List Char, (strBytes s).length < 2 ^ 32 ∧
      beBytes 4 (strBytes s).length ++ strBytes s <+: rest ∧ r = .value (.string s)
  | .parseError, rest, r => ∃ e : ReqParseError, [e.toByte] <+: rest ∧ r = .parseError e
  | .dispatchError, rest, r => ∃ e : DispatchError, [e.toByte] <+: rest ∧ r = .dispatchError e

theorem number_prefix {w n : Nat} {rest : Bytes} (hn : n < 256 ^ w) :
    beBytes w n <+: rest ↔ w ≤ rest.length ∧ n = beNat (rest.take w) := by
  constructor
  · rintro ⟨t, rfl⟩
    rw [List.take_append_of_le_length (by simp), List.take_of_length_le (by simp), beNat_beBytes_of_lt hn]
    simp
  · rintro ⟨h1, rfl⟩
    have := beBytes_beNat (rest.take w)
    rw [List.length_take, Nat.min_eq_left h1] at this
    rw [this]
    exact List.take_prefix _ _

/-- A count in front of whatever follows. -/
theorem counted_prefix {w n : Nat} {rest more : Bytes} (hn : n < 256 ^ w) :
    beBytes w n ++ more <+: rest ↔ w ≤ rest.length ∧ n = beNat (rest.take w) ∧ more <+: rest.drop w := by
  rw [append_prefix_iff, number_prefix hn, beBytes_length, and_assoc]

theorem single_prefix {x : UInt8} {rest : Bytes} : [x] <+: rest ↔ rest[0]? = some x := by
  cases rest with
  | nil => simp
  | cons y rest =>
    simp only [List.getElem?_cons_zero, Option.some.injEq]
    constructor
    · rintro ⟨t, h⟩
      simp only [List.singleton_append, List.cons.injEq] at h
      exact h.1.symm
    · rintro rfl; exact ⟨rest, rfl⟩

/-- A count that has not arrived, or has. -/
theorem count_step (m : Mode) (buf : Bytes) (kind : ResponseType) (w : Nat) (hb : 5 ≤ buf.length) :
    ((buf.drop 5).length < w ∧ ∀ r, (RespParser.feed m { idx := 5, stage := .typeInit kind w } buf).1 ≠ .concluded r) ∨
    (w ≤ (buf.drop 5).length ∧ slice buf 5 (5 + w) = some ((buf.drop 5).take w)) := by
  have e := slice_at (pos := 5) (a := 0) (b := w) hb (by omega)
  simp only [Nat.add_zero, List.drop_zero, Nat.sub_zero] at e
  by_cases h : (buf.drop 5).length < w
  · left
    refine ⟨h, fun r hr => ?_⟩
    rw [if_pos h] at e
    have hst : RespParser.step m { idx := 5, stage := .typeInit kind w } buf =
        subThen m (w + 1) buf.length .readBytes := by
      simp only [RespParser.step, stageTypeInit]
      rw [debugAssert_true (by simp), e]
    unfold subThen at hst
    split at hst
    · rw [feed_readBytes hst] at hr; simp at hr
    · cases m with
      | debug => rw [feed_panic hst] at hr; simp at hr
      | release => rw [feed_readBytes hst] at hr; simp at hr
  · right
    rw [if_neg h] at e
    exact ⟨by omega, e⟩

theorem reads_iff (m : Mode) (buf : Bytes) (hb : 5 ≤ buf.length) (k : ResponseType) (r : Response) :
    (RespParser.feed m { idx := 5, stage := stageOfKind k } buf).1 = .concluded r ↔ TypeReads m k (buf.drop 5) r := by
  have hg : buf[5]? = (buf.drop 5)[0]? := by simp
  have e8 := slice_at (pos := 5) (a := 0) (b := 8) hb (by omega)
  simp only [Nat.add_zero, List.drop_zero, Nat.sub_zero] at e8
  cases k with
  | boolean =>
    simp only [TypeReads, stageOfKind, single_prefix, ← hg]
    have hst : RespParser.step m { idx := 5, stage := .boolean } buf = stageBoolean m { idx := 5, stage := .boolean } buf := rfl
    unfold stageBoolean at hst
    rw [debugAssert_true (by simp)] at hst
    cases h : buf[5]? with
    | none => simp only [h] at hst; rw [feed_readBytes hst]; simp
    | some x =>
      simp only [h] at hst; rw [feed_concluded hst]
      simp [eq_comm]
  | parseError =>
    simp only [TypeReads, stageOfKind, single_prefix, ← hg]
    have hst : RespParser.step m { idx := 5, stage := .parseError } buf = stageParseError m { idx := 5, stage := .parseError } buf := rfl
    unfold stageParseError at hst
    rw [debugAssert_true (by simp)] at hst
    cases h : buf[5]? with
    | none => simp only [h] at hst; rw [feed_readBytes hst]; simp
    | some x =>
      simp only [h] at hst
      cases ho : ReqParseError.ofByte x with
      | none =>
        simp only [ho] at hst; rw [feed_panic hst]
        simp only [reduceCtorEq, Option.some.injEq, false_iff]
        rintro ⟨e, he, -⟩
        subst he
        cases e <;> simp [ReqParseError.ofByte, ReqParseError.toByte] at ho
      | some e =>
        simp only [ho] at hst; rw [feed_concluded hst]
        have hx : x = e.toByte := by
          unfold ReqParseError.ofByte at ho
          repeat' split at ho
          all_goals first | (cases ho; assumption) | cases ho
        constructor
        · intro hr; cases hr; exact ⟨e, by rw [hx], rfl⟩
        · rintro ⟨e', he, rfl⟩
          have : e' = e := by
            rw [hx] at he
            revert he; cases e <;> cases e' <;> simp [ReqParseError.toByte]
          rw [this]
  | dispatchError =>
    simp only [TypeReads, stageOfKind, single_prefix, ← hg]
    have hst : RespParser.step m { idx := 5, stage := .dispatchError } buf = stageDispatchError m { idx := 5, stage := .dispatchError } buf := rfl
    unfold stageDispatchError at hst
    rw [debugAssert_true (by simp)] at hst
    cases h : buf[5]? with
    | none => simp only [h] at hst; rw [feed_readBytes hst]; simp
    | some x =>
      simp only [h] at hst
      cases ho : DispatchError.ofByte x with
      | none =>
        simp only [ho] at hst; rw [feed_panic hst]
        simp only [reduceCtorEq, Option.some.injEq, false_iff]
        rintro ⟨e, he, -⟩
        subst he
        cases e <;> simp [DispatchError.ofByte, DispatchError.toByte] at ho
      | some e =>
        simp only [ho] at hst; rw [feed_concluded hst]
        have hx : x = e.toByte := by
          unfold DispatchError.ofByte at ho
          repeat' split at ho
          all_goals first | (cases ho; assumption) | cases ho
        constructor
        · intro hr; cases hr; exact ⟨e, by rw [hx], rfl⟩
        · rintro ⟨e', he, rfl⟩
          have : e' = e := by
            rw [hx] at he
            revert he; cases e <;> cases e' <;> simp [DispatchError.toByte]
          rw [this]
  | float =>
    simp only [TypeReads, stageOfKind]
    have hst : RespParser.step m { idx := 5, stage := .float } buf = stageFloat m { idx := 5, stage := .float } buf := rfl
    unfold stageFloat at hst
    rw [debugAssert_true (by simp)] at hst
    simp only [e8] at hst
    by_cases h : (buf.drop 5).length < 8
    · simp only [if_pos h] at hst; rw [feed_readBytes hst]
      simp only [reduceCtorEq, false_iff]
      rintro ⟨f, hf, -⟩
      have := hf.length_le
      rw [beBytes_length] at this; omega
    · simp only [if_neg h] at hst; rw [feed_concluded hst]
      have hl : ((buf.drop 5).take 8).length = 8 := by rw [List.length_take]; omega
      constructor
      · intro hr; cases hr
        refine ⟨_, ?_, rfl⟩
        have := F64.toBytes_ofBytes _ hl
        unfold F64.toBytes at this
        rw [this]; exact List.take_prefix _ _
      · rintro ⟨f, hf, rfl⟩
        have : (buf.drop 5).take 8 = f.toBytes := by
          obtain ⟨t, ht⟩ := hf
          rw [← ht, List.take_append_of_le_length (by simp), List.take_of_length_le (by simp)]; rfl
        rw [this, F64.ofBytes_toBytes]
  | integer =>
    simp only [TypeReads, stageOfKind]
    have hst : RespParser.step m { idx := 5, stage := .integer } buf = stageInteger m { idx := 5, stage := .integer } buf := rfl
    unfold stageInteger at hst
    rw [debugAssert_true (by simp)] at hst
    simp only [e8] at hst
    by_cases h : (buf.drop 5).length < 8
    · simp only [if_pos h] at hst; rw [feed_readBytes hst]
      simp only [reduceCtorEq, false_iff]
      rintro ⟨f, hf, -⟩
      have := hf.length_le
      rw [beBytes_length] at this; omega
    · simp only [if_neg h] at hst; rw [feed_concluded hst]
      have hl : ((buf.drop 5).take 8).length = 8 := by rw [List.length_take]; omega
      constructor
      · intro hr; cases hr
        refine ⟨_, ?_, rfl⟩
        have := i64Bytes_i64OfBytes _ hl
        unfold i64Bytes at this
        rw [this]; exact List.take_prefix _ _
      · rintro ⟨f, hf, rfl⟩
        have : (buf.drop 5).take 8 = i64Bytes f := by
          obtain ⟨t, ht⟩ := hf
          rw [← ht, List.take_append_of_le_length (by simp), List.take_of_length_le (by simp)]; rfl
        rw [this, i64OfBytes_i64Bytes]
  | bytes =>
    simp only [TypeReads, stageOfKind]
    rcases count_step m buf .bytes 4 hb with ⟨h, hno⟩ | ⟨h, hs⟩
    · refine ⟨fun hr => absurd hr (hno r), ?_⟩
      rintro ⟨b, hb, -, hp, -⟩
      have := (sized_prefix (w := 4) (by omega)).mp hp
      omega
    have hst : RespParser.step m { idx := 5, stage := .typeInit .bytes 4 } buf =
        .next { idx := 9, stage := .bytes (beNat ((buf.drop 5).take 4)) } := by
      simp only [RespParser.step, stageTypeInit]
      rw [debugAssert_true (by simp), hs]
    rw [feed_next hst]
    have h9 : 9 ≤ buf.length := by rw [List.length_drop] at h; omega
    have hlt := taken_lt h
    generalize hn : beNat ((buf.drop 5).take 4) = n at *
    have e9 := slice_at (pos := 9) (a := 0) (b := n) h9 (by omega)
    simp only [Nat.add_zero, List.drop_zero, Nat.sub_zero] at e9
    have hst' : RespParser.step m { idx := 9, stage := .bytes n } buf = stageBytes m { idx := 9, stage := .bytes n } buf n := rfl
    unfold stageBytes at hst'
    rw [debugAssert_true (by simp)] at hst'
    have h59 : (buf.drop 5).drop 4 = buf.drop 9 := List.drop_drop
    have hl59 : (buf.drop 5).length = 4 + (buf.drop 9).length := by simp only [List.length_drop]; omega
    by_cases h0 : m = .debug ∧ n = 0
    · obtain ⟨rfl, rfl⟩ := h0
      have : RespParser.step .debug { idx := 9, stage := .bytes 0 } buf = .panic := by rw [hst']; simp [debugAssert]
      rw [feed_panic this]
      simp only [reduceCtorEq, false_iff]
      rintro ⟨b, hb', hne, hp, -⟩
      obtain ⟨-, -, g3⟩ := (sized_prefix (w := 4) (by omega)).mp hp
      rw [hn] at g3
      simp only [List.take_zero] at g3
      simp [g3] at hne
    · have hda : ∀ s, debugAssert m (decide (n ≠ 0)) s = s := by
        intro s; unfold debugAssert; rw [if_neg]; simpa using h0
      simp only [hda, e9] at hst'
      by_cases hv : (buf.drop 9).length < n
      · simp only [if_pos hv] at hst'
        have hv' := hv
        rw [List.length_drop] at hv'
        rw [remainingBytes_eq (by omega) (by omega)] at hst'
        rw [feed_readBytes hst']
        simp only [reduceCtorEq, false_iff]
        rintro ⟨b, hb', -, hp, -⟩
        obtain ⟨-, g2, -⟩ := (sized_prefix (w := 4) (by omega)).mp hp
        omega
      · simp only [if_neg hv] at hst'
        rw [feed_concluded hst']
        have hf := sized_front (w := 4) (rest := buf.drop 5) h (by omega)
        rw [hn, h59] at hf
        constructor
        · intro hr; cases hr
          refine ⟨_, by rw [hf.1]; omega, ?_, hf.2, rfl⟩
          intro hm hz
          rw [hz] at hf
          exact h0 ⟨hm, hf.1.symm⟩
        · rintro ⟨b, hb', -, hp, rfl⟩
          obtain ⟨-, -, g3⟩ := (sized_prefix (w := 4) (by omega)).mp hp
          rw [hn, h59] at g3
          rw [g3]
  | string =>
    simp only [TypeReads, stageOfKind]
    rcases count_step m buf .string 4 hb with ⟨h, hno⟩ | ⟨h, hs⟩
    · refine ⟨fun hr => absurd hr (hno r), ?_⟩
      rintro ⟨b, hb, hp, -⟩
      have := (sized_prefix (w := 4) (by omega)).mp hp
      omega
    have hlt := taken_lt h
    have h59 : (buf.drop 5).drop 4 = buf.drop 9 := List.drop_drop
    have hl59 : (buf.drop 5).length = 4 + (buf.drop 9).length := by
      rw [List.length_drop] at h; simp only [List.length_drop]; omega
    have h9 : 9 ≤ buf.length := by rw [List.length_drop] at h; omega
    generalize hn : beNat ((buf.drop 5).take 4) = n at *
    have hst : RespParser.step m { idx := 5, stage := .typeInit .string 4 } buf =
        if n = 0 then .concluded (.value (.string [])) else .next { idx := 9, stage := .string n } := by
      simp only [RespParser.step, stageTypeInit]
      rw [debugAssert_true (by simp), hs]
      simp only [hn]
    by_cases h0 : n = 0
    · subst h0
      rw [if_pos rfl] at hst
      rw [feed_concluded hst]
      constructor
      · intro hr; cases hr
        refine ⟨[], by simp [strBytes], ?_, rfl⟩
        rw [sized_prefix (w := 4) (by simp [strBytes])]
        rw [hn]
        exact ⟨h, by omega, by simp [strBytes]⟩
      · rintro ⟨s, hs', hp, rfl⟩
        obtain ⟨-, -, g3⟩ := (sized_prefix (w := 4) (by omega)).mp hp
        rw [hn, List.take_zero] at g3
        have := fromUtf8_strBytes s
        rw [g3] at this
        have h2 := fromUtf8_strBytes []
        rw [show strBytes [] = [] from rfl, this] at h2
        simp only [Option.some.injEq] at h2
        rw [h2]
    · rw [if_neg h0] at hst
      rw [feed_next hst]
      have e9 := slice_at (pos := 9) (a := 0) (b := n) h9 (by omega)
      simp only [Nat.add_zero, List.drop_zero, Nat.sub_zero] at e9
      have hst' : RespParser.step m { idx := 9, stage := .string n } buf = stageString m { idx := 9, stage := .string n } buf n := rfl
      unfold stageString at hst'
      rw [debugAssert_true (by simp), debugAssert_true (by simp; omega)] at hst'
      simp only [e9] at hst'
      by_cases hv : (buf.drop 9).length < n
      · simp only [if_pos hv] at hst'
        have hv' := hv
        rw [List.length_drop] at hv'
        rw [subThen_eq (by omega)] at hst'
        rw [feed_readBytes hst']
        simp only [reduceCtorEq, false_iff]
        rintro ⟨b, hb', hp, -⟩
        obtain ⟨-, g2, -⟩ := (sized_prefix (w := 4) (by omega)).mp hp
        omega
      · simp only [if_neg hv] at hst'
        have hf := sized_front (w := 4) (rest := buf.drop 5) h (by omega)
        rw [hn, h59] at hf
        cases hu : fromUtf8 ((buf.drop 9).take n) with
        | none =>
          simp only [hu] at hst'
          rw [feed_error hst']
          simp only [reduceCtorEq, false_iff]
          rintro ⟨s, hs', hp, -⟩
          obtain ⟨-, -, g3⟩ := (sized_prefix (w := 4) (by omega)).mp hp
          rw [hn, h59] at g3
          rw [← g3, fromUtf8_strBytes] at hu
          simp at hu
        | some s =>
          simp only [hu] at hst'
          rw [feed_concluded hst']
          have hsb := strBytes_fromUtf8 hu
          constructor
          · intro hr; cases hr
            refine ⟨s, ?_, ?_, rfl⟩
            · rw [hsb, hf.1]; omega
            · rw [hsb]; exact hf.2
          · rintro ⟨s', hs', hp, rfl⟩
            obtain ⟨-, -, g3⟩ := (sized_prefix (w := 4) (by omega)).mp hp
            rw [hn, h59] at g3
            rw [← g3, fromUtf8_strBytes] at hu
            simp only [Option.some.injEq] at hu
            rw [hu]
  | list =>
    simp only [TypeReads, stageOfKind]
    rcases count_step m buf .list 2 hb with ⟨h, hno⟩ | ⟨h, hs⟩
    · refine ⟨fun hr => absurd hr (hno r), ?_⟩
      rintro ⟨n, hn, l, -, -, hp, -⟩
      have := (counted_prefix (w := 2) (by omega)).mp hp
      omega
    have hlt := taken_lt h
    have h57 : (buf.drop 5).drop 2 = buf.drop 7 := List.drop_drop
    have h7 : 7 ≤ buf.length := by rw [List.length_drop] at h; omega
    have hst : RespParser.step m { idx := 5, stage := .typeInit .list 2 } buf =
        .next { idx := 7, stage := .list [] (beNat ((buf.drop 5).take 2)) } := by
      simp only [RespParser.step, stageTypeInit]
      rw [debugAssert_true (by simp), hs]
    rw [feed_next hst, items_read (list_takes m buf (by omega) _) (by intro x; simp only [listItem, List.length_append, beBytes_length]; omega)
      (fun x y b hx hy => sized_uniq (w := 4) (by omega) (by omega)) _ 7 [] r (Nat.le_refl _) (by omega) h7]
    simp only [foldl_append_items, List.nil_append]
    constructor
    · rintro ⟨l, h1, h2, h3, h4, h5, rfl⟩
      exact ⟨_, by omega, l, length_upTo.mp ⟨h1, h4, h5⟩, h2,
        (counted_prefix (w := 2) hlt).mpr ⟨h, rfl, by rw [h57]; exact h3⟩, rfl⟩
    · rintro ⟨n, hn, l, h1, h2, h3, rfl⟩
      obtain ⟨-, rfl, h4⟩ := (counted_prefix (w := 2) (by omega)).mp h3
      obtain ⟨g1, g2, g3⟩ := length_upTo.mpr h1
      exact ⟨l, g1, h2, by rw [← h57]; exact h4, g2, g3, rfl⟩
  | set =>
    simp only [TypeReads, stageOfKind]
    rcases count_step m buf .set 2 hb with ⟨h, hno⟩ | ⟨h, hs⟩
    · refine ⟨fun hr => absurd hr (hno r), ?_⟩
      rintro ⟨n, hn, l, -, -, hp, -⟩
      have := (counted_prefix (w := 2) (by omega)).mp hp
      omega
    have hlt := taken_lt h
    have h57 : (buf.drop 5).drop 2 = buf.drop 7 := List.drop_drop
    have h7 : 7 ≤ buf.length := by rw [List.length_drop] at h; omega
    have hst : RespParser.step m { idx := 5, stage := .typeInit .set 2 } buf =
        .next { idx := 7, stage := .set [] (beNat ((buf.drop 5).take 2)) } := by
      simp only [RespParser.step, stageTypeInit]
      rw [debugAssert_true (by simp), hs]
    rw [feed_next hst, items_read (set_takes m buf (by omega) _) (by intro x; simp only [setItem, List.length_append, beBytes_length]; omega)
      (fun x y b hx hy => sized_uniq (w := 2) (by omega) (by omega)) _ 7 [] r (Nat.le_refl _) (by omega) h7]
    simp only [collectSet_length]
    constructor
    · rintro ⟨l, h1, h2, h3, h4, h5, rfl⟩
      exact ⟨_, by omega, l, ⟨h1, h4, h5⟩, h2,
        (counted_prefix (w := 2) hlt).mpr ⟨h, rfl, by rw [h57]; exact h3⟩, rfl⟩
    · rintro ⟨n, hn, l, ⟨g1, g2, g3⟩, h2, h3, rfl⟩
      obtain ⟨-, rfl, h4⟩ := (counted_prefix (w := 2) (by omega)).mp h3
      exact ⟨l, g1, h2, by rw [← h57]; exact h4, g2, g3, rfl⟩
  | map =>
    simp only [TypeReads, stageOfKind]
    rcases count_step m buf .map 2 hb with ⟨h, hno⟩ | ⟨h, hs⟩
    · refine ⟨fun hr => absurd hr (hno r), ?_⟩
      rintro (⟨hp, -⟩ | ⟨n, hn, -, l, -, -, hp, -⟩)
      · have := (number_prefix (w := 2) (by omega)).mp hp
        omega
      · have := (counted_prefix (w := 2) (by omega)).mp hp
        omega
    have hlt := taken_lt h
    have h57 : (buf.drop 5).drop 2 = buf.drop 7 := List.drop_drop
    have h7 : 7 ≤ buf.length := by rw [List.length_drop] at h; omega
    have hst : RespParser.step m { idx := 5, stage := .typeInit .map 2 } buf =
        if beNat ((buf.drop 5).take 2) = 0 then .concluded (.value (.map []))
        else .next { idx := 7, stage := .map [] (beNat ((buf.drop 5).take 2)) } := by
      simp only [RespParser.step, stageTypeInit]
      rw [debugAssert_true (by simp), hs]
    by_cases h0 : beNat ((buf.drop 5).take 2) = 0
    · rw [if_pos h0] at hst
      rw [feed_concluded hst]
      constructor
      · intro hr; cases hr
        exact Or.inl ⟨(number_prefix (w := 2) (by omega)).mpr ⟨h, h0.symm⟩, rfl⟩
      · rintro (⟨-, rfl⟩ | ⟨n, hn, hn0, l, -, -, hp, -⟩)
        · rfl
        · have := ((counted_prefix (w := 2) (by omega)).mp hp).2.1
          omega
    · rw [if_neg h0] at hst
      rw [feed_next hst, items_read (map_takes m buf (by omega) _) (by intro x; simp only [mapItem, List.length_append, beBytes_length]; omega)
        (fun x y b hx hy => mapItem_uniq hx hy) _ 7 [] r (Nat.le_refl _) (by omega) h7]
      simp only [collectMap_length]
      constructor
      · rintro ⟨l, h1, h2, h3, h4, h5, rfl⟩
        exact Or.inr ⟨_, by omega, by omega, l, map_upTo.mpr ⟨h1, h4, h5⟩, h2,
          (counted_prefix (w := 2) hlt).mpr ⟨h, rfl, by rw [h57]; exact h3⟩, rfl⟩
      · rintro (⟨hp, -⟩ | ⟨n, hn, -, l, hu, h2, h3, rfl⟩)
        · have := ((number_prefix (w := 2) (by omega)).mp hp).2
          omega
        · obtain ⟨-, rfl, h4⟩ := (counted_prefix (w := 2) (by omega)).mp h3
          obtain ⟨g1, g2, g3⟩ := map_upTo.mp hu
          exact ⟨l, g1, h2, by rw [← h57]; exact h4, g2, g3, rfl⟩

/-! ## C180 -/

theorem same_iff_eq {r r' : Response} (h : ∀ mp, r' ≠ .value (.map mp)) (h2 : ∀ s, r' ≠ .value (.set s)) :
    SameResponse r' r ↔ r' = r := by
  cases r' with
  | value v =>
    cases r with
    | value w =>
      cases v <;> cases w <;> simp_all [SameResponse, Same]
    | _ => simp [SameResponse]
  | _ => simp [SameResponse]

theorem carries_reads {m : Mode} {b : Bytes} {r : Response} (h : Carries m b r) (k : ResponseType) (rest : Bytes)
    (hb : k.toByte :: rest = b) : ∃ r', TypeReads m k rest r' ∧ SameResponse r' r := by
  have only : ∀ k' : ResponseType, k.toByte = k'.toByte → k = k' := by
    intro k' h
    have h1 := (ofByte_responseType k.toByte k).mpr rfl
    have h2 := (ofByte_responseType k.toByte k').mpr h
    rw [h1] at h2
    exact Option.some.inj h2
  cases h with
  | boolean x tail =>
    obtain ⟨hk, rfl⟩ := List.cons.inj hb
    cases only .boolean hk
    refine ⟨_, ⟨x, ⟨tail, rfl⟩, rfl⟩, ?_⟩
    simp only [SameResponse, Same, Value.boolean.injEq]
    by_cases hx : x = 0 <;> simp [hx]
  | bytes b tail h1 h2 =>
    obtain ⟨hk, rfl⟩ := List.cons.inj hb
    cases only .bytes hk
    exact ⟨_, ⟨b, h1, h2, ⟨tail, by simp⟩, rfl⟩, rfl⟩
  | float f tail =>
    obtain ⟨hk, rfl⟩ := List.cons.inj hb
    cases only .float hk
    exact ⟨_, ⟨f, ⟨tail, rfl⟩, rfl⟩, rfl⟩
  | integer i tail =>
    obtain ⟨hk, rfl⟩ := List.cons.inj hb
    cases only .integer hk
    exact ⟨_, ⟨i, ⟨tail, rfl⟩, rfl⟩, rfl⟩
  | list n l tail h1 h2 h3 =>
    obtain ⟨hk, rfl⟩ := List.cons.inj hb
    cases only .list hk
    exact ⟨_, ⟨n, h1, l, h2, h3, ⟨tail, by simp⟩, rfl⟩, rfl⟩
  | emptyMap tail =>
    obtain ⟨hk, rfl⟩ := List.cons.inj hb
    cases only .map hk
    exact ⟨_, Or.inl ⟨⟨tail, rfl⟩, rfl⟩, List.Perm.refl _⟩
  | map n l mp tail h0 h1 h2 h3 h4 h5 =>
    obtain ⟨hk, rfl⟩ := List.cons.inj hb
    cases only .map hk
    refine ⟨_, Or.inr ⟨n, h1, h0, l, h2, h3, ⟨tail, by simp⟩, rfl⟩, ?_⟩
    refine (map_perm_iff (collectMap_nodup l) h4).mpr fun x => ?_
    rw [collectMap_lookup, h5]
  | set n l s tail h1 h2 h3 h4 h5 =>
    obtain ⟨hk, rfl⟩ := List.cons.inj hb
    cases only .set hk
    refine ⟨_, ⟨n, h1, l, h2, h3, ⟨tail, by simp⟩, rfl⟩, ?_⟩
    refine nodup_perm _ _ (collectSet_nodup l) h4 fun x => ?_
    rw [collectSet_mem, h5]
  | string s tail h1 =>
    obtain ⟨hk, rfl⟩ := List.cons.inj hb
    cases only .string hk
    exact ⟨_, ⟨s, h1, ⟨tail, by simp⟩, rfl⟩, rfl⟩
  | parseError e tail =>
    obtain ⟨hk, rfl⟩ := List.cons.inj hb
    cases only .parseError hk
    exact ⟨_, ⟨e, ⟨tail, rfl⟩, rfl⟩, rfl⟩
  | dispatchError e tail =>
    obtain ⟨hk, rfl⟩ := List.cons.inj hb
    cases only .dispatchError hk
    exact ⟨_, ⟨e, ⟨tail, rfl⟩, rfl⟩, rfl⟩

theorem same_map {mp : BMap} {r : Response} (h : SameResponse (.value (.map mp)) r) :
    ∃ mp', r = .value (.map mp') ∧ mp.Perm mp' := by
  cases r with
  | value w => cases w <;> simp_all [SameResponse, Same]
  | _ => simp [SameResponse] at h

theorem same_set {s : BSet} {r : Response} (h : SameResponse (.value (.set s)) r) :
    ∃ s', r = .value (.set s') ∧ s.Perm s' := by
  cases r with
  | value w => cases w <;> simp_all [SameResponse, Same]
  | _ => simp [SameResponse] at h

theorem reads_carries {m : Mode} {k : ResponseType} {rest : Bytes} {r r' : Response} (h : TypeReads m k rest r')
    (hs : SameResponse r' r) : Carries m (k.toByte :: rest) r := by
  cases k with
  | boolean =>
    obtain ⟨x, ⟨tail, rfl⟩, rfl⟩ := h
    obtain rfl := (same_iff_eq (by simp) (by simp)).mp hs
    have : (x != 0) = decide (x ≠ 0) := by by_cases hx : x = 0 <;> simp [hx]
    rw [this]
    exact .boolean x tail
  | bytes =>
    obtain ⟨b, h1, h2, ⟨tail, rfl⟩, rfl⟩ := h
    obtain rfl := (same_iff_eq (by simp) (by simp)).mp hs
    rw [List.append_assoc]
    exact .bytes b tail h1 h2
  | float =>
    obtain ⟨f, ⟨tail, rfl⟩, rfl⟩ := h
    obtain rfl := (same_iff_eq (by simp) (by simp)).mp hs
    exact .float f tail
  | integer =>
    obtain ⟨f, ⟨tail, rfl⟩, rfl⟩ := h
    obtain rfl := (same_iff_eq (by simp) (by simp)).mp hs
    exact .integer f tail
  | list =>
    obtain ⟨n, h1, l, h2, h3, ⟨tail, rfl⟩, rfl⟩ := h
    obtain rfl := (same_iff_eq (by simp) (by simp)).mp hs
    rw [List.append_assoc]
    exact .list n l tail h1 h2 h3
  | map =>
    rcases h with ⟨⟨tail, rfl⟩, rfl⟩ | ⟨n, h1, h0, l, h2, h3, ⟨tail, rfl⟩, rfl⟩
    · obtain ⟨mp, rfl, hp⟩ := same_map hs
      obtain rfl := List.nil_perm.mp hp
      exact .emptyMap tail
    · obtain ⟨mp, rfl, hp⟩ := same_map hs
      have hd : (mp.map Prod.fst).Nodup := (hp.map Prod.fst).nodup_iff.mp (collectMap_nodup l)
      rw [List.append_assoc]
      refine .map n l mp tail h0 h1 h2 h3 hd fun k => ?_
      rw [← (map_perm_iff (collectMap_nodup l) hd).mp hp, collectMap_lookup]
  | set =>
    obtain ⟨n, h1, l, h2, h3, ⟨tail, rfl⟩, rfl⟩ := h
    obtain ⟨s, rfl, hp⟩ := same_set hs
    rw [List.append_assoc]
    refine .set n l s tail h1 h2 h3 (hp.nodup_iff.mp (collectSet_nodup l)) fun x => ?_
    rw [← hp.mem_iff, collectSet_mem]
  | string =>
    obtain ⟨s, h1, ⟨tail, rfl⟩, rfl⟩ := h
    obtain rfl := (same_iff_eq (by simp) (by simp)).mp hs
    rw [List.append_assoc]
    exact .string s tail h1
  | parseError =>
    obtain ⟨e, ⟨tail, rfl⟩, rfl⟩ := h
    obtain rfl := (same_iff_eq (by simp) (by simp)).mp hs
    exact .parseError e tail
  | dispatchError =>
    obtain ⟨e, ⟨tail, rfl⟩, rfl⟩ := h
    obtain rfl := (same_iff_eq (by simp) (by simp)).mp hs
    exact .dispatchError e tail

theorem carries_iff (m : Mode) (k : ResponseType) (rest : Bytes) (r : Response) :
    Carries m (k.toByte :: rest) r ↔ ∃ r', TypeReads m k rest r' ∧ SameResponse r' r :=
  ⟨fun h => carries_reads h k rest rfl, fun ⟨_, h, hs⟩ => reads_carries h hs⟩

theorem feed_type (m : Mode) (buf : Bytes) (h4 : 4 ≤ buf.length) (hc : 4 + beNat (buf.take 4) ≤ buf.length) :
    RespParser.feed m Ctx.new buf = RespParser.feed m { idx := 4, stage := .determineType } buf := by
  have hs : slice buf 0 4 = some (buf.take 4) := by
    rw [slice_eq_some]; exact ⟨by omega, by omega, by simp⟩
  refine feed_next ?_
  simp only [RespParser.step, Ctx.new, stageInit]
  rw [debugAssert_true (by simp), hs]
  simp only
  rw [if_neg (by omega)]

/-- C180. What a new decoder concludes with, whatever has arrived. -/
theorem C180_concludes (m : Mode) (buf : Bytes) (r : Response) :
    (∃ r', (RespParser.feed m Ctx.new buf).1 = .concluded r' ∧ SameResponse r' r) ↔
      4 ≤ buf.length ∧ 4 + beNat (buf.take 4) ≤ buf.length ∧ Carries m (buf.drop 4) r := by
  by_cases h4 : buf.length < 4
  · have hs : slice buf 0 4 = none := by rw [slice_eq_none]; omega
    have : RespParser.step m Ctx.new buf = .readBytes (4 - buf.length) := by
      simp only [RespParser.step, Ctx.new, stageInit]
      rw [debugAssert_true (by simp), hs]
    rw [feed_readBytes this]
    simp only [reduceCtorEq, false_and, exists_false, false_iff]
    omega
  by_cases hc : buf.length < 4 + beNat (buf.take 4)
  · have hs : slice buf 0 4 = some (buf.take 4) := by
      rw [slice_eq_some]; exact ⟨by omega, by omega, by simp⟩
    have : RespParser.step m Ctx.new buf = .readBytes (4 + beNat (buf.take 4) - buf.length) := by
      simp only [RespParser.step, Ctx.new, stageInit]
      rw [debugAssert_true (by simp), hs]
      simp only
      rw [if_pos (by omega)]
    rw [feed_readBytes this]
    simp only [reduceCtorEq, false_and, exists_false, false_iff]
    omega
  rw [feed_type m buf (by omega) (by omega)]
  have hdrop : ∀ P : Prop, (4 ≤ buf.length ∧ 4 + beNat (buf.take 4) ≤ buf.length ∧ P) ↔ P :=
    fun P => ⟨fun h => h.2.2, fun h => ⟨by omega, by omega, h⟩⟩
  rw [hdrop]
  cases hd : buf.drop 4 with
  | nil =>
    have hb4 : buf[4]? = none := by
      have := congrArg List.length hd
      simp only [List.length_drop, List.length_nil] at this
      exact List.getElem?_eq_none (by omega)
    have : RespParser.step m { idx := 4, stage := .determineType } buf = .readBytes 1 := by
      simp only [RespParser.step, stageDetermineType]
      rw [debugAssert_true (by simp), hb4]
    rw [feed_readBytes this]
    simp only [reduceCtorEq, false_and, exists_false, false_iff]
    intro h; cases h
  | cons t rest =>
    have hb4 : buf[4]? = some t := by
      have := congrArg (fun l => l[0]?) hd
      simpa using this
    have hrest : buf.drop 5 = rest := by
      have := congrArg List.tail hd
      simpa using this
    have hlen : buf.length = 5 + rest.length := by
      have := congrArg List.length hd
      simp only [List.length_drop, List.length_cons] at this
      omega
    cases hk : ResponseType.ofByte t with
    | none =>
      have : RespParser.step m { idx := 4, stage := .determineType } buf = .error .responseTypeInvalid := by
        simp only [RespParser.step, stageDetermineType]
        rw [debugAssert_true (by simp), hb4]
        simp only [hk]
      rw [feed_error this]
      simp only [reduceCtorEq, false_and, exists_false, false_iff]
      intro h
      cases h <;> simp [ResponseType.ofByte] at hk
    | some k =>
      have : RespParser.step m { idx := 4, stage := .determineType } buf = .next { idx := 5, stage := stageOfKind k } := by
        simp only [RespParser.step, stageDetermineType]
        rw [debugAssert_true (by simp), hb4]
        simp only [hk]
      rw [feed_next this, (ofByte_responseType t k).mp hk, carries_iff]
      simp only [reads_iff m buf (by omega) k, hrest]

/-- C180, however the bytes arrive. -/
theorem C180_concludes_chunked {m : Mode} {buf : Bytes} {c : Ctx} (h : Asking m buf c) (ext : Bytes) (r : Response) :
    (∃ r', (RespParser.feed m c (buf ++ ext)).1 = .concluded r' ∧ SameResponse r' r) ↔
      4 ≤ (buf ++ ext).length ∧ 4 + beNat ((buf ++ ext).take 4) ≤ (buf ++ ext).length ∧
        Carries m ((buf ++ ext).drop 4) r := by
  rw [C13_chunks h ext]
  exact C180_concludes m (buf ++ ext) r

/-- C180. The header of a frame may announce too little: the decoder then reads on. -/
theorem C180_header_is_a_minimum (m : Mode) (hdr body : Bytes) (r : Response) (hh : hdr.length = 4)
    (hle : beNat hdr ≤ body.length) :
    (∃ r', (RespParser.feed m Ctx.new (hdr ++ body)).1 = .concluded r' ∧ SameResponse r' r) ↔ Carries m body r := by
  rw [C180_concludes]
  have h1 : (hdr ++ body).take 4 = hdr := by rw [← hh]; simp
  have h2 : (hdr ++ body).drop 4 = body := by rw [← hh]; simp
  rw [h1, h2, List.length_append, hh]
  exact ⟨fun h => h.2.2, fun h => ⟨by omega, by omega, h⟩⟩

theorem sameResponse_symm {a b : Response} (h : SameResponse a b) : SameResponse b a := by
  cases a <;> cases b <;> first | exact same_symm h | (simp only [SameResponse] at h ⊢; exact h.symm)

theorem sameResponse_trans {a b c : Response} (h1 : SameResponse a b) (h2 : SameResponse b c) : SameResponse a c := by
  cases a <;> cases b <;> cases c <;>
    first | exact same_trans h1 h2 | (simp only [SameResponse, reduceCtorEq] at h1 h2 ⊢; simp_all) | simp [SameResponse] at h1 h2

/-- C180. The same bytes do not say two different things. -/
theorem C180_unambiguous (m : Mode) {body : Bytes} {r r' : Response} (h : Carries m body r) (h' : Carries m body r') :
    SameResponse r r' := by
  have hb : (beBytes 4 0).length = 4 := by simp
  have h0 : beNat (beBytes 4 0) ≤ body.length := by rw [show beNat (beBytes 4 0) = 0 by decide]; omega
  obtain ⟨a, ha, hs⟩ := (C180_header_is_a_minimum m _ body r hb h0).mpr h
  obtain ⟨b, hb', hs'⟩ := (C180_header_is_a_minimum m _ body r' hb h0).mpr h'
  rw [ha] at hb'
  simp only [Fed.concluded.injEq] at hb'
  subst hb'
  exact sameResponse_trans (sameResponse_symm hs) hs'

/-- A set announced to have two items, one of them sent twice, and bytes that belong to something else. -/
example : Carries .debug [6, 0, 2, 0, 1, 9, 0, 1, 9, 0, 1, 8, 77] (.value (.set [[8], [9]])) :=
  .set 2 [[9], [9], [8]] [[8], [9]] [77] (by decide)
    ⟨by decide, by decide, by
      intro p q h hp hq
      match p, hp with
      | [a], _ => simp at h; obtain ⟨rfl, -⟩ := h; decide
      | [a, b], _ => simp at h; obtain ⟨rfl, rfl, -⟩ := h; decide
      | a :: b :: c :: p, _ => simp at h; simp_all⟩
    (by decide) (by decide) (by intro x; simp; grind)

/-- The header announces nothing, and the list is announced to be empty: one item is read all the same. -/
example : ∃ r', (RespParser.feed .debug Ctx.new [0, 0, 0, 0, 4, 0, 0, 0, 0, 0, 2, 5, 6, 7]).1 = .concluded r' ∧
    SameResponse r' (.value (.list [[5, 6]])) :=
  (C180_header_is_a_minimum .debug [0, 0, 0, 0] [4, 0, 0, 0, 0, 0, 2, 5, 6, 7] _ rfl (by decide)).mpr
    (.list 0 [[5, 6]] [7] (by decide) (by decide) (by decide))

/-- The last of two values for a key counts. -/
example : ∃ r', (RespParser.feed .release Ctx.new
      [0, 0, 0, 23, 5, 0, 2, 1, 7, 0, 0, 0, 1, 1, 1, 7, 0, 0, 0, 1, 2, 1, 8, 0, 0, 0, 0]).1 = .concluded r' ∧
    SameResponse r' (.value (.map [([8], []), ([7], [2])])) :=
  (C180_concludes .release _ _).mpr ⟨by decide, by decide,
    .map 2 [([7], [1]), ([7], [2]), ([8], [])] [([8], []), ([7], [2])] [] (by decide) (by decide)
      ⟨by decide, by decide, by
        intro p q h hp hq
        match p, hp with
        | [a], _ => simp at h; obtain ⟨rfl, -⟩ := h; decide
        | [a, b], _ => simp at h; obtain ⟨rfl, rfl, -⟩ := h; decide
        | a :: b :: c :: p, _ => simp at h; simp_all⟩
      (by decide) (by decide) (by
        intro k
        by_cases h7 : k = [7]
        · subst h7; decide
        · by_cases h8 : k = [8]
          · subst h8; decide
          · have e7 : (k == [7]) = false := by simpa using h7
            have e8 : (k == [8]) = false := by simpa using h8
            simp [List.lookup, e7, e8])⟩

/-! ## Further concrete cases -/

/-- The list of one item, arriving in two pieces, and no other response but it. -/
example (m : Mode) : ∃ c, Asking m [0, 0, 0, 10] c ∧
    (∃ r', (RespParser.feed m c ([0, 0, 0, 10] ++ [4, 0, 1, 0, 0, 0, 2, 5, 6, 9])).1 = .concluded r' ∧ SameResponse r' (.value (.list [[5, 6]]))) ∧
    ∀ r, Carries m [4, 0, 1, 0, 0, 0, 2, 5, 6, 9] r → SameResponse (.value (.list [[5, 6]])) r := by
  have h : Asking m ([] ++ [0, 0, 0, 10]) (RespParser.feed m Ctx.new [0, 0, 0, 10]).2 :=
    Asking.more (n := 10) .start (by cases m <;> decide +kernel)
  have hc : Carries m [4, 0, 1, 0, 0, 0, 2, 5, 6, 9] (.value (.list [[5, 6]])) := .list 1 [[5, 6]] [9] (by decide) (by decide) (by decide)
  exact ⟨_, h, (C180_concludes_chunked h _ _).mpr ⟨by decide, by decide, hc⟩, fun r hr => C180_unambiguous m hc hr⟩

end Hop
