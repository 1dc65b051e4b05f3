import Verif.Props.Response
import Verif.Spec.ResponseAsks

/-! # How many bytes the response decoder asks for: C177 - C179 -/

namespace Hop

open Spec RespParser

/-- How many bytes are asked for, if any are. -/
def asksFor : Fed → Option Nat
  | .readBytes n => some n
  | _ => none

theorem slice_at {buf : Bytes} {pos a b : Nat} (h : pos ≤ buf.length) (hab : a ≤ b) :
    slice buf (pos + a) (pos + b) =
      if (buf.drop pos).length < b then none else some (((buf.drop pos).drop a).take (b - a)) := by
  by_cases hb : (buf.drop pos).length < b
  · rw [if_pos hb, slice_eq_none]
    simp only [List.length_drop] at hb
    omega
  · rw [if_neg hb, slice_eq_some]
    simp only [List.length_drop] at hb
    refine ⟨by omega, by omega, ?_⟩
    rw [List.drop_drop]
    congr 1
    omega

theorem remainingBytes_eq {m : Mode} {a b d : Nat} (ha : 0 < a) (hb : b ≤ a + d) :
    remainingBytes m a b d = .readBytes (a + d - b) := by
  unfold remainingBytes
  rw [debugAssert_true (by simpa using ha), debugAssert_true (by simpa using hb)]

theorem subThen_eq {m : Mode} {a b : Nat} (h : b ≤ a) : subThen m a b .readBytes = .readBytes (a - b) := by
  unfold subThen
  rw [if_pos h]

theorem asksFor_readBytes {m : Mode} {c : Ctx} {buf : Bytes} {n : Nat}
    (h : RespParser.step m c buf = .readBytes n) : asksFor (RespParser.feed m c buf).1 = some n := by
  rw [feed_readBytes h]; rfl

theorem asksFor_concluded {m : Mode} {c : Ctx} {buf : Bytes} {r : Response}
    (h : RespParser.step m c buf = .concluded r) : asksFor (RespParser.feed m c buf).1 = none := by
  rw [feed_concluded h]; rfl

theorem list_asks (m : Mode) (buf : Bytes) (hb : 6 < buf.length) (len : Nat) : ∀ (n : Nat) (pos : Nat)
    (args : List Bytes), 6 < pos → pos ≤ buf.length → n + 1 = max 1 (len - args.length) →
    asksFor (RespParser.feed m { idx := pos, stage := .list args len } buf).1 =
      listWants (n + 1) (buf.drop pos) := by
  intro n
  induction n with
  | zero =>
    intro pos args hp hl hn
    have e1 := slice_at (a := 0) (b := 4) hl (by omega)
    simp only [Nat.add_zero, List.drop_zero, Nat.sub_zero] at e1
    have hst : ∀ s, stageList m { idx := pos, stage := .list args len } buf args len = s →
      RespParser.step m { idx := pos, stage := .list args len } buf = s := fun s h => h
    unfold stageList at hst
    rw [debugAssert_true (by simpa using hp), debugAssert_true (by simpa using hb)] at hst
    simp only at hst
    rw [listWants]
    by_cases h4 : (buf.drop pos).length < 4
    · rw [if_pos h4]
      rw [e1, if_pos h4] at hst
      simp only at hst
      rw [remainingBytes_eq (by omega) (by simp only [List.length_drop] at h4; omega)] at hst
      rw [asksFor_readBytes (hst _ rfl)]
      simp only [List.length_drop]; congr 1; omega
    · rw [if_neg h4]
      rw [e1, if_neg h4] at hst
      simp only at hst
      have e2 := slice_at (a := 4) (b := 4 + beNat ((buf.drop pos).take 4)) hl (by omega)
      rw [show pos + (4 + beNat ((buf.drop pos).take 4)) = pos + 4 + beNat ((buf.drop pos).take 4) by omega] at e2
      by_cases hv : (buf.drop pos).length < 4 + beNat ((buf.drop pos).take 4)
      · rw [if_pos hv]
        rw [e2, if_pos hv] at hst
        simp only at hst
        rw [subThen_eq (by simp only [List.length_drop] at hv; omega)] at hst
        rw [asksFor_readBytes (hst _ rfl)]
        simp only [List.length_drop]; congr 1; omega
      · rw [if_neg hv, listWants]
        rw [e2, if_neg hv] at hst
        simp only at hst
        rw [if_neg (by simp only [List.length_append, List.length_singleton]; omega)] at hst
        exact asksFor_concluded (hst _ rfl)
  | succ n ih =>
    intro pos args hp hl hn
    have e1 := slice_at (a := 0) (b := 4) hl (by omega)
    simp only [Nat.add_zero, List.drop_zero, Nat.sub_zero] at e1
    have hst : ∀ s, stageList m { idx := pos, stage := .list args len } buf args len = s →
      RespParser.step m { idx := pos, stage := .list args len } buf = s := fun s h => h
    unfold stageList at hst
    rw [debugAssert_true (by simpa using hp), debugAssert_true (by simpa using hb)] at hst
    simp only at hst
    rw [listWants]
    by_cases h4 : (buf.drop pos).length < 4
    · rw [if_pos h4]
      rw [e1, if_pos h4] at hst
      simp only at hst
      rw [remainingBytes_eq (by omega) (by simp only [List.length_drop] at h4; omega)] at hst
      rw [asksFor_readBytes (hst _ rfl)]
      simp only [List.length_drop]; congr 1; omega
    · rw [if_neg h4]
      rw [e1, if_neg h4] at hst
      simp only at hst
      have e2 := slice_at (a := 4) (b := 4 + beNat ((buf.drop pos).take 4)) hl (by omega)
      rw [show pos + (4 + beNat ((buf.drop pos).take 4)) = pos + 4 + beNat ((buf.drop pos).take 4) by omega] at e2
      by_cases hv : (buf.drop pos).length < 4 + beNat ((buf.drop pos).take 4)
      · rw [if_pos hv]
        rw [e2, if_pos hv] at hst
        simp only at hst
        rw [subThen_eq (by simp only [List.length_drop] at hv; omega)] at hst
        rw [asksFor_readBytes (hst _ rfl)]
        simp only [List.length_drop]; congr 1; omega
      · rw [if_neg hv, List.drop_drop]
        rw [e2, if_neg hv] at hst
        simp only at hst
        rw [if_pos (by simp only [List.length_append, List.length_singleton]; omega)] at hst
        rw [feed_next (hst _ rfl)]
        rw [ih _ _ (by omega) (by simp only [List.length_drop] at hv; omega)
          (by simp only [List.length_append, List.length_singleton]; omega)]
        congr 2; omega

/-- The items of a set and those that the specification has counted. -/
def SeenAll (seen : List Bytes) (s : List Bytes) : Prop := seen.length = s.length ∧ ∀ x, x ∈ seen ↔ x ∈ s

theorem SeenAll.insert {seen : List Bytes} {s : BSet} (h : SeenAll seen s) (x : Bytes) :
    SeenAll (oneMore seen x) (s.insert x) := by
  unfold oneMore BSet.insert
  by_cases hx : x ∈ s
  · rw [if_pos ((h.2 x).mpr hx), if_pos hx]; exact h
  · rw [if_neg (fun h' => hx ((h.2 x).mp h')), if_neg hx]
    refine ⟨by simp [h.1], ?_⟩
    intro y
    simp only [List.mem_cons, List.mem_append, h.2 y, List.mem_nil_iff, or_false]
    exact Or.comm

theorem BMap.insert_keys (mp : BMap) (k v : Bytes) :
    (mp.insert k v).map Prod.fst = if k ∈ mp.map Prod.fst then mp.map Prod.fst else mp.map Prod.fst ++ [k] := by
  induction mp with
  | nil => simp [BMap.insert]
  | cons e mp ih =>
    obtain ⟨k', v'⟩ := e
    rw [BMap.insert]
    by_cases hk : k' = k
    · subst hk; simp
    · rw [if_neg hk, List.map_cons, ih]
      by_cases hm : k ∈ mp.map Prod.fst
      · rw [if_pos hm, if_pos (by simp only [List.map_cons]; exact List.mem_cons_of_mem _ hm)]; rfl
      · rw [if_neg hm, if_neg (by simp only [List.map_cons, List.mem_cons, not_or]; exact ⟨fun h => hk h.symm, hm⟩)]
        rfl

theorem SeenAll.insertKey {seen : List Bytes} {mp : BMap} (h : SeenAll seen (mp.map Prod.fst)) (k v : Bytes) :
    SeenAll (oneMore seen k) ((mp.insert k v).map Prod.fst) := by
  rw [BMap.insert_keys]
  exact SeenAll.insert (s := mp.map Prod.fst) h k

theorem set_asks (m : Mode) (buf : Bytes) (hb : 6 < buf.length) (len : Nat) : ∀ (n : Nat) (pos : Nat)
    (args : BSet) (seen : List Bytes), buf.length - pos ≤ n → 6 < pos → pos ≤ buf.length → SeenAll seen args →
    asksFor (RespParser.feed m { idx := pos, stage := .set args len } buf).1 =
      setWants len seen pos (buf.drop pos) := by
  intro n
  induction n using Nat.strongRecOn with
  | ind n ih =>
    intro pos args seen hn hp hl hs
    have e1 := slice_at (a := 0) (b := 2) hl (by omega)
    simp only [Nat.add_zero, List.drop_zero, Nat.sub_zero] at e1
    have hst : ∀ s, stageSet m { idx := pos, stage := .set args len } buf args len = s →
      RespParser.step m { idx := pos, stage := .set args len } buf = s := fun s h => h
    unfold stageSet at hst
    rw [debugAssert_true (by simpa using hp), debugAssert_true (by simpa using hb)] at hst
    simp only at hst
    rw [setWants]
    by_cases h4 : (buf.drop pos).length < 2
    · rw [if_pos h4]
      rw [e1, if_pos h4] at hst
      simp only at hst
      rw [remainingBytes_eq (by omega) (by simp only [List.length_drop] at h4; omega)] at hst
      rw [asksFor_readBytes (hst _ rfl)]
      simp only [List.length_drop]; congr 1; omega
    · rw [if_neg h4]
      rw [e1, if_neg h4] at hst
      simp only at hst ⊢
      have e2 := slice_at (a := 2) (b := 2 + beNat ((buf.drop pos).take 2)) hl (by omega)
      rw [show pos + (2 + beNat ((buf.drop pos).take 2)) = pos + 2 + beNat ((buf.drop pos).take 2) by omega,
        Nat.add_sub_cancel_left] at e2
      by_cases hv : (buf.drop pos).length < 2 + beNat ((buf.drop pos).take 2)
      · rw [if_pos hv]
        rw [e2, if_pos hv] at hst
        simp only at hst
        rw [remainingBytes_eq (by omega) (by simp only [List.length_drop] at hv; omega)] at hst
        rw [asksFor_readBytes (hst _ rfl)]
        simp only [List.length_drop] at hv ⊢; congr 1; omega
      · rw [if_neg hv]
        rw [e2, if_neg hv] at hst
        simp only at hst
        have hs' := SeenAll.insert hs (((buf.drop pos).drop 2).take (beNat ((buf.drop pos).take 2)))
        by_cases hlt : (oneMore seen (((buf.drop pos).drop 2).take (beNat ((buf.drop pos).take 2)))).length < len
        · rw [if_pos hlt]
          rw [if_pos (by rw [← hs'.1]; exact hlt)] at hst
          rw [feed_next (hst _ rfl)]
          simp only [List.length_drop] at hv h4
          rw [ih (buf.length - (pos + 2 + beNat ((buf.drop pos).take 2))) (by omega) _ _ _ (by omega)
            (by omega) (by omega) hs']
          have hdd : (buf.drop pos).drop (2 + beNat ((buf.drop pos).take 2)) =
              buf.drop (pos + 2 + beNat ((buf.drop pos).take 2)) := by
            rw [List.drop_drop]; congr 1; omega
          rw [hdd]
        · rw [if_neg hlt]
          rw [if_neg (by rw [← hs'.1]; exact hlt)] at hst
          exact asksFor_concluded (hst _ rfl)

theorem map_asks (m : Mode) (buf : Bytes) (hb : 6 < buf.length) (len : Nat) : ∀ (n : Nat) (pos : Nat)
    (args : BMap) (seen : List Bytes), buf.length - pos ≤ n → 6 < pos → pos ≤ buf.length →
    SeenAll seen (args.map Prod.fst) →
    asksFor (RespParser.feed m { idx := pos, stage := .map args len } buf).1 =
      mapWants len seen pos (buf.drop pos) := by
  intro n
  induction n using Nat.strongRecOn with
  | ind n ih =>
    intro pos args seen hn hp hl hs
    have e1 := slice_at (a := 0) (b := 1) hl (by omega)
    simp only [Nat.add_zero, List.drop_zero, Nat.sub_zero] at e1
    have hst : ∀ s, stageMap m { idx := pos, stage := .map args len } buf args len = s →
      RespParser.step m { idx := pos, stage := .map args len } buf = s := fun s h => h
    unfold stageMap at hst
    rw [debugAssert_true (by simpa using hp), debugAssert_true (by simpa using hb)] at hst
    simp only at hst
    rw [mapWants]
    by_cases h4 : (buf.drop pos).length < 1
    · rw [if_pos h4]
      rw [e1, if_pos h4] at hst
      simp only at hst
      simp only [List.length_drop] at h4
      rw [remainingBytes_eq (by omega) (by omega)] at hst
      rw [asksFor_readBytes (hst _ rfl)]
      congr 1; omega
    · rw [if_neg h4]
      rw [e1, if_neg h4] at hst
      simp only at hst ⊢
      generalize hk : beNat ((buf.drop pos).take 1) = k at hst ⊢
      have e2 := slice_at (a := 1) (b := 1 + k) hl (by omega)
      rw [show pos + (1 + k) = pos + 1 + k by omega, Nat.add_sub_cancel_left] at e2
      by_cases hv : (buf.drop pos).length < 1 + k
      · rw [if_pos hv]
        rw [e2, if_pos hv] at hst
        simp only at hst
        simp only [List.length_drop] at hv
        rw [remainingBytes_eq (by omega) (by omega)] at hst
        rw [asksFor_readBytes (hst _ rfl)]
        simp only [List.length_drop]; congr 1; omega
      · rw [if_neg hv]
        rw [e2, if_neg hv] at hst
        simp only at hst
        have e3 := slice_at (a := 1 + k) (b := 1 + k + 4) hl (by omega)
        rw [show pos + (1 + k + 4) = pos + 1 + k + 4 by omega, show pos + (1 + k) = pos + 1 + k by omega,
          Nat.add_sub_cancel_left] at e3
        by_cases hz : (buf.drop pos).length < 1 + k + 4
        · rw [if_pos hz]
          rw [e3, if_pos hz] at hst
          simp only at hst
          simp only [List.length_drop] at hv hz
          rw [remainingBytes_eq (by omega) (by omega)] at hst
          rw [asksFor_readBytes (hst _ rfl)]
          simp only [List.length_drop]; congr 1; omega
        · rw [if_neg hz]
          rw [e3, if_neg hz] at hst
          simp only at hst
          generalize hw : beNat (((buf.drop pos).drop (1 + k)).take 4) = w at hst ⊢
          have e4 := slice_at (a := 1 + k + 4) (b := 1 + k + 4 + w) hl (by omega)
          rw [show pos + (1 + k + 4 + w) = pos + 1 + k + 4 + w by omega,
            show pos + (1 + k + 4) = pos + 1 + k + 4 by omega, Nat.add_sub_cancel_left] at e4
          by_cases hy : (buf.drop pos).length < 1 + k + 4 + w
          · rw [if_pos hy]
            rw [e4, if_pos hy] at hst
            simp only at hst
            simp only [List.length_drop] at hv hz hy
            rw [remainingBytes_eq (by omega) (by omega)] at hst
            rw [asksFor_readBytes (hst _ rfl)]
            simp only [List.length_drop]; congr 1; omega
          · rw [if_neg hy]
            rw [e4, if_neg hy] at hst
            simp only at hst
            have hs' := SeenAll.insertKey hs (((buf.drop pos).drop 1).take k)
              (((buf.drop pos).drop (1 + k + 4)).take w)
            have hl' := hs'.1
            rw [List.length_map] at hl'
            by_cases hlt : (oneMore seen (((buf.drop pos).drop 1).take k)).length < len
            · rw [if_pos hlt]
              rw [if_pos (by rw [← hl']; exact hlt)] at hst
              rw [feed_next (hst _ rfl)]
              simp only [List.length_drop] at hv h4 hy
              rw [ih (buf.length - (pos + 1 + k + 4 + w)) (by omega) _ _ _ (by omega)
                (by omega) (by omega) hs']
              have hdd : (buf.drop pos).drop (1 + k + 4 + w) = buf.drop (pos + 1 + k + 4 + w) := by
                rw [List.drop_drop]; congr 1; omega
              rw [hdd]
            · rw [if_neg hlt]
              rw [if_neg (by rw [← hl']; exact hlt)] at hst
              exact asksFor_concluded (hst _ rfl)

theorem count_asks {m : Mode} {kind : ResponseType} {size : Nat} {buf : Bytes} (hs : size ≤ 4)
    (hl : 5 ≤ buf.length) (h : buf.length < 5 + size)
    (hp : (RespParser.feed m { idx := 5, stage := .typeInit kind size } buf).1 ≠ .panic) :
    asksFor (RespParser.feed m { idx := 5, stage := .typeInit kind size } buf).1 =
      some (countWants size buf.length) := by
  have hsl : slice buf 5 (5 + size) = none := by rw [slice_eq_none]; omega
  have hst : RespParser.step m { idx := 5, stage := .typeInit kind size } buf =
      subThen m (size + 1) buf.length .readBytes := by
    simp only [RespParser.step, stageTypeInit]
    rw [debugAssert_true (by simp), hsl]
  by_cases hle : buf.length ≤ size + 1
  · rw [subThen_eq hle] at hst
    rw [asksFor_readBytes hst]
    unfold countWants
    congr 1
    omega
  · cases m with
    | debug =>
      rw [subThen_panic.mpr ⟨rfl, by omega⟩] at hst
      rw [feed_panic hst] at hp
      exact absurd rfl hp
    | release =>
      unfold subThen at hst
      rw [if_neg hle] at hst
      rw [asksFor_readBytes hst]
      unfold countWants
      congr 1
      omega

/-- C177. What a new decoder asks for, whatever has arrived, unless it panics (C51). -/
theorem C177_asks (m : Mode) (buf : Bytes) (hp : (RespParser.feed m Ctx.new buf).1 ≠ .panic) :
    asksFor (RespParser.feed m Ctx.new buf).1 = wants buf := by
  unfold wants
  by_cases h4 : buf.length < 4
  · have hs : slice buf 0 4 = none := by rw [slice_eq_none]; omega
    have : RespParser.step m Ctx.new buf = .readBytes (4 - buf.length) := by
      simp only [RespParser.step, Ctx.new, stageInit]
      rw [debugAssert_true (by simp), hs]
    rw [if_pos h4, asksFor_readBytes this]
  rw [if_neg h4]
  have hs : slice buf 0 4 = some (buf.take 4) := by
    rw [slice_eq_some]; exact ⟨by omega, by omega, by simp⟩
  by_cases hc : buf.length < 4 + beNat (buf.take 4)
  · have : RespParser.step m Ctx.new buf = .readBytes (4 + beNat (buf.take 4) - buf.length) := by
      simp only [RespParser.step, Ctx.new, stageInit]
      rw [debugAssert_true (by simp), hs]
      simp only
      rw [if_pos (by omega)]
    rw [if_pos hc, asksFor_readBytes this]
  rw [if_neg hc]
  have s1 : RespParser.step m Ctx.new buf = .next { idx := 4, stage := .determineType } := by
    simp only [RespParser.step, Ctx.new, stageInit]
    rw [debugAssert_true (by simp), hs]
    simp only
    rw [if_neg (by omega)]
  rw [feed_next s1] at hp ⊢
  clear s1 hs hc
  cases hd : buf.drop 4 with
  | nil =>
    have hb4 : buf[4]? = none := by
      have := congrArg List.length hd
      simp only [List.length_drop, List.length_nil] at this
      exact List.getElem?_eq_none (by omega)
    have : RespParser.step m { idx := 4, stage := .determineType } buf = .readBytes 1 := by
      simp only [RespParser.step, stageDetermineType]
      rw [debugAssert_true (by simp), hb4]
    rw [asksFor_readBytes this]
  | cons t rest =>
    have hb4 : buf[4]? = some t := by
      have := congrArg (fun l => l[0]?) hd
      simpa using this
    have hrest : buf.drop 5 = rest := by
      have := congrArg List.tail hd
      simpa using this
    have hlen : buf.length = 5 + rest.length := by
      have := congrArg List.length hd
      simp only [List.length_drop, List.length_cons] at this
      omega
    simp only
    cases hk : ResponseType.ofByte t with
    | none =>
      have : RespParser.step m { idx := 4, stage := .determineType } buf = .error .responseTypeInvalid := by
        simp only [RespParser.step, stageDetermineType]
        rw [debugAssert_true (by simp), hb4]
        simp only [hk]
      rw [feed_error this]
      have hne : ∀ k : ResponseType, t ≠ k.toByte := by
        intro k h
        rw [(ofByte_responseType t k).mpr h] at hk
        simp at hk
      have h0 : t ≠ 0 := hne .boolean
      have h1 : t ≠ 1 := hne .bytes
      have h2 : t ≠ 2 := hne .float
      have h3 : t ≠ 3 := hne .integer
      have h4 : t ≠ 4 := hne .list
      have h5 : t ≠ 5 := hne .map
      have h6 : t ≠ 6 := hne .set
      have h7 : t ≠ 7 := hne .string
      have h8 : t ≠ 8 := hne .parseError
      have h9 : t ≠ 9 := hne .dispatchError
      simp [bodyWants, asksFor, h0, h1, h2, h3, h4, h5, h6, h7, h8, h9]
    | some k =>
      have s2 : RespParser.step m { idx := 4, stage := .determineType } buf =
          .next { idx := 5, stage := stageOfKind k } := by
        simp only [RespParser.step, stageDetermineType]
        rw [debugAssert_true (by simp), hb4]
        simp only [hk]
      rw [feed_next s2] at hp ⊢
      clear s2
      obtain rfl := (ofByte_responseType t k).mp hk
      have hb5 : buf[5]? = rest[0]? := by rw [← hrest]; simp
      have e8 := slice_at (buf := buf) (pos := 5) (a := 0) (b := 8) (by omega) (by omega)
      have e4 := slice_at (buf := buf) (pos := 5) (a := 0) (b := 4) (by omega) (by omega)
      have e2 := slice_at (buf := buf) (pos := 5) (a := 0) (b := 2) (by omega) (by omega)
      simp only [Nat.add_zero, List.drop_zero, Nat.sub_zero, hrest] at e8 e4 e2
      cases k with
      | boolean =>
        simp only [stageOfKind] at hp ⊢
        cases rest with
        | nil =>
          rw [asksFor_readBytes (n := 1) (by
            simp only [RespParser.step, stageBoolean]; rw [debugAssert_true (by simp), hb5]; rfl)]
          simp [bodyWants, ResponseType.toByte]
        | cons x r =>
          rw [asksFor_concluded (r := .value (.boolean (x != 0))) (by
            simp only [RespParser.step, stageBoolean]; rw [debugAssert_true (by simp), hb5]; rfl)]
          simp [bodyWants, ResponseType.toByte]
      | dispatchError =>
        simp only [stageOfKind] at hp ⊢
        cases rest with
        | nil =>
          rw [asksFor_readBytes (n := 1) (by
            simp only [RespParser.step, stageDispatchError]; rw [debugAssert_true (by simp), hb5]; rfl)]
          simp [bodyWants, ResponseType.toByte]
        | cons x r =>
          cases he : DispatchError.ofByte x with
          | none =>
            rw [feed_panic (by
              simp only [RespParser.step, stageDispatchError]; rw [debugAssert_true (by simp), hb5]
              simp only [List.getElem?_cons_zero, he])] at hp
            exact absurd rfl hp
          | some e =>
            rw [asksFor_concluded (r := .dispatchError e) (by
              simp only [RespParser.step, stageDispatchError]; rw [debugAssert_true (by simp), hb5]
              simp only [List.getElem?_cons_zero, he])]
            simp [bodyWants, ResponseType.toByte]
      | parseError =>
        simp only [stageOfKind] at hp ⊢
        cases rest with
        | nil =>
          rw [asksFor_readBytes (n := 1) (by
            simp only [RespParser.step, stageParseError]; rw [debugAssert_true (by simp), hb5]; rfl)]
          simp [bodyWants, ResponseType.toByte]
        | cons x r =>
          cases he : ReqParseError.ofByte x with
          | none =>
            rw [feed_panic (by
              simp only [RespParser.step, stageParseError]; rw [debugAssert_true (by simp), hb5]
              simp only [List.getElem?_cons_zero, he])] at hp
            exact absurd rfl hp
          | some e =>
            rw [asksFor_concluded (r := .parseError e) (by
              simp only [RespParser.step, stageParseError]; rw [debugAssert_true (by simp), hb5]
              simp only [List.getElem?_cons_zero, he])]
            simp [bodyWants, ResponseType.toByte]
      | float =>
        simp only [stageOfKind] at hp ⊢
        have hw : bodyWants ResponseType.float.toByte rest = if rest.length < 8 then some 1 else none := by
          simp [bodyWants, ResponseType.toByte]
        rw [hw]
        by_cases h8 : rest.length < 8
        · rw [if_pos h8] at e8 ⊢
          rw [asksFor_readBytes (n := 1) (by
            simp only [RespParser.step, stageFloat]; rw [debugAssert_true (by simp), e8])]
        · rw [if_neg h8] at e8 ⊢
          exact asksFor_concluded (by
            simp only [RespParser.step, stageFloat]; rw [debugAssert_true (by simp), e8])
      | integer =>
        simp only [stageOfKind] at hp ⊢
        have hw : bodyWants ResponseType.integer.toByte rest = if rest.length < 8 then some 1 else none := by
          simp [bodyWants, ResponseType.toByte]
        rw [hw]
        by_cases h8 : rest.length < 8
        · rw [if_pos h8] at e8 ⊢
          rw [asksFor_readBytes (n := 1) (by
            simp only [RespParser.step, stageInteger]; rw [debugAssert_true (by simp), e8])]
        · rw [if_neg h8] at e8 ⊢
          exact asksFor_concluded (by
            simp only [RespParser.step, stageInteger]; rw [debugAssert_true (by simp), e8])
      | bytes =>
        simp only [stageOfKind] at hp ⊢
        have hw : bodyWants ResponseType.bytes.toByte rest =
            if rest.length < 4 then some (countWants 4 (5 + rest.length))
            else if rest.length < 4 + beNat (rest.take 4) then some (4 + beNat (rest.take 4) - rest.length)
            else none := by simp [bodyWants, ResponseType.toByte]
        rw [hw]
        by_cases h4' : rest.length < 4
        · rw [if_pos h4', ← hlen]
          exact count_asks (by omega) (by omega) (by omega) hp
        · rw [if_neg h4'] at e4 ⊢
          have s3 : RespParser.step m { idx := 5, stage := .typeInit .bytes 4 } buf =
              .next { idx := 9, stage := .bytes (beNat (rest.take 4)) } := by
            simp only [RespParser.step, stageTypeInit]; rw [debugAssert_true (by simp), e4]
          rw [feed_next s3] at hp ⊢
          generalize beNat (rest.take 4) = n at hp ⊢
          have hst : ∀ s, stageBytes m { idx := 9, stage := .bytes n } buf n = s →
            RespParser.step m { idx := 9, stage := .bytes n } buf = s := fun s h => h
          unfold stageBytes at hst
          rw [debugAssert_true (by simp)] at hst
          have e9 := slice_at (buf := buf) (pos := 5) (a := 4) (b := 4 + n) (by omega) (by omega)
          rw [hrest, show 5 + (4 + n) = 5 + 4 + n by omega] at e9
          unfold debugAssert at hst
          by_cases hz : m = .debug ∧ decide (n ≠ 0) = false
          · rw [if_pos hz] at hst
            rw [feed_panic (hst _ rfl)] at hp
            exact absurd rfl hp
          · rw [if_neg hz] at hst
            simp only at hst
            by_cases hn : rest.length < 4 + n
            · rw [if_pos hn] at e9 ⊢
              rw [e9] at hst
              simp only at hst
              rw [remainingBytes_eq (by omega) (by omega)] at hst
              rw [asksFor_readBytes (hst _ rfl)]
              congr 1; omega
            · rw [if_neg hn] at e9 ⊢
              rw [e9] at hst
              exact asksFor_concluded (hst _ rfl)
      | string =>
        simp only [stageOfKind] at hp ⊢
        have hw : bodyWants ResponseType.string.toByte rest =
            if rest.length < 4 then some (countWants 4 (5 + rest.length))
            else if rest.length < 4 + beNat (rest.take 4) then some (4 + beNat (rest.take 4) - rest.length)
            else none := by simp [bodyWants, ResponseType.toByte]
        rw [hw]
        by_cases h4' : rest.length < 4
        · rw [if_pos h4', ← hlen]
          exact count_asks (by omega) (by omega) (by omega) hp
        · rw [if_neg h4'] at e4 ⊢
          have s3 : RespParser.step m { idx := 5, stage := .typeInit .string 4 } buf =
              if beNat (rest.take 4) = 0 then .concluded (.value (.string []))
              else .next { idx := 9, stage := .string (beNat (rest.take 4)) } := by
            simp only [RespParser.step, stageTypeInit]; rw [debugAssert_true (by simp), e4]
          generalize beNat (rest.take 4) = n at s3 ⊢
          by_cases hz : n = 0
          · rw [if_pos hz] at s3
            rw [asksFor_concluded s3, if_neg (by omega)]
          · rw [if_neg hz] at s3
            rw [feed_next s3]
            have hst : ∀ s, stageString m { idx := 9, stage := .string n } buf n = s →
              RespParser.step m { idx := 9, stage := .string n } buf = s := fun s h => h
            unfold stageString at hst
            rw [debugAssert_true (by simp), debugAssert_true (by simp; omega)] at hst
            simp only at hst
            have e9 := slice_at (buf := buf) (pos := 5) (a := 4) (b := 4 + n) (by omega) (by omega)
            rw [hrest, show 5 + (4 + n) = 5 + 4 + n by omega] at e9
            by_cases hn : rest.length < 4 + n
            · rw [if_pos hn] at e9 ⊢
              rw [e9] at hst
              simp only at hst
              rw [subThen_eq (by omega)] at hst
              rw [asksFor_readBytes (hst _ rfl)]
              congr 1; omega
            · rw [if_neg hn] at e9 ⊢
              rw [e9] at hst
              simp only at hst
              cases hu : fromUtf8 ((rest.drop 4).take (4 + n - 4)) with
              | none =>
                rw [hu] at hst
                rw [feed_error (hst _ rfl)]
                rfl
              | some s =>
                rw [hu] at hst
                exact asksFor_concluded (hst _ rfl)
      | list =>
        simp only [stageOfKind] at hp ⊢
        have hw : bodyWants ResponseType.list.toByte rest =
            if rest.length < 2 then some (countWants 2 (5 + rest.length))
            else listWants (max 1 (beNat (rest.take 2))) (rest.drop 2) := by
          simp [bodyWants, ResponseType.toByte]
        rw [hw]
        by_cases h2 : rest.length < 2
        · rw [if_pos h2, ← hlen]
          exact count_asks (by omega) (by omega) (by omega) hp
        · rw [if_neg h2] at e2 ⊢
          have s3 : RespParser.step m { idx := 5, stage := .typeInit .list 2 } buf =
              .next { idx := 7, stage := .list [] (beNat (rest.take 2)) } := by
            simp only [RespParser.step, stageTypeInit]; rw [debugAssert_true (by simp), e2]
          rw [feed_next s3, list_asks m buf (by omega) _ (max 1 (beNat (rest.take 2)) - 1) 7 [] (by omega)
            (by omega) (by simp only [List.length_nil]; omega), ← hrest, List.drop_drop]
          congr 1
          omega
      | map =>
        simp only [stageOfKind] at hp ⊢
        have hw : bodyWants ResponseType.map.toByte rest =
            if rest.length < 2 then some (countWants 2 (5 + rest.length))
            else if beNat (rest.take 2) = 0 then none
            else mapWants (beNat (rest.take 2)) [] 7 (rest.drop 2) := by
          simp [bodyWants, ResponseType.toByte]
        rw [hw]
        by_cases h2 : rest.length < 2
        · rw [if_pos h2, ← hlen]
          exact count_asks (by omega) (by omega) (by omega) hp
        · rw [if_neg h2] at e2 ⊢
          have s3 : RespParser.step m { idx := 5, stage := .typeInit .map 2 } buf =
              if beNat (rest.take 2) = 0 then .concluded (.value (.map []))
              else .next { idx := 7, stage := .map [] (beNat (rest.take 2)) } := by
            simp only [RespParser.step, stageTypeInit]; rw [debugAssert_true (by simp), e2]
          by_cases hz : beNat (rest.take 2) = 0
          · rw [if_pos hz] at s3 ⊢
            exact asksFor_concluded s3
          · rw [if_neg hz] at s3 ⊢
            rw [feed_next s3, map_asks m buf (by omega) _ _ 7 [] [] (Nat.le_refl _) (by omega) (by omega)
              ⟨rfl, fun x => Iff.rfl⟩]
            congr 1
            rw [← hrest, List.drop_drop]
      | set =>
        simp only [stageOfKind] at hp ⊢
        have hw : bodyWants ResponseType.set.toByte rest =
            if rest.length < 2 then some (countWants 2 (5 + rest.length))
            else setWants (beNat (rest.take 2)) [] 7 (rest.drop 2) := by
          simp [bodyWants, ResponseType.toByte]
        rw [hw]
        by_cases h2 : rest.length < 2
        · rw [if_pos h2, ← hlen]
          exact count_asks (by omega) (by omega) (by omega) hp
        · rw [if_neg h2] at e2 ⊢
          have s3 : RespParser.step m { idx := 5, stage := .typeInit .set 2 } buf =
              .next { idx := 7, stage := .set [] (beNat (rest.take 2)) } := by
            simp only [RespParser.step, stageTypeInit]; rw [debugAssert_true (by simp), e2]
          rw [feed_next s3, set_asks m buf (by omega) _ _ 7 [] [] (Nat.le_refl _) (by omega) (by omega)
            ⟨rfl, fun x => Iff.rfl⟩]
          congr 1
          rw [← hrest, List.drop_drop]

/-- Likewise along any chunking of the bytes. -/
theorem C177_asks_chunked {m : Mode} {buf : Bytes} {c : Ctx} (h : Asking m buf c) (ext : Bytes)
    (hp : (RespParser.feed m c (buf ++ ext)).1 ≠ .panic) :
    asksFor (RespParser.feed m c (buf ++ ext)).1 = wants (buf ++ ext) := by
  rw [C13_chunks h ext] at hp ⊢
  exact C177_asks m (buf ++ ext) hp

example : asksFor (RespParser.feed .release Ctx.new [0, 0, 0, 2, 4, 0]).1 = some (2 ^ 64 - 3) ∧
    asksFor (RespParser.feed .release Ctx.new [0, 0, 0, 4, 5, 0, 1, 3]).1 = some 11 := by
  refine ⟨?_, ?_⟩
  · rw [C177_asks _ _ (C15_release_partial _ (by decide) (by decide))]; decide +kernel
  · rw [C177_asks _ _ (C15_release_partial _ (by decide) (by decide))]
    simp [wants, bodyWants, mapWants, beNat]

/-! ## Frames that have not arrived -/

theorem wants_incomplete {buf : Bytes} (h : buf.length < 4 ∨ buf.length < 4 + beNat (buf.take 4)) :
    wants buf = some (if buf.length < 4 then 4 - buf.length else 4 + beNat (buf.take 4) - buf.length) := by
  unfold wants
  split
  · rfl
  · rw [if_pos (by omega)]

/-- C177 for bytes that do not yet hold the announced frame: the decoder asks for what the header or the frame
lacks. -/
theorem C177_incomplete (m : Mode) (buf : Bytes) (h : buf.length < 4 ∨ buf.length < 4 + beNat (buf.take 4)) :
    (RespParser.feed m Ctx.new buf).1 =
      .readBytes (if buf.length < 4 then 4 - buf.length else 4 + beNat (buf.take 4) - buf.length) := by
  have hp : (RespParser.feed m Ctx.new buf).1 ≠ .panic := by
    intro h'
    have := (C51_panic_iff m buf).mp h'
    omega
  have := C177_asks m buf hp
  rw [wants_incomplete h] at this
  generalize (RespParser.feed m Ctx.new buf).1 = f at this
  cases f <;> simp [asksFor] at this
  rw [this]

/-- C177 for the frames of responses: when some but not all bytes of a frame have arrived, the decoder asks for
what its header lacks, and when it has the header, for the rest of the frame. -/
theorem C177_frame (m : Mode) (r : Response) (got missing : Bytes) (hf : Fits m r) (he : got ++ missing = frame r)
    (hm : missing ≠ []) :
    (RespParser.feed m Ctx.new got).1 =
      .readBytes (if got.length < 4 then 4 - got.length else missing.length) := by
  have hb := fits_body hf
  have hlen := congrArg List.length he
  simp only [frame, List.length_append, beBytes_length] at hlen
  have hpos : 0 < missing.length := by cases missing <;> simp_all
  by_cases h4 : got.length < 4
  · rw [C177_incomplete m got (Or.inl h4), if_pos h4, if_pos h4]
  · have ht : got.take 4 = beBytes 4 (body r).length := by
      have h1 := congrArg (List.take 4) he
      rw [List.take_append_of_le_length (by omega), frame, List.take_append_of_le_length (by simp),
        List.take_of_length_le (l := beBytes 4 _) (by simp)] at h1
      exact h1
    have hn : beNat (got.take 4) = (body r).length := by rw [ht, beNat_beBytes_of_lt (by omega)]
    rw [C177_incomplete m got (Or.inr (by omega)), if_neg h4, if_neg h4, hn]
    congr 1
    omega

example : (RespParser.feed .debug Ctx.new [0, 0, 0, 2, 0]).1 = .readBytes 1 :=
  C177_frame .debug (.value (.boolean true)) [0, 0, 0, 2, 0] [1] trivial (by decide) (by simp)

/-! ## C178 Asking for nothing -/

theorem listWants_pos : ∀ (n : Nat) (rest : Bytes), listWants n rest ≠ some 0 := by
  intro n
  induction n with
  | zero => intro rest; simp [listWants]
  | succ n ih =>
    intro rest
    rw [listWants]
    split
    · simp; omega
    · split
      · simp; omega
      · exact ih _

theorem setWants_pos (len : Nat) : ∀ (n : Nat) (seen : List Bytes) (pos : Nat) (rest : Bytes), rest.length ≤ n →
    setWants len seen pos rest ≠ some 0 := by
  intro n
  induction n using Nat.strongRecOn with
  | ind n ih =>
    intro seen pos rest hn
    rw [setWants]
    split
    · simp; omega
    · simp only
      split
      · simp
      · split
        · exact ih (rest.drop (2 + beNat (rest.take 2))).length (by simp only [List.length_drop]; omega) _ _ _
            (Nat.le_refl _)
        · simp

theorem mapWants_pos (len : Nat) : ∀ (n : Nat) (seen : List Bytes) (pos : Nat) (rest : Bytes), rest.length ≤ n →
    mapWants len seen pos rest ≠ some 0 := by
  intro n
  induction n using Nat.strongRecOn with
  | ind n ih =>
    intro seen pos rest hn
    rw [mapWants]
    split
    · simp
    · simp only
      split
      · simp
      · split
        · simp; omega
        · split
          · simp
          · split
            · exact ih _ (by rw [List.length_drop]; omega) _ _ _ (Nat.le_refl _)
            · simp

/-- C178. The decoder asks for nothing, and so does not get any further, exactly if it is given a frame of bytes
or of a string that ends after its type. -/
theorem C178_asks_for_nothing (m : Mode) (buf : Bytes) :
    (RespParser.feed m Ctx.new buf).1 = .readBytes 0 ↔
      buf.length = 5 ∧ beNat (buf.take 4) ≤ 1 ∧ (buf[4]? = some 1 ∨ buf[4]? = some 7) := by
  by_cases hp : (RespParser.feed m Ctx.new buf).1 = .panic
  · rw [hp]
    refine ⟨by simp, ?_⟩
    rintro ⟨h5, -, ht⟩
    rcases ((C51_panic_iff m buf).mp hp).2.2 with (⟨h, -⟩ | ⟨h, -⟩) | ⟨-, (⟨-, h, -⟩ | ⟨h, -⟩ | ⟨-, h, -⟩)⟩
    · rw [h] at ht; simp at ht
    · rw [h] at ht; simp at ht
    · omega
    · rcases h with h | h | h <;> rw [h] at ht <;> simp at ht
    · omega
  have hw : (RespParser.feed m Ctx.new buf).1 = .readBytes 0 ↔ wants buf = some 0 := by
    rw [← C177_asks m buf hp]
    generalize (RespParser.feed m Ctx.new buf).1 = f
    cases f <;> simp [asksFor]
  rw [hw]
  unfold wants
  by_cases h4 : buf.length < 4
  · rw [if_pos h4]; simp; omega
  rw [if_neg h4]
  by_cases hc : buf.length < 4 + beNat (buf.take 4)
  · rw [if_pos hc]; simp; omega
  rw [if_neg hc]
  cases hd : buf.drop 4 with
  | nil =>
    have := congrArg List.length hd
    simp only [List.length_drop, List.length_nil] at this
    simp; omega
  | cons t rest =>
    have hb4 : buf[4]? = some t := by
      have := congrArg (fun l => l[0]?) hd
      simpa using this
    have hlen : buf.length = 5 + rest.length := by
      have := congrArg List.length hd
      simp only [List.length_drop, List.length_cons] at this
      omega
    simp only [hb4, Option.some.injEq]
    unfold bodyWants
    by_cases h0 : t = 0 ∨ t = 8 ∨ t = 9
    · rw [if_pos h0]
      have : ¬ (t = 1 ∨ t = 7) := by rcases h0 with rfl | rfl | rfl <;> decide
      split <;> simp [this]
    rw [if_neg h0]
    by_cases h2 : t = 2 ∨ t = 3
    · rw [if_pos h2]
      have : ¬ (t = 1 ∨ t = 7) := by rcases h2 with rfl | rfl <;> decide
      split <;> simp [this]
    rw [if_neg h2]
    by_cases h1 : t = 1 ∨ t = 7
    · rw [if_pos h1]
      simp only [h1, and_true]
      split
      · simp only [countWants, Option.some.injEq]; omega
      · split
        · simp; omega
        · simp; omega
    rw [if_neg h1]
    simp only [h1, and_false, iff_false]
    split
    · split
      · simp only [countWants, Option.some.injEq]; omega
      · split
        · exact listWants_pos _ _
        · split
          · split
            · simp
            · exact mapWants_pos _ _ _ _ _ (Nat.le_refl _)
          · exact setWants_pos _ _ _ _ _ (Nat.le_refl _)
    · simp

example : (RespParser.feed .debug Ctx.new [0, 0, 0, 1, 7]).1 = .readBytes 0 :=
  (C178_asks_for_nothing _ _).mpr ⟨by decide, by decide, by decide⟩

/-! ## C179 Asking for no more than is lacking -/

/-- C179 as one would want it: the decoder could not do with fewer bytes than it asks for. -/
def C179_Statement : Prop := ∀ (m : Mode) (buf : Bytes) (n : Nat),
  (RespParser.feed m Ctx.new buf).1 = .readBytes n → ∀ ext : Bytes, ext.length < n →
    ∃ k, (RespParser.feed m Ctx.new (buf ++ ext)).1 = .readBytes k

theorem C179_false : ¬ C179_Statement := by
  intro h
  obtain ⟨k, hk⟩ := h .debug [0, 0, 0, 4, 5, 0, 1, 3] 11 (by decide +kernel) [1, 2, 3, 0, 0, 0, 0] (by decide)
  have : (RespParser.feed .debug Ctx.new ([0, 0, 0, 4, 5, 0, 1, 3] ++ [1, 2, 3, 0, 0, 0, 0])).1 =
      .concluded (.value (.map [([1, 2, 3], [])])) := by decide +kernel
  rw [this] at hk
  simp at hk

/-- What is left of C179 (missing: frames that are longer than their header announces; see C177 for what is
asked for within those). Up to the announced end of the frame the decoder asks for no more than it needs. -/
theorem C179_announced_partial (m : Mode) (buf : Bytes) (n : Nat)
    (hinc : buf.length < 4 ∨ buf.length < 4 + beNat (buf.take 4))
    (hn : (RespParser.feed m Ctx.new buf).1 = .readBytes n) (ext : Bytes) (he : ext.length < n) :
    ∃ k, (RespParser.feed m Ctx.new (buf ++ ext)).1 = .readBytes k := by
  rw [C177_incomplete m buf hinc] at hn
  simp only [Fed.readBytes.injEq] at hn
  refine ⟨_, C177_incomplete m (buf ++ ext) ?_⟩
  rw [List.length_append]
  by_cases h4 : buf.length < 4
  · rw [if_pos h4] at hn; omega
  · rw [if_neg h4] at hn
    rw [List.take_append_of_le_length (by omega)]
    omega

example : ∃ k, (RespParser.feed .release Ctx.new ([0, 0, 0, 4, 5] ++ [0, 1])).1 = .readBytes k :=
  C179_announced_partial .release _ 3 (by decide) (by decide +kernel) [0, 1] (by decide)

/-! ## Further concrete cases -/

/-- A text that arrives in two pieces, the second of which ends within it. -/
example : ∃ c, Asking .release [0, 0, 0, 7] c ∧ asksFor (RespParser.feed .release c ([0, 0, 0, 7] ++ [7, 0, 0, 0, 2, 97])).1 = some 1 := by
  have h : Asking .release [0, 0, 0, 7] (RespParser.feed .release Ctx.new [0, 0, 0, 7]).2 :=
    Asking.more (buf := []) (ext := [0, 0, 0, 7]) (n := 7) .start (by decide +kernel)
  refine ⟨_, h, ?_⟩
  rw [C177_asks_chunked h [7, 0, 0, 0, 2, 97] ?_]
  · decide +kernel
  · intro hp
    have := ((C51_panic_chunked h [7, 0, 0, 0, 2, 97]).mp hp).2.1
    exact absurd this (by decide)

/-- Half a header. -/
example (m : Mode) : (RespParser.feed m Ctx.new [0, 0]).1 = .readBytes 2 := C177_incomplete m [0, 0] (.inl (by decide))

end Hop
