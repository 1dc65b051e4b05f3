import Verif.Lemmas.RespParser

/-! Which responses the decoder can produce at all, and when it panics. -/

namespace Hop.RespParser

open Spec

/-- Values that some buffer decodes to. -/
def Decodable (m : Mode) : Value → Prop
  | .bytes b => m = .debug → b ≠ []
  | .list l => l ≠ [] ∧ l.length < 2 ^ 16
  | .map mp => (mp.map Prod.fst).Nodup ∧ mp.length < 2 ^ 16 ∧ ∀ e ∈ mp, e.1.length < 2 ^ 8
  | .set s => s.Nodup ∧ s ≠ [] ∧ s.length < 2 ^ 16 ∧ ∀ i ∈ s, i.length < 2 ^ 16
  | _ => True

/-- What the decoder keeps true of its stage. -/
def GoodStage : Stage → Prop
  | .typeInit k n => (k = .list ∨ k = .map ∨ k = .set) → n = 2
  | .list args len => len < 2 ^ 16 ∧ (args = [] ∨ args.length < len)
  | .map mp len => len < 2 ^ 16 ∧ (mp = [] ∨ mp.length < len) ∧ (mp.map Prod.fst).Nodup ∧
      ∀ e ∈ mp, e.1.length < 2 ^ 8
  | .set s len => len < 2 ^ 16 ∧ (s = [] ∨ s.length < len) ∧ s.Nodup ∧ ∀ i ∈ s, i.length < 2 ^ 16
  | _ => True

def GoodResponse (m : Mode) : Response → Prop
  | .value v => Decodable m v
  | _ => True

theorem debugAssert_concluded {m : Mode} {p : Bool} {k : Step} {r : Response} :
    debugAssert m p k = .concluded r ↔ (m = .debug → p = true) ∧ k = .concluded r := by
  unfold debugAssert
  split
  · rename_i h; simp [h.1, h.2]
  · rename_i h
    cases m <;> cases p <;> simp_all

theorem remainingBytes_ne_concluded (m : Mode) (a b d : Nat) (r : Response) :
    remainingBytes m a b d ≠ .concluded r := by
  simp [remainingBytes, debugAssert_concluded]

theorem subThen_ne_concluded (m : Mode) (a b : Nat) (r : Response) :
    subThen m a b .readBytes ≠ .concluded r := by
  unfold subThen
  split
  · simp
  · cases m <;> simp

theorem BMap.mem_insert {mp : BMap} {k v : Bytes} {e : Bytes × Bytes} (h : e ∈ mp.insert k v) :
    e = (k, v) ∨ e ∈ mp := by
  induction mp with
  | nil => simpa [BMap.insert] using h
  | cons x xs ih =>
    obtain ⟨k', v'⟩ := x
    simp only [BMap.insert] at h
    split at h
    · rcases List.mem_cons.mp h with h | h
      · exact Or.inl h
      · exact Or.inr (List.mem_cons_of_mem _ h)
    · rcases List.mem_cons.mp h with h | h
      · exact Or.inr (by rw [h]; exact List.mem_cons_self)
      · rcases ih h with h | h
        · exact Or.inl h
        · exact Or.inr (List.mem_cons_of_mem _ h)

theorem BMap.insert_length_le (mp : BMap) (k v : Bytes) : (mp.insert k v).length ≤ mp.length + 1 := by
  induction mp with
  | nil => simp [BMap.insert]
  | cons x xs ih =>
    obtain ⟨k', v'⟩ := x
    simp only [BMap.insert]
    split <;> simp
    omega

theorem BSet.insert_length_le (s : BSet) (k : Bytes) : (s.insert k).length ≤ s.length + 1 := by
  unfold BSet.insert; split <;> simp

theorem BSet.insert_ne_nil (s : BSet) (k : Bytes) : s.insert k ≠ [] := by
  unfold BSet.insert
  split
  · rintro rfl; simp at *
  · simp

theorem GoodStage.step {m : Mode} {c : Ctx} {buf : Bytes} (hg : GoodStage c.stage) :
    (∀ c', step m c buf = .next c' → GoodStage c'.stage) ∧
    (∀ r, step m c buf = .concluded r → GoodResponse m r) := by
  obtain ⟨idx, stage⟩ := c
  cases stage with
  | init =>
    simp only [RespParser.step, stageInit, debugAssert_next, debugAssert_concluded]
    constructor
    · rintro c' ⟨-, h⟩
      repeat' split at h
      all_goals first | (simp at h; done) | skip
      simp only [Step.next.injEq] at h
      subst h; trivial
    · rintro r ⟨-, h⟩
      repeat' split at h
      all_goals simp at h
  | determineType =>
    simp only [RespParser.step, stageDetermineType, debugAssert_next, debugAssert_concluded]
    constructor
    · rintro c' ⟨-, h⟩
      repeat' split at h
      all_goals first | (simp at h; done) | skip
      simp only [Step.next.injEq] at h
      subst h
      rename_i kind _
      cases kind <;> simp [GoodStage, stageOfKind]
    · rintro r ⟨-, h⟩
      repeat' split at h
      all_goals simp at h
  | typeInit kind n =>
    simp only [RespParser.step, stageTypeInit, debugAssert_next, debugAssert_concluded]
    have hlt : ∀ b, slice buf idx (idx + n) = some b → n = 2 → beNat b < 2 ^ 16 := by
      intro b hb hn
      have h1 := beNat_lt b
      have h2 := slice_length hb
      rw [h2, hn] at h1
      rw [show idx + 2 - idx = 2 by omega] at h1
      exact h1
    constructor
    · rintro c' ⟨-, h⟩
      split at h
      · exact absurd h (subThen_ne_next _ _ _ _)
      · rename_i b hb
        cases kind <;> simp only at h <;> repeat' split at h
        all_goals first | (simp at h; done) | skip
        all_goals
          simp only [Step.next.injEq] at h
          subst h
          simp [GoodStage] at hg ⊢
          try exact hlt b hb hg
    · rintro r ⟨-, h⟩
      split at h
      · exact absurd h (subThen_ne_concluded _ _ _ _)
      · cases kind <;> simp only at h <;> repeat' split at h
        all_goals first | (simp at h; done) | skip
        all_goals
          simp only [Step.concluded.injEq] at h
          subst h
          simp [GoodResponse, Decodable]
  | boolean =>
    simp only [RespParser.step, stageBoolean, debugAssert_next, debugAssert_concluded]
    constructor
    · rintro c' ⟨-, h⟩
      split at h <;> simp at h
    · rintro r ⟨-, h⟩
      split at h <;> simp at h
      subst h; trivial
  | bytes n =>
    simp only [RespParser.step, stageBytes, debugAssert_next, debugAssert_concluded]
    constructor
    · rintro c' ⟨-, -, h⟩
      split at h
      · simp at h
      · exact absurd h (remainingBytes_ne_next _ _ _ _ _)
    · rintro r ⟨-, hz, h⟩
      split at h
      · rename_i b hb
        simp only [Step.concluded.injEq] at h
        subst h
        intro hm
        have h1 := hz hm
        have h2 := slice_length hb
        intro h0
        subst h0
        simp at h1 h2
        omega
      · exact absurd h (remainingBytes_ne_concluded _ _ _ _ _)
  | float =>
    simp only [RespParser.step, stageFloat, debugAssert_next, debugAssert_concluded]
    constructor
    · rintro c' ⟨-, h⟩
      split at h <;> simp at h
    · rintro r ⟨-, h⟩
      split at h <;> simp at h
      subst h; trivial
  | integer =>
    simp only [RespParser.step, stageInteger, debugAssert_next, debugAssert_concluded]
    constructor
    · rintro c' ⟨-, h⟩
      split at h <;> simp at h
    · rintro r ⟨-, h⟩
      split at h <;> simp at h
      subst h; trivial
  | dispatchError =>
    simp only [RespParser.step, stageDispatchError, debugAssert_next, debugAssert_concluded]
    constructor
    · rintro c' ⟨-, h⟩
      repeat' split at h
      all_goals simp at h
    · rintro r ⟨-, h⟩
      repeat' split at h
      all_goals simp at h
      subst h; trivial
  | parseError =>
    simp only [RespParser.step, stageParseError, debugAssert_next, debugAssert_concluded]
    constructor
    · rintro c' ⟨-, h⟩
      repeat' split at h
      all_goals simp at h
    · rintro r ⟨-, h⟩
      repeat' split at h
      all_goals simp at h
      subst h; trivial
  | string n =>
    simp only [RespParser.step, stageString, debugAssert_next, debugAssert_concluded]
    constructor
    · rintro c' ⟨-, -, h⟩
      split at h
      · exact absurd h (subThen_ne_next _ _ _ _)
      · split at h <;> simp at h
    · rintro r ⟨-, -, h⟩
      split at h
      · exact absurd h (subThen_ne_concluded _ _ _ _)
      · split at h <;> simp at h
        subst h; trivial
  | list args n =>
    simp only [RespParser.step, stageList, debugAssert_next, debugAssert_concluded]
    simp only [GoodStage] at hg
    constructor
    · rintro c' ⟨-, -, h⟩
      split at h
      · exact absurd h (remainingBytes_ne_next _ _ _ _ _)
      · split at h
        · exact absurd h (subThen_ne_next _ _ _ _)
        · split at h
          · rename_i hlt
            simp only [Step.next.injEq] at h
            subst h
            exact ⟨hg.1, Or.inr hlt⟩
          · simp at h
    · rintro r ⟨-, -, h⟩
      split at h
      · exact absurd h (remainingBytes_ne_concluded _ _ _ _ _)
      · split at h
        · exact absurd h (subThen_ne_concluded _ _ _ _)
        · split at h
          · simp at h
          · simp only [Step.concluded.injEq] at h
            subst h
            refine ⟨by simp, ?_⟩
            rcases hg.2 with rfl | h2
            · simp
            · simp; omega
  | set args n =>
    simp only [RespParser.step, stageSet, debugAssert_next, debugAssert_concluded]
    simp only [GoodStage] at hg
    have hitem : ∀ b x, slice buf idx (idx + 2) = some b →
        slice buf (idx + 2) (idx + 2 + beNat b) = some x → x.length < 2 ^ 16 := by
      intro b x hb hx
      have h1 := beNat_lt b
      have h2 := slice_length hb
      have h3 := slice_length hx
      rw [h2, show idx + 2 - idx = 2 by omega] at h1
      omega
    constructor
    · rintro c' ⟨-, -, h⟩
      split at h
      · exact absurd h (remainingBytes_ne_next _ _ _ _ _)
      · rename_i b hb
        split at h
        · exact absurd h (remainingBytes_ne_next _ _ _ _ _)
        · rename_i x hx
          split at h
          · rename_i hlt
            simp only [Step.next.injEq] at h
            subst h
            refine ⟨hg.1, Or.inr hlt, BSet.nodup_insert hg.2.2.1 _, ?_⟩
            intro i hi
            rcases (BSet.mem_insert _ _ _).mp hi with rfl | hi
            · exact hitem b _ hb hx
            · exact hg.2.2.2 i hi
          · simp at h
    · rintro r ⟨-, -, h⟩
      split at h
      · exact absurd h (remainingBytes_ne_concluded _ _ _ _ _)
      · rename_i b hb
        split at h
        · exact absurd h (remainingBytes_ne_concluded _ _ _ _ _)
        · rename_i x hx
          split at h
          · simp at h
          · simp only [Step.concluded.injEq] at h
            subst h
            refine ⟨BSet.nodup_insert hg.2.2.1 _, BSet.insert_ne_nil _ _, ?_, ?_⟩
            · have := BSet.insert_length_le args x
              rcases hg.2.1 with rfl | h2
              · simp at this; omega
              · omega
            · intro i hi
              rcases (BSet.mem_insert _ _ _).mp hi with rfl | hi
              · exact hitem b _ hb hx
              · exact hg.2.2.2 i hi
  | map mp n =>
    simp only [RespParser.step, stageMap, debugAssert_next, debugAssert_concluded]
    simp only [GoodStage] at hg
    have hitem : ∀ b x, slice buf idx (idx + 1) = some b →
        slice buf (idx + 1) (idx + 1 + beNat b) = some x → x.length < 2 ^ 8 := by
      intro b x hb hx
      have h1 := beNat_lt b
      have h2 := slice_length hb
      have h3 := slice_length hx
      rw [h2, show idx + 1 - idx = 1 by omega] at h1
      omega
    constructor
    · rintro c' ⟨-, -, h⟩
      split at h
      · exact absurd h (remainingBytes_ne_next _ _ _ _ _)
      · rename_i b hb
        split at h
        · exact absurd h (remainingBytes_ne_next _ _ _ _ _)
        · rename_i x hx
          split at h
          · exact absurd h (remainingBytes_ne_next _ _ _ _ _)
          · split at h
            · exact absurd h (remainingBytes_ne_next _ _ _ _ _)
            · split at h
              · rename_i hlt
                simp only [Step.next.injEq] at h
                subst h
                refine ⟨hg.1, Or.inr hlt, BMap.nodup_insert hg.2.2.1 _ _, ?_⟩
                intro i hi
                rcases BMap.mem_insert hi with rfl | hi
                · exact hitem b _ hb hx
                · exact hg.2.2.2 i hi
              · simp at h
    · rintro r ⟨-, -, h⟩
      split at h
      · exact absurd h (remainingBytes_ne_concluded _ _ _ _ _)
      · rename_i b hb
        split at h
        · exact absurd h (remainingBytes_ne_concluded _ _ _ _ _)
        · rename_i x hx
          split at h
          · exact absurd h (remainingBytes_ne_concluded _ _ _ _ _)
          · split at h
            · exact absurd h (remainingBytes_ne_concluded _ _ _ _ _)
            · rename_i v hv
              split at h
              · simp at h
              · simp only [Step.concluded.injEq] at h
                subst h
                refine ⟨BMap.nodup_insert hg.2.2.1 _ _, ?_, ?_⟩
                · have := BMap.insert_length_le mp x v
                  rcases hg.2.1 with rfl | h2
                  · simp at this; omega
                  · omega
                · intro i hi
                  rcases BMap.mem_insert hi with rfl | hi
                  · exact hitem b _ hb hx
                  · exact hg.2.2.2 i hi

theorem GoodStage.feed {m : Mode} {c : Ctx} {buf : Bytes} (hg : GoodStage c.stage) :
    GoodStage (RespParser.feed m c buf).2.stage ∧
    ∀ r, (RespParser.feed m c buf).1 = .concluded r → GoodResponse m r := by
  revert hg
  refine feed_induct (P := fun c r => GoodStage c.stage → GoodStage r.2.stage ∧
    ∀ q, r.1 = .concluded q → GoodResponse m q) m buf ?_ ?_ c
  · intro c c' hs ih hg
    exact ih (hg.step.1 c' hs)
  · intro c hs hg
    cases hst : RespParser.step m c buf with
    | next c1 => exact absurd hst (hs c1)
    | concluded r =>
      rw [feed_concluded hst]
      refine ⟨trivial, ?_⟩
      intro q hq
      simp only [Fed.concluded.injEq] at hq
      subst hq
      exact hg.step.2 _ hst
    | readBytes _ => rw [feed_readBytes hst]; exact ⟨hg, by simp⟩
    | error _ => rw [feed_error hst]; exact ⟨hg, by simp⟩
    | panic => rw [feed_panic hst]; exact ⟨hg, by simp⟩

/-! ## Panics -/

theorem debugAssert_panic {m : Mode} {p : Bool} {k : Step} :
    debugAssert m p k = .panic ↔ (m = .debug ∧ p = false) ∨ k = .panic := by
  unfold debugAssert
  split
  · rename_i h; simp [h.1, h.2]
  · rename_i h; simp [h]

theorem remainingBytes_panic {m : Mode} {a b d : Nat} (ha : 0 < a) (hb : b ≤ a + d) :
    remainingBytes m a b d ≠ .panic := by
  unfold remainingBytes
  rw [debugAssert_true (by simpa using ha), debugAssert_true (by simpa using hb)]
  simp

theorem subThen_panic {m : Mode} {a b : Nat} :
    subThen m a b .readBytes = .panic ↔ m = .debug ∧ a < b := by
  unfold subThen
  split
  · simp; omega
  · cases m <;> simp; omega

theorem slice_none_lt {buf : Bytes} {a b : Nat} (h : slice buf a b = none) (hab : a ≤ b) : buf.length < b := by
  rw [slice_eq_none] at h
  omega

/-- Inside a list, map or set, past the count field, nothing panics. -/
theorem collection_no_panic (m : Mode) (buf : Bytes) (c : Ctx) (hb : 6 < buf.length) :
    6 < c.idx → (∃ a n, c.stage = .list a n) ∨ (∃ a n, c.stage = .map a n) ∨ (∃ a n, c.stage = .set a n) →
    (RespParser.feed m c buf).1 ≠ .panic := by
  refine feed_induct (P := fun c r => 6 < c.idx → (∃ a n, c.stage = .list a n) ∨
    (∃ a n, c.stage = .map a n) ∨ (∃ a n, c.stage = .set a n) → r.1 ≠ .panic) m buf ?_ ?_ c
  · intro c c' hs ih hidx hst
    have : 6 < c'.idx ∧ ((∃ a n, c'.stage = .list a n) ∨ (∃ a n, c'.stage = .map a n) ∨
        (∃ a n, c'.stage = .set a n)) := by
      obtain ⟨idx, stage⟩ := c
      simp only at hidx hst
      rcases hst with ⟨a, n, rfl⟩ | ⟨a, n, rfl⟩ | ⟨a, n, rfl⟩
      · simp only [RespParser.step, stageList, debugAssert_next] at hs
        have h := hs.2.2
        split at h
        · exact absurd h (remainingBytes_ne_next _ _ _ _ _)
        · split at h
          · exact absurd h (subThen_ne_next _ _ _ _)
          · split at h
            · simp only [Step.next.injEq] at h
              subst h
              exact ⟨by simp only; omega, Or.inl ⟨_, _, rfl⟩⟩
            · simp at h
      · simp only [RespParser.step, stageMap, debugAssert_next] at hs
        have h := hs.2.2
        split at h
        · exact absurd h (remainingBytes_ne_next _ _ _ _ _)
        · split at h
          · exact absurd h (remainingBytes_ne_next _ _ _ _ _)
          · split at h
            · exact absurd h (remainingBytes_ne_next _ _ _ _ _)
            · split at h
              · exact absurd h (remainingBytes_ne_next _ _ _ _ _)
              · split at h
                · simp only [Step.next.injEq] at h
                  subst h
                  exact ⟨by simp only; omega, Or.inr (Or.inl ⟨_, _, rfl⟩)⟩
                · simp at h
      · simp only [RespParser.step, stageSet, debugAssert_next] at hs
        have h := hs.2.2
        split at h
        · exact absurd h (remainingBytes_ne_next _ _ _ _ _)
        · split at h
          · exact absurd h (remainingBytes_ne_next _ _ _ _ _)
          · split at h
            · simp only [Step.next.injEq] at h
              subst h
              exact ⟨by simp only; omega, Or.inr (Or.inr ⟨_, _, rfl⟩)⟩
            · simp at h
    exact ih this.1 this.2
  · intro c hs hidx hst
    cases hst2 : RespParser.step m c buf with
    | next c1 => exact absurd hst2 (hs c1)
    | concluded r => rw [feed_concluded hst2]; simp
    | readBytes _ => rw [feed_readBytes hst2]; simp
    | error _ => rw [feed_error hst2]; simp
    | panic =>
      exfalso
      obtain ⟨idx, stage⟩ := c
      simp only at hidx hst
      rcases hst with ⟨a, n, rfl⟩ | ⟨a, n, rfl⟩ | ⟨a, n, rfl⟩
      · simp only [RespParser.step, stageList] at hst2
        rw [debugAssert_true (by simpa using hidx), debugAssert_true (by simpa using hb)] at hst2
        split at hst2
        · rename_i hn
          exact remainingBytes_panic (by omega) (by have := slice_none_lt hn (by omega); omega) hst2
        · split at hst2
          · rename_i hn
            have := slice_none_lt hn (by omega)
            have := subThen_panic.mp hst2
            omega
          · split at hst2 <;> simp at hst2
      · simp only [RespParser.step, stageMap] at hst2
        rw [debugAssert_true (by simpa using hidx), debugAssert_true (by simpa using hb)] at hst2
        split at hst2
        · rename_i hn
          exact remainingBytes_panic (by omega) (by have := slice_none_lt hn (by omega); omega) hst2
        · split at hst2
          · rename_i hn
            exact remainingBytes_panic (by omega) (by have := slice_none_lt hn (by omega); omega) hst2
          · split at hst2
            · rename_i hn
              exact remainingBytes_panic (by omega) (by have := slice_none_lt hn (by omega); omega) hst2
            · split at hst2
              · rename_i hn
                exact remainingBytes_panic (by omega) (by have := slice_none_lt hn (by omega); omega) hst2
              · split at hst2 <;> simp at hst2
      · simp only [RespParser.step, stageSet] at hst2
        rw [debugAssert_true (by simpa using hidx), debugAssert_true (by simpa using hb)] at hst2
        split at hst2
        · rename_i hn
          exact remainingBytes_panic (by omega) (by have := slice_none_lt hn (by omega); omega) hst2
        · split at hst2
          · rename_i hn
            exact remainingBytes_panic (by omega) (by have := slice_none_lt hn (by omega); omega) hst2
          · split at hst2 <;> simp at hst2

theorem dispatchError_ofByte_none {b : UInt8} : DispatchError.ofByte b = none ↔ 7 < b.toNat := by
  have : ∀ n : Fin 256, DispatchError.ofByte (UInt8.ofFin n) = none ↔ 7 < (UInt8.ofFin n).toNat := by
    decide +kernel
  exact this b.toFin

theorem parseError_ofByte_none {b : UInt8} : ReqParseError.ofByte b = none ↔ 1 < b.toNat := by
  have : ∀ n : Fin 256, ReqParseError.ofByte (UInt8.ofFin n) = none ↔ 1 < (UInt8.ofFin n).toNat := by
    decide +kernel
  exact this b.toFin

end Hop.RespParser
