import Verif.Props.RequestParser
import Verif.Props.Response
import Verif.Props.Wire

/-! # Decoders that have reported an error: C126, C127 -/

namespace Hop

open Spec

/-! ## Which buffers are refused -/

/-- The frame announced by the four bytes of the header has arrived. -/
def Arrived (buf : Bytes) : Prop := 4 ≤ buf.length ∧ 4 + Wire.number (buf.take 4) ≤ buf.length

instance (buf : Bytes) : Decidable (Arrived buf) := inferInstanceAs (Decidable (_ ∧ _))

/-- A frame whose type is not one of the ten types of responses. -/
def StrangeType (buf : Bytes) : Prop := Arrived buf ∧ ∃ b, buf[4]? = some b ∧ 10 ≤ b.toNat

/-- A frame with a text of `n` bytes that are not the UTF-8 bytes of any text. -/
def NoText (buf : Bytes) (n : Nat) : Prop :=
  Arrived buf ∧ buf[4]? = some 7 ∧ 9 + n ≤ buf.length ∧ n = Wire.number ((buf.drop 5).take 4) ∧ 0 < n ∧
    ∀ s, Wire.utf8 s ≠ (buf.drop 9).take n

namespace RespParser

/-- Where a decoder that started with `buf` can be. -/
def Along (buf : Bytes) (c : Ctx) : Prop :=
  match c.stage with
  | .init => c = Ctx.new
  | .determineType => c.idx = 4 ∧ Arrived buf
  | .typeInit k r => c.idx = 5 ∧ Arrived buf ∧ buf[4]? = some k.toByte ∧ (k = .string → r = 4)
  | .string n => c.idx = 9 ∧ Arrived buf ∧ buf[4]? = some 7 ∧ 9 ≤ buf.length ∧ n = Wire.number ((buf.drop 5).take 4) ∧ 0 < n
  | _ => True

theorem debugAssert_error {m : Mode} {p : Bool} {k : Step} {e : Error} :
    debugAssert m p k = .error e ↔ (m = .debug → p = true) ∧ k = .error e := by
  unfold debugAssert
  cases m <;> cases p <;> simp

theorem stageOfKind_string {k : ResponseType} {n : Nat} : stageOfKind k ≠ .string n := by
  cases k <;> simp [stageOfKind]

theorem Along.step {m : Mode} {buf : Bytes} {c c' : Ctx} (h : Along buf c) (hs : step m c buf = .next c') :
    Along buf c' := by
  obtain ⟨idx, stage⟩ := c
  cases stage with
  | init =>
    cases h
    simp only [RespParser.step, stageInit, debugAssert_next] at hs
    obtain ⟨-, hs⟩ := hs
    split at hs
    · rename_i bs hb
      rw [slice_eq_some] at hb
      split at hs
      · simp at hs
      · simp only [Step.next.injEq] at hs
        subst hs
        obtain ⟨h1, h2, h3⟩ := hb
        refine ⟨rfl, h2, ?_⟩
        rw [← beNat_eq_number]
        simp at h3
        subst h3
        omega
    · simp at hs
  | determineType =>
    obtain ⟨hi, ha⟩ := h
    simp only at hi
    subst hi
    simp only [RespParser.step, stageDetermineType, debugAssert_next] at hs
    obtain ⟨-, hs⟩ := hs
    split at hs
    · simp at hs
    · rename_i b hb
      split at hs
      · simp at hs
      · rename_i k hk
        simp only [Step.next.injEq] at hs
        subst hs
        obtain rfl := (ofByte_responseType b k).mp hk
        cases k <;> first | trivial | exact ⟨rfl, ha, hb, fun h => by first | rfl | cases h⟩
  | typeInit k r =>
    obtain ⟨hi, ha, hb, hr⟩ := h
    simp only at hi
    subst hi
    simp only [RespParser.step, stageTypeInit, debugAssert_next] at hs
    obtain ⟨-, hs⟩ := hs
    split at hs
    · exact absurd hs (subThen_ne_next _ _ _ _)
    · rename_i bs hsl
      cases k <;> simp only at hs <;> (try (simp at hs; done))
      case string =>
        split at hs
        · simp at hs
        · rename_i hn
          simp only [Step.next.injEq] at hs
          subst hs
          obtain rfl := hr rfl
          obtain ⟨h1, h2, h3⟩ := slice_eq_some.mp hsl
          refine ⟨rfl, ha, hb, h2, ?_, by omega⟩
          rw [← beNat_eq_number, h3]
      all_goals
        (try split at hs)
        all_goals first | (simp at hs; done) | (simp only [Step.next.injEq] at hs; subst hs; trivial)
  | list a n =>
    simp only [RespParser.step, stageList, debugAssert_next] at hs
    obtain ⟨-, -, hs⟩ := hs
    repeat' split at hs
    all_goals first
      | exact absurd hs (remainingBytes_ne_next _ _ _ _ _)
      | exact absurd hs (subThen_ne_next _ _ _ _)
      | (simp at hs; done)
      | (simp only [Step.next.injEq] at hs; subst hs; trivial)
  | map a n =>
    simp only [RespParser.step, stageMap, debugAssert_next] at hs
    obtain ⟨-, -, hs⟩ := hs
    repeat' split at hs
    all_goals first
      | exact absurd hs (remainingBytes_ne_next _ _ _ _ _)
      | (simp at hs; done)
      | (simp only [Step.next.injEq] at hs; subst hs; trivial)
  | set a n =>
    simp only [RespParser.step, stageSet, debugAssert_next] at hs
    obtain ⟨-, -, hs⟩ := hs
    repeat' split at hs
    all_goals first
      | exact absurd hs (remainingBytes_ne_next _ _ _ _ _)
      | (simp at hs; done)
      | (simp only [Step.next.injEq] at hs; subst hs; trivial)
  | boolean =>
    simp only [RespParser.step, stageBoolean, debugAssert_next] at hs
    obtain ⟨-, hs⟩ := hs
    split at hs <;> simp at hs
  | bytes n =>
    simp only [RespParser.step, stageBytes, debugAssert_next] at hs
    obtain ⟨-, -, hs⟩ := hs
    split at hs
    · simp at hs
    · exact absurd hs (remainingBytes_ne_next _ _ _ _ _)
  | float =>
    simp only [RespParser.step, stageFloat, debugAssert_next] at hs
    obtain ⟨-, hs⟩ := hs
    split at hs <;> simp at hs
  | integer =>
    simp only [RespParser.step, stageInteger, debugAssert_next] at hs
    obtain ⟨-, hs⟩ := hs
    split at hs <;> simp at hs
  | dispatchError =>
    simp only [RespParser.step, stageDispatchError, debugAssert_next] at hs
    obtain ⟨-, hs⟩ := hs
    repeat' split at hs
    all_goals simp at hs
  | parseError =>
    simp only [RespParser.step, stageParseError, debugAssert_next] at hs
    obtain ⟨-, hs⟩ := hs
    repeat' split at hs
    all_goals simp at hs
  | string n =>
    simp only [RespParser.step, stageString, debugAssert_next] at hs
    obtain ⟨-, -, hs⟩ := hs
    repeat' split at hs
    all_goals first | exact absurd hs (subThen_ne_next _ _ _ _) | (simp at hs; done)

theorem subThen_ne_error (m : Mode) (a b : Nat) (e : Error) : subThen m a b .readBytes ≠ .error e := by
  unfold subThen
  split
  · simp
  · cases m <;> simp

theorem remainingBytes_ne_error (m : Mode) (a b d : Nat) (e : Error) : remainingBytes m a b d ≠ .error e := by
  unfold remainingBytes debugAssert
  repeat' split
  all_goals simp

theorem unknownType {b : UInt8} : ResponseType.ofByte b = none ↔ 10 ≤ b.toNat := by
  have h : ∀ n : Fin 256, (ResponseType.ofByte (UInt8.ofNat n.val) = none ↔ 10 ≤ n.val) := by decide +kernel
  have := h ⟨b.toNat, b.toNat_lt⟩
  simpa using this

theorem noText {b : Bytes} : fromUtf8 b = none ↔ ∀ s, Wire.utf8 s ≠ b := by
  constructor
  · intro h s hs
    have := (C75_reads_text b s).mpr hs
    rw [convStr, h] at this
    cases this
  · intro h
    cases hf : fromUtf8 b with
    | none => rfl
    | some s => exact absurd ((C75_reads_text b s).mp hf) (h s)

/-- A decoder that refuses a buffer is where the error was found. -/
theorem Along.error {m : Mode} {buf : Bytes} {c : Ctx} {e : Error} (h : Along buf c) (hs : RespParser.step m c buf = .error e) :
    (e = .responseTypeInvalid ∧ c = { idx := 4, stage := .determineType } ∧ StrangeType buf) ∨
    (e = .stringInvalid ∧ ∃ n, c = { idx := 9, stage := .string n } ∧ NoText buf n) := by
  obtain ⟨idx, stage⟩ := c
  cases stage with
  | init =>
    simp only [RespParser.step, stageInit, debugAssert_error] at hs
    obtain ⟨-, hs⟩ := hs
    repeat' split at hs
    all_goals simp at hs
  | determineType =>
    obtain ⟨hi, ha⟩ := h
    simp only at hi
    subst hi
    simp only [RespParser.step, stageDetermineType, debugAssert_error] at hs
    obtain ⟨-, hs⟩ := hs
    split at hs
    · simp at hs
    · rename_i b hb
      split at hs
      · rename_i hk
        simp only [Step.error.injEq] at hs
        exact .inl ⟨hs.symm, rfl, ha, b, hb, unknownType.mp hk⟩
      · simp at hs
  | typeInit k r =>
    simp only [RespParser.step, stageTypeInit, debugAssert_error] at hs
    obtain ⟨-, hs⟩ := hs
    split at hs
    · exact absurd hs (subThen_ne_error _ _ _ _)
    · cases k <;> simp only at hs <;> (try split at hs) <;> simp at hs
  | list a n =>
    simp only [RespParser.step, stageList, debugAssert_error] at hs
    obtain ⟨-, -, hs⟩ := hs
    repeat' split at hs
    all_goals first
      | exact absurd hs (remainingBytes_ne_error _ _ _ _ _)
      | exact absurd hs (subThen_ne_error _ _ _ _)
      | (simp at hs; done)
  | map a n =>
    simp only [RespParser.step, stageMap, debugAssert_error] at hs
    obtain ⟨-, -, hs⟩ := hs
    repeat' split at hs
    all_goals first
      | exact absurd hs (remainingBytes_ne_error _ _ _ _ _)
      | (simp at hs; done)
  | set a n =>
    simp only [RespParser.step, stageSet, debugAssert_error] at hs
    obtain ⟨-, -, hs⟩ := hs
    repeat' split at hs
    all_goals first
      | exact absurd hs (remainingBytes_ne_error _ _ _ _ _)
      | (simp at hs; done)
  | boolean =>
    simp only [RespParser.step, stageBoolean, debugAssert_error] at hs
    obtain ⟨-, hs⟩ := hs
    split at hs <;> simp at hs
  | bytes n =>
    simp only [RespParser.step, stageBytes, debugAssert_error] at hs
    obtain ⟨-, -, hs⟩ := hs
    split at hs
    · simp at hs
    · exact absurd hs (remainingBytes_ne_error _ _ _ _ _)
  | float =>
    simp only [RespParser.step, stageFloat, debugAssert_error] at hs
    obtain ⟨-, hs⟩ := hs
    split at hs <;> simp at hs
  | integer =>
    simp only [RespParser.step, stageInteger, debugAssert_error] at hs
    obtain ⟨-, hs⟩ := hs
    split at hs <;> simp at hs
  | dispatchError =>
    simp only [RespParser.step, stageDispatchError, debugAssert_error] at hs
    obtain ⟨-, hs⟩ := hs
    repeat' split at hs
    all_goals simp at hs
  | parseError =>
    simp only [RespParser.step, stageParseError, debugAssert_error] at hs
    obtain ⟨-, hs⟩ := hs
    repeat' split at hs
    all_goals simp at hs
  | string n =>
    obtain ⟨hi, ha, hb, hl, hn, hp⟩ := h
    simp only at hi
    subst hi
    simp only [RespParser.step, stageString, debugAssert_error] at hs
    obtain ⟨-, -, hs⟩ := hs
    split at hs
    · exact absurd hs (subThen_ne_error _ _ _ _)
    · rename_i bs hsl
      split at hs
      · rename_i hu
        simp only [Step.error.injEq] at hs
        obtain ⟨h1, h2, h3⟩ := slice_eq_some.mp hsl
        refine .inr ⟨hs.symm, n, rfl, ha, hb, h2, hn, hp, ?_⟩
        rw [h3, Nat.add_sub_cancel_left] at hu
        exact noText.mp hu
      · simp at hs

theorem Along.feed {m : Mode} {buf : Bytes} {c : Ctx} (h : Along buf c) : ∀ e c', feed m c buf = (.error e, c') →
    (e = .responseTypeInvalid ∧ c' = { idx := 4, stage := .determineType } ∧ StrangeType buf) ∨
    (e = .stringInvalid ∧ ∃ n, c' = { idx := 9, stage := .string n } ∧ NoText buf n) := by
  revert h
  refine feed_induct (P := fun c r => Along buf c → ∀ e c', r = (.error e, c') →
    (e = .responseTypeInvalid ∧ c' = { idx := 4, stage := .determineType } ∧ StrangeType buf) ∨
    (e = .stringInvalid ∧ ∃ n, c' = { idx := 9, stage := .string n } ∧ NoText buf n)) m buf ?_ ?_ c
  · intro c c1 hs ih h
    exact ih (h.step hs)
  · intro c hs h e c' hr
    cases hst : RespParser.step m c buf with
    | next c1 => exact absurd hst (hs c1)
    | concluded _ => rw [feed_concluded hst] at hr; simp at hr
    | readBytes _ => rw [feed_readBytes hst] at hr; simp at hr
    | error e' =>
      rw [feed_error hst] at hr
      simp only [Prod.mk.injEq, Fed.error.injEq] at hr
      obtain ⟨rfl, rfl⟩ := hr
      exact h.error hst
    | panic => rw [feed_panic hst] at hr; simp at hr

theorem feed_new_arrived {m : Mode} {buf : Bytes} (h : Arrived buf) :
    feed m Ctx.new buf = feed m { idx := 4, stage := .determineType } buf := by
  have hs : slice buf 0 4 = some (buf.take 4) := by
    rw [slice_eq_some]; refine ⟨by omega, h.1, by simp⟩
  refine feed_next ?_
  simp only [step, Ctx.new, stageInit]
  rw [debugAssert_true (by simp), hs]
  simp only
  rw [if_neg]
  rw [beNat_eq_number]
  have := h.2
  omega

theorem feed_strange {m : Mode} {buf : Bytes} (h : StrangeType buf) :
    feed m Ctx.new buf = (.error .responseTypeInvalid, { idx := 4, stage := .determineType }) := by
  obtain ⟨ha, b, hb, hl⟩ := h
  rw [feed_new_arrived ha]
  refine feed_error ?_
  simp only [step, stageDetermineType]
  rw [debugAssert_true (by simp), hb]
  simp only [unknownType.mpr hl]

theorem feed_string (m : Mode) (n : Nat) (hn : 0 < n) (buf : Bytes) :
    (buf.length < 9 + n → feed m { idx := 9, stage := .string n } buf =
      (.readBytes (9 + n - buf.length), { idx := 9, stage := .string n })) ∧
    (9 + n ≤ buf.length → (∀ s, Wire.utf8 s = (buf.drop 9).take n →
      feed m { idx := 9, stage := .string n } buf = (.concluded (.value (.string s)), Ctx.new)) ∧
      ((∀ s, Wire.utf8 s ≠ (buf.drop 9).take n) →
        feed m { idx := 9, stage := .string n } buf = (.error .stringInvalid, { idx := 9, stage := .string n }))) := by
  have e : step m { idx := 9, stage := .string n } buf =
      match slice buf 9 (9 + n) with
      | none => subThen m (9 + n) buf.length .readBytes
      | some bytes => match fromUtf8 bytes with
        | none => .error .stringInvalid
        | some s => .concluded (.value (.string s)) := by
    simp only [step, stageString]
    rw [debugAssert_true (by simp), debugAssert_true (by simpa using hn)]
    rfl
  refine ⟨fun h => ?_, fun h => ?_⟩
  · refine feed_readBytes ?_
    rw [e, slice_eq_none.mpr (by omega)]
    simp only [subThen]
    rw [if_pos (by omega)]
  · have hs : slice buf 9 (9 + n) = some ((buf.drop 9).take n) := by
      rw [slice_eq_some]; exact ⟨by omega, h, by rw [Nat.add_sub_cancel_left]⟩
    refine ⟨fun s hu => feed_concluded ?_, fun hu => feed_error ?_⟩
    · rw [e, hs]
      have : fromUtf8 ((buf.drop 9).take n) = some s := (C75_reads_text _ s).mpr hu
      simp only [this]
    · rw [e, hs]
      simp only [noText.mpr hu]

theorem feed_noText {m : Mode} {buf : Bytes} {n : Nat} (h : NoText buf n) :
    feed m Ctx.new buf = (.error .stringInvalid, { idx := 9, stage := .string n }) := by
  obtain ⟨ha, hb, hl, hn, hp, hu⟩ := h
  rw [feed_new_arrived ha]
  have s2 : step m { idx := 4, stage := .determineType } buf = .next { idx := 5, stage := .typeInit .string 4 } := by
    simp only [step, stageDetermineType]
    rw [debugAssert_true (by simp), hb]
    rfl
  have s3 : step m { idx := 5, stage := .typeInit .string 4 } buf = .next { idx := 9, stage := .string n } := by
    have hs : slice buf 5 (5 + 4) = some ((buf.drop 5).take 4) := by
      rw [slice_eq_some]; exact ⟨by omega, by omega, by simp⟩
    simp only [step, stageTypeInit]
    rw [debugAssert_true (by simp), hs]
    simp only
    rw [beNat_eq_number, ← hn, if_neg (by omega)]
  rw [feed_next s2, feed_next s3]
  exact ((feed_string m n hp buf).2 hl).2 hu

end RespParser

/-! ## C127 What a response decoder refuses and does afterwards -/

/-- C127. A decoder given bytes in any pieces reports an error exactly for a frame of an unknown type and for a text
that is not UTF-8. -/
theorem C127_error_iff {m : Mode} {buf : Bytes} {c : RespParser.Ctx} (h : Asking m buf c) (ext : Bytes) (e : RespParser.Error) :
    (RespParser.feed m c (buf ++ ext)).1 = .error e ↔
      (e = .responseTypeInvalid ∧ StrangeType (buf ++ ext)) ∨ (e = .stringInvalid ∧ ∃ n, NoText (buf ++ ext) n) := by
  rw [C13_chunks h ext]
  constructor
  · intro he
    rcases RespParser.Along.feed (m := m) (buf := buf ++ ext) (c := RespParser.Ctx.new) rfl e _ (Prod.ext he rfl) with h | h
    · exact .inl ⟨h.1, h.2.2⟩
    · obtain ⟨h1, n, -, h2⟩ := h
      exact .inr ⟨h1, n, h2⟩
  · rintro (⟨rfl, h⟩ | ⟨rfl, n, h⟩)
    · rw [RespParser.feed_strange h]
    · rw [RespParser.feed_noText h]

/-- C127, after a frame of an unknown type: the same decoder treats every frame, once it has arrived, as a new decoder
does. -/
theorem C127_after_type {m : Mode} {buf : Bytes} {c : RespParser.Ctx} (h : Asking m buf c) (ext : Bytes)
    (hs : StrangeType (buf ++ ext)) (next : Bytes) (ha : Arrived next) :
    RespParser.feed m (RespParser.feed m c (buf ++ ext)).2 next = RespParser.feed m RespParser.Ctx.new next := by
  rw [C13_chunks h ext, RespParser.feed_strange hs, RespParser.feed_new_arrived ha]

/-- C127, after a text that is not UTF-8: whatever bytes the same decoder is given next, it skips nine of them and
takes as many as the refused text had for a text, until it finds UTF-8. -/
theorem C127_after_text {m : Mode} {buf : Bytes} {c : RespParser.Ctx} (h : Asking m buf c) (ext : Bytes) {n : Nat}
    (hs : NoText (buf ++ ext) n) (next : Bytes) :
    let c' := (RespParser.feed m c (buf ++ ext)).2
    (next.length < 9 + n → RespParser.feed m c' next = (.readBytes (9 + n - next.length), c')) ∧
    (9 + n ≤ next.length → (∀ s, Wire.utf8 s = (next.drop 9).take n →
      RespParser.feed m c' next = (.concluded (.value (.string s)), RespParser.Ctx.new)) ∧
      ((∀ s, Wire.utf8 s ≠ (next.drop 9).take n) → RespParser.feed m c' next = (.error .stringInvalid, c'))) := by
  intro c'
  have : c' = { idx := 9, stage := .string n } := by
    show (RespParser.feed m c (buf ++ ext)).2 = _
    rw [C13_chunks h ext, RespParser.feed_noText hs]
  rw [this]
  exact RespParser.feed_string m n hs.2.2.2.2.1 next

/-- Non-vacuity: both kinds of refused frames, the first arriving in two pieces, and what follows them. -/
example : StrangeType ([0, 0, 0, 2] ++ [10, 0]) ∧ Asking .debug ([] ++ [0, 0, 0, 2]) RespParser.Ctx.new ∧
    Arrived [0, 0, 0, 2, 0, 1] ∧ NoText [0, 0, 0, 6, 7, 0, 0, 0, 1, 255] 1 := by
  refine ⟨⟨by decide, 10, rfl, by decide⟩, Asking.more (n := 2) .start (by decide +kernel), by decide, by decide, rfl, by decide, by decide,
    by decide, ?_⟩
  refine RespParser.noText.mp ?_
  decide +kernel

example : (RespParser.feed .debug { idx := 9, stage := .string 1 } [0, 0, 0, 9, 3, 7, 0, 0]).1 = .readBytes 2 := by
  rw [(RespParser.feed_string .debug 1 (by decide) _).1 (by decide)]; rfl

/-! ## C126 After an error a decoder is ready for the next message -/

/-- C126 as one would want it, for both decoders. -/
def C126_Statement : Prop :=
  (∀ (buf next : Bytes) e c', ReqParser.feed ReqParser.Ctx.new buf = (.error e, c') →
    ReqParser.feed c' next = ReqParser.feed ReqParser.Ctx.new next) ∧
  ∀ (m : Mode) (buf next : Bytes) e c', RespParser.feed m RespParser.Ctx.new buf = (.error e, c') →
    RespParser.feed m c' next = RespParser.feed m RespParser.Ctx.new next

/-- A text of one byte that is not UTF-8, then the integer 7·2⁵⁶ + 65·2²⁴: it is taken for the text "A". -/
theorem C126_false : ¬ C126_Statement := by
  intro h
  have := h.2 .release [0, 0, 0, 6, 7, 0, 0, 0, 1, 255] [0, 0, 0, 9, 3, 7, 0, 0, 0, 65, 0, 0, 0] .stringInvalid
    { idx := 9, stage := .string 1 } (by decide +kernel)
  have h1 : RespParser.feed .release { idx := 9, stage := .string 1 } [0, 0, 0, 9, 3, 7, 0, 0, 0, 65, 0, 0, 0] =
      (.concluded (.value (.string ['A'])), RespParser.Ctx.new) :=
    ((RespParser.feed_string .release 1 (by decide) _).2 (by decide)).1 _ (by decide +kernel)
  rw [h1] at this
  exact absurd (congrArg Prod.fst this) (by decide +kernel)

/-- What is left of C126 (missing: response decoders that have met a text that is not UTF-8, see C127): request
decoders are ready after every error, and response decoders are, after a frame of an unknown type, for frames that
have arrived. -/
theorem C126_ready_partial :
    (∀ (buf next : Bytes) c e c', Reachable c → ReqParser.feed c buf = (.error e, c') →
      ReqParser.feed c' next = ReqParser.feed ReqParser.Ctx.new next) ∧
    ∀ (m : Mode) (buf next : Bytes) c', RespParser.feed m RespParser.Ctx.new buf = (.error .responseTypeInvalid, c') →
      Arrived next → RespParser.feed m c' next = RespParser.feed m RespParser.Ctx.new next := by
  refine ⟨fun buf next c e c' hr h => ?_, fun m buf next c' h ha => ?_⟩
  · rw [((C09_error_iff c c' buf e hr).mp h).2.1]
  · rcases RespParser.Along.feed (c := RespParser.Ctx.new) rfl _ _ h with h | ⟨h, -⟩
    · rw [h.2.1, RespParser.feed_new_arrived ha]
    · cases h

example : RespParser.feed .debug RespParser.Ctx.new [0, 0, 0, 2, 10, 0] = (.error .responseTypeInvalid, { idx := 4, stage := .determineType }) ∧
    ReqParser.feed ReqParser.Ctx.new [255] = (.error .keyTypeInvalid, ReqParser.Ctx.new) := by decide +kernel

/-! ## Further concrete cases -/

theorem askedForTwo (m : Mode) : Asking m [0, 0, 0, 2] RespParser.Ctx.new :=
  Asking.more (buf := []) (ext := [0, 0, 0, 2]) (n := 2) .start (by cases m <;> decide +kernel)

/-- A frame of unknown type that arrives in two pieces is refused, and the next frame is read as ever. -/
example (m : Mode) : (RespParser.feed m RespParser.Ctx.new ([0, 0, 0, 2] ++ [10, 0])).1 = .error .responseTypeInvalid ∧
    RespParser.feed m (RespParser.feed m RespParser.Ctx.new ([0, 0, 0, 2] ++ [10, 0])).2 [0, 0, 0, 2, 0, 1] =
      RespParser.feed m RespParser.Ctx.new [0, 0, 0, 2, 0, 1] := by
  have hs : StrangeType ([0, 0, 0, 2] ++ [10, 0]) := ⟨by decide, 10, rfl, by decide⟩
  exact ⟨(C127_error_iff (askedForTwo m) [10, 0] _).mpr (.inl ⟨rfl, hs⟩), C127_after_type (askedForTwo m) [10, 0] hs _ (by decide)⟩

/-- After a text of one byte that is no UTF-8, nine bytes of whatever comes next are skipped. -/
example (m : Mode) : RespParser.feed m (RespParser.feed m RespParser.Ctx.new ([] ++ [0, 0, 0, 6, 7, 0, 0, 0, 1, 255])).2
    [0, 0, 0, 9, 3, 0, 0, 0, 0, 65, 0, 0, 0] = (.concluded (.value (.string ['A'])), RespParser.Ctx.new) := by
  have hs : NoText ([] ++ [0, 0, 0, 6, 7, 0, 0, 0, 1, 255]) 1 :=
    ⟨by decide, rfl, by decide, by decide, by decide, RespParser.noText.mp (by decide +kernel)⟩
  exact ((C127_after_text (m := m) .start [0, 0, 0, 6, 7, 0, 0, 0, 1, 255] hs [0, 0, 0, 9, 3, 0, 0, 0, 0, 65, 0, 0, 0]).2
    (by decide)).1 ['A'] (by decide +kernel)

/-- Both decoders after an error. -/
example : ReqParser.feed (ReqParser.feed ReqParser.Ctx.new [255]).2 [5, 1] = ReqParser.feed ReqParser.Ctx.new [5, 1] ∧
    RespParser.feed .debug (RespParser.feed .debug RespParser.Ctx.new [0, 0, 0, 2, 10, 0]).2 [0, 0, 0, 2, 0, 1] =
      RespParser.feed .debug RespParser.Ctx.new [0, 0, 0, 2, 0, 1] :=
  ⟨C126_ready_partial.1 [255] [5, 1] _ .keyTypeInvalid _ .new (by decide +kernel),
    C126_ready_partial.2 .debug [0, 0, 0, 2, 10, 0] _ _ (by decide +kernel) (by decide)⟩

end Hop
