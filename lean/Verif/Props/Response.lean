import Verif.Lemmas.RespInv
import Verif.Spec.Sample

/-! # Properties of responses and their decoder: C11 - C15, C50, C51 -/

namespace Hop

open Spec RespParser

/-! ## Orders of maps and sets -/

theorem orderedValue_same (env : Env) (v : Value) : Same (orderedValue env v) v := by
  cases v with
  | map m => exact env.mapOrd_perm m
  | set s => exact env.setOrd_perm s
  | _ => rfl

theorem ordered_same (env : Env) (r : Response) : SameResponse (ordered env r) r := by
  cases r with
  | value v => exact orderedValue_same env v
  | _ => rfl

theorem body_ordered_length (env : Env) (r : Response) : (body (ordered env r)).length = (body r).length := by
  cases r with
  | value v =>
    cases v with
    | map m =>
      have h1 := env.mapOrd_perm m
      have h2 := (List.Perm.flatMap_right mapItem h1).length_eq
      simp only [ordered, orderedValue, body, payload, List.length_cons, List.length_append, beBytes_length, h2]
    | set s =>
      have h1 := env.setOrd_perm s
      have h2 := (List.Perm.flatMap_right setItem h1).length_eq
      simp only [ordered, orderedValue, body, payload, List.length_cons, List.length_append, beBytes_length, h2]
    | _ => rfl
  | _ => rfl

theorem fits_ordered (env : Env) (m : Mode) (r : Response) (h : Fits m r) : Fits m (ordered env r) := by
  cases r with
  | value v =>
    cases v with
    | map mp =>
      have h1 := env.mapOrd_perm mp
      have h2 := (List.Perm.flatMap_right mapItem h1).length_eq
      simp only [Fits, FitsValue, ordered, orderedValue] at h ⊢
      refine ⟨(h1.map Prod.fst).nodup_iff.mpr h.1, by rw [h1.length_eq]; exact h.2.1, ?_, by rw [h2]; exact h.2.2.2⟩
      intro e he
      exact h.2.2.1 e (h1.mem_iff.mp he)
    | set s =>
      have h1 := env.setOrd_perm s
      have h2 := (List.Perm.flatMap_right setItem h1).length_eq
      simp only [Fits, FitsValue, ordered, orderedValue] at h ⊢
      refine ⟨h1.nodup_iff.mpr h.1, ?_, by rw [h1.length_eq]; exact h.2.2.1, ?_, by rw [h2]; exact h.2.2.2.2⟩
      · intro h0
        rw [h0] at h1
        exact h.2.1 h1.nil_eq.symm
      · intro e he
        exact h.2.2.2.1 e (h1.mem_iff.mp he)
    | _ => exact h
  | _ => exact h

theorem fits_body {m : Mode} {r : Response} (h : Fits m r) : (body r).length < 2 ^ 32 := by
  cases r with
  | value v =>
    cases v <;> simp only [Fits, FitsValue] at h <;>
      simp only [body, payload, List.length_cons, List.length_append, beBytes_length, List.length_nil] <;>
      omega
  | _ => simp [body]

/-! ## C12 The frame length header is exact -/

/-- C12. Below the 32-bit limit, whatever the writer outputs is what was in the buffer before, a 4-byte
big-endian number, and as many bytes as that number says: the documented layout of the response. -/
theorem C12_header_exact (env : Env) (to out : Bytes) (r : Response)
    (h : (body r).length < 2 ^ 32) (hw : Response.copyTo env to r = some out) :
    ∃ rest, out = to ++ beBytes 4 rest.length ++ rest ∧ rest.length < 2 ^ 32 ∧
      beNat (beBytes 4 rest.length) = rest.length ∧ rest = body (ordered env r) := by
  have hb := body_ordered_length env r
  have hw' : out = to ++ frame (ordered env r) := by
    by_cases hl : env.mode = .debug → ∀ l, r = .value (.list l) → l.length < 2 ^ 16
    · rw [copyTo_eq env to r (by omega) hl] at hw
      exact (Option.some.inj hw).symm
    · -- more than 65535 items in a debug build: the writer panics
      exfalso
      have ⟨hm, l, hr, hlen⟩ : env.mode = .debug ∧ ∃ l, r = .value (.list l) ∧ 2 ^ 16 ≤ l.length := by
        have h1 : env.mode = .debug := by
          apply Classical.byContradiction; intro h1; exact hl (fun h2 => absurd h2 h1)
        refine ⟨h1, ?_⟩
        apply Classical.byContradiction
        intro h2
        apply hl
        intro _ l hlr
        apply Classical.byContradiction
        intro h3
        exact h2 ⟨l, hlr, by omega⟩
      subst hr
      have hnone : ∀ (items : List Bytes) (to : Bytes) (msgLen c : Nat), c < 2 ^ 16 → 2 ^ 16 ≤ c + items.length →
          Response.writeListLoop .debug to msgLen c items = none := by
        intro items
        induction items with
        | nil => intro to msgLen c h1 h2; simp at h2; omega
        | cons x xs ih =>
          intro to msgLen c h1 h2
          simp only [Response.writeListLoop, Option.bind_eq_bind]
          by_cases hc : c + 1 < 2 ^ 16
          · rw [addU_of_lt hc]
            simp only [Option.bind_some]
            cases addU .debug 32 4 (x.length % 2 ^ 32) with
            | none => rfl
            | some a =>
              simp only [Option.bind_some]
              cases addU .debug 32 msgLen a with
              | none => rfl
              | some b =>
                simp only [Option.bind_some]
                exact ih _ _ _ hc (by simp at h2; omega)
          · have : addU .debug 16 c 1 = none := by unfold addU; rw [if_neg hc]
            rw [this]; rfl
      simp only [Response.copyTo, Response.writeValue, Response.writeList, hm,
        hnone l _ _ 0 (by decide) (by omega), Option.bind_eq_bind, Option.bind_none] at hw
      simp at hw
  refine ⟨body (ordered env r), ?_, by omega, beNat_beBytes_of_lt (by omega), rfl⟩
  rw [hw', frame, List.append_assoc]

/-- C12, the writer's only failure below the limit: more than 65535 list items in a debug build. -/
theorem C12_writes (env : Env) (to : Bytes) (r : Response) (h : (body r).length < 2 ^ 32)
    (hl : env.mode = .debug → ∀ l, r = .value (.list l) → l.length < 2 ^ 16) :
    ∃ out, Response.copyTo env to r = some out :=
  ⟨_, copyTo_eq env to r (by rw [body_ordered_length]; exact h) hl⟩

example : Response.copyTo (sampleEnv .release) [7] (.value (.map [([1], [2, 3]), ([4], [])])) =
    some ([7] ++ beBytes 4 17 ++ [5, 0, 2, 1, 4, 0, 0, 0, 0, 1, 1, 0, 0, 0, 2, 2, 3]) := by decide +kernel

/-! ## C50 A response decodes to itself exactly if it is within the limits -/

/-- C50. Encode any response with distinct map keys and set items whose encoding is below 4 GiB, in either
build profile, with any iteration orders, and give the bytes (followed by anything) to a new decoder of the
same profile: it concludes with the same response exactly if the response is within the limits `Fits`. -/
theorem C50_round_trip_iff (env : Env) (r : Response) (out tail : Bytes)
    (hwf : ∀ v, r = .value v → WF v) (hb : (body r).length < 2 ^ 32)
    (hw : Response.asBytes env r = some out) :
    (∃ r' c', RespParser.feed env.mode Ctx.new (out ++ tail) = (.concluded r', c') ∧ SameResponse r' r) ↔
      Fits env.mode r := by
  obtain ⟨rest, h1, h2, h3, h4⟩ := C12_header_exact env [] out r hb hw
  subst h4
  simp only [List.nil_append] at h1
  change out = frame (ordered env r) at h1
  subst h1
  constructor
  · rintro ⟨r', c', hf, hs⟩
    have hg : GoodResponse env.mode r' :=
      (GoodStage.feed (c := Ctx.new) (buf := frame (ordered env r) ++ tail) trivial).2 r' (by rw [hf])
    cases r with
    | value v =>
      cases r' with
      | value w =>
        simp only [SameResponse] at hs
        simp only [Fits]
        simp only [GoodResponse] at hg
        have hwf := hwf v rfl
        simp only [body, payload] at hb
        cases v with
        | map m =>
          cases w <;> simp only [Same] at hs <;> try contradiction
          rename_i m'
          simp only [Decodable] at hg
          simp only [FitsValue]
          simp only [List.length_cons, List.length_append, beBytes_length] at hb
          refine ⟨hwf, by rw [← hs.length_eq]; exact hg.2.1, ?_, by omega⟩
          intro e he
          exact hg.2.2 e (hs.mem_iff.mpr he)
        | set s =>
          cases w <;> simp only [Same] at hs <;> try contradiction
          rename_i s'
          simp only [Decodable] at hg
          simp only [FitsValue]
          simp only [List.length_cons, List.length_append, beBytes_length] at hb
          refine ⟨hwf, ?_, by rw [← hs.length_eq]; exact hg.2.2.1, ?_, by omega⟩
          · rintro rfl
            exact hg.2.1 hs.eq_nil
          · intro e he
            exact hg.2.2.2 e (hs.mem_iff.mpr he)
        | bytes b =>
          have : w = .bytes b := by cases w <;> simp [Same] at hs; rw [hs]
          subst this
          simp only [List.length_cons, List.length_append, beBytes_length] at hb
          exact ⟨by omega, hg⟩
        | list l =>
          have : w = .list l := by cases w <;> simp [Same] at hs; rw [hs]
          subst this
          simp only [List.length_cons, List.length_append, beBytes_length] at hb
          exact ⟨hg.1, hg.2, by omega⟩
        | string s =>
          simp only [List.length_cons, List.length_append, beBytes_length] at hb
          simp only [FitsValue]; omega
        | boolean _ => trivial
        | float _ => trivial
        | integer _ => trivial
      | _ => simp [SameResponse] at hs
    | _ => trivial
  · intro hfit
    exact ⟨_, _, feed_frame env.mode _ tail (fits_ordered env env.mode r hfit), ordered_same env r⟩

/-- A map of two entries meets the hypotheses and the limits; an empty set meets the hypotheses only. -/
example : (∃ out r' c', Response.asBytes (sampleEnv .debug) (.value (.map [([1], [2, 3]), ([4], [])])) = some out ∧
      RespParser.feed .debug Ctx.new (out ++ [9, 9]) = (.concluded r', c') ∧
      SameResponse r' (.value (.map [([1], [2, 3]), ([4], [])]))) ∧
    Response.asBytes (sampleEnv .debug) (.value (.set [])) = some [0, 0, 0, 3, 6, 0, 0] ∧
    ¬ Fits .debug (.value (.set [])) := by
  refine ⟨?_, by decide +kernel, by simp [Fits, FitsValue]⟩
  have hfit : Fits (sampleEnv .debug).mode (.value (.map [([1], [2, 3]), ([4], [])])) := by
    simp only [Fits, FitsValue]; decide
  obtain ⟨out, hout⟩ := C12_writes (sampleEnv .debug) [] (.value (.map [([1], [2, 3]), ([4], [])])) (by decide)
    (by simp)
  obtain ⟨r', c', h1, h2⟩ := (C50_round_trip_iff (sampleEnv .debug) _ out [9, 9]
    (by rintro v ⟨⟩; simp only [WF]; decide) (by decide) hout).mpr hfit
  exact ⟨out, r', c', hout, h1, h2⟩

/-! ## C11 Responses decode to what was encoded -/

/-- C11 as one would want it: no size limits other than the 32-bit frame length. -/
def C11_Statement : Prop :=
  ∀ (env : Env) (r : Response), (∀ v, r = .value v → WF v) → (body r).length < 2 ^ 32 →
    ∃ out r' c', Response.asBytes env r = some out ∧
      RespParser.feed env.mode Ctx.new out = (.concluded r', c') ∧ SameResponse r' r

/-- What is left of C11 (missing: the responses outside `Fits`, none of which survives, see C50): every
response within the limits is written and decodes to the same response. -/
theorem C11_round_trip_partial (env : Env) (r : Response) (tail : Bytes) (h : Fits env.mode r) :
    ∃ out r', Response.asBytes env r = some out ∧
      RespParser.feed env.mode Ctx.new (out ++ tail) = (.concluded r', Ctx.new) ∧ SameResponse r' r := by
  have hb := fits_body h
  refine ⟨frame (ordered env r), ordered env r, ?_, feed_frame env.mode _ tail (fits_ordered env _ r h),
    ordered_same env r⟩
  have := copyTo_eq env [] r (by rw [body_ordered_length]; exact hb) (by
    intro _ l hl
    subst hl
    exact h.2.1)
  simpa [Response.asBytes] using this

/-- Lists and sets must not be empty: the decoder waits for bytes that never come. -/
theorem C11_empty_list_set (env : Env) :
    (∃ out, Response.asBytes env (.value (.list [])) = some out ∧
      (RespParser.feed env.mode Ctx.new out).1 = .readBytes 4) ∧
    (∃ out, Response.asBytes env (.value (.set [])) = some out ∧
      (RespParser.feed env.mode Ctx.new out).1 = .readBytes 2) := by
  constructor
  · refine ⟨[0, 0, 0, 3, 4, 0, 0], ?_, ?_⟩
    · simp only [Response.asBytes, Response.copyTo, Response.writeValue]
      rw [writeList_eq _ _ _ (by simp) (by simp)]
      rfl
    · cases env.mode <;> decide +kernel
  · have h0 : env.setOrd [] = [] := (env.setOrd_perm []).eq_nil
    refine ⟨[0, 0, 0, 3, 6, 0, 0], ?_, ?_⟩
    · simp only [Response.asBytes, Response.copyTo, Response.writeValue, Response.writeSet, h0]
      rw [writeSetIter_eq _ _ _ (by simp)]
      rfl
    · cases env.mode <;> decide +kernel

/-- Empty bytes make a decoder of a debug build panic. -/
theorem C11_empty_bytes_debug (env : Env) :
    ∃ out, Response.asBytes env (.value (.bytes [])) = some out ∧
      (RespParser.feed .debug Ctx.new out).1 = .panic ∧
      (RespParser.feed .release Ctx.new out).1 = .concluded (.value (.bytes [])) := by
  refine ⟨[0, 0, 0, 5, 1, 0, 0, 0, 0], ?_, by decide +kernel, by decide +kernel⟩
  simp only [Response.asBytes, Response.copyTo, Response.writeValue, Response.writeBytes]
  rw [addU_of_lt (by simp)]
  rfl

/-- A map with a key of 256 bytes or more is written but never decodes to itself. -/
theorem C11_long_map_key (env : Env) (m : BMap) (h : (m.map Prod.fst).Nodup)
    (hb : (body (.value (.map m))).length < 2 ^ 32) (hk : ∃ e ∈ m, 2 ^ 8 ≤ e.1.length) :
    ∃ out, Response.asBytes env (.value (.map m)) = some out ∧
      ∀ m' c', m'.Perm m → RespParser.feed env.mode Ctx.new out ≠ (.concluded (.value (.map m')), c') := by
  obtain ⟨out, hout⟩ := C12_writes env [] _ hb (by simp)
  refine ⟨out, hout, ?_⟩
  intro m' c' hp hf
  obtain ⟨e, he, hlen⟩ := hk
  have hiff := C50_round_trip_iff env (.value (.map m)) out [] (by rintro v ⟨⟩; exact h) hb hout
  have := hiff.mp ⟨.value (.map m'), c', by rw [List.append_nil]; exact hf, hp⟩
  have := this.2.2.1 e he
  omega

/-- A set with an item of 65536 bytes or more is written but never decodes to itself. -/
theorem C11_long_set_item (env : Env) (s : BSet) (h : s.Nodup)
    (hb : (body (.value (.set s))).length < 2 ^ 32) (hk : ∃ e ∈ s, 2 ^ 16 ≤ e.length) :
    ∃ out, Response.asBytes env (.value (.set s)) = some out ∧
      ∀ s' c', s'.Perm s → RespParser.feed env.mode Ctx.new out ≠ (.concluded (.value (.set s')), c') := by
  obtain ⟨out, hout⟩ := C12_writes env [] _ hb (by simp)
  refine ⟨out, hout, ?_⟩
  intro m' c' hp hf
  obtain ⟨e, he, hlen⟩ := hk
  have hiff := C50_round_trip_iff env (.value (.set s)) out [] (by rintro v ⟨⟩; exact h) hb hout
  have := hiff.mp ⟨.value (.set m'), c', by rw [List.append_nil]; exact hf, hp⟩
  have := this.2.2.2.1 e he
  omega

/-- A map of exactly 65536 entries decodes, without any error, to the empty map. -/
theorem C11_map_65536_becomes_empty (env : Env) (m : BMap) (hn : m.length = 2 ^ 16)
    (hb : (body (.value (.map m))).length < 2 ^ 32) :
    ∃ out, Response.asBytes env (.value (.map m)) = some out ∧
      RespParser.feed env.mode Ctx.new out = (.concluded (.value (.map [])), Ctx.new) := by
  have hlen := body_ordered_length env (.value (.map m))
  refine ⟨frame (ordered env (.value (.map m))), by
    simpa [Response.asBytes] using copyTo_eq env [] (.value (.map m)) (by omega) (by simp), ?_⟩
  simp only [ordered, orderedValue] at hlen ⊢
  have hn' : (env.mapOrd m).length = 2 ^ 16 := by rw [(env.mapOrd_perm m).length_eq, hn]
  have hh := feed_header env.mode 5 (payload (.map (env.mapOrd m))) [] (by
    simp only [body, valueCode] at hlen hb
    omega)
  simp only [List.append_nil] at hh
  rw [frame, body, valueCode, hh]
  show RespParser.feed env.mode { idx := 5, stage := .typeInit .map 2 } _ = _
  apply feed_concluded
  have hz : beBytes 2 (env.mapOrd m).length = beBytes 2 0 := by rw [hn']; decide
  have e : beBytes 4 (5 :: payload (.map (env.mapOrd m))).length ++ (5 :: payload (.map (env.mapOrd m))) =
      (beBytes 4 (5 :: payload (.map (env.mapOrd m))).length ++ [5]) ++
        (beBytes 2 0 ++ (env.mapOrd m).flatMap mapItem) := by
    conv => lhs; rhs; rw [payload, hz]
    simp
  rw [e, feed_typeInit env.mode .map 2 0 _ _ (by simp) (by decide)]
  rfl

theorem C11_false : ¬ C11_Statement := by
  intro h
  obtain ⟨out, r', c', h1, h2, h3⟩ := h (sampleEnv .release) (.value (.list [])) (by rintro v ⟨⟩; trivial)
    (by decide)
  obtain ⟨⟨out2, h4, h5⟩, -⟩ := C11_empty_list_set (sampleEnv .release)
  rw [h1] at h4
  obtain rfl := Option.some.inj h4
  rw [h2] at h5
  simp at h5

example : Fits .debug (.value (.list [[], [1, 2]])) ∧ Fits .debug (.value (.set [[1], []])) ∧
    Fits .debug (.value (.string ['ä'])) ∧ Fits .release (.value (.bytes [])) := by
  simp only [Fits, FitsValue]
  decide +kernel

/-! ## C13 Chunking of response bytes does not matter -/

/-- C13, termination of the loop. -/
theorem C13_terminates (m : Mode) (c : Ctx) (buf : Bytes) :
    (RespParser.feed m c buf).1 ≠ .stuck ∧
    ∀ n, (RespParser.loop m n c buf).1 ≠ .stuck → RespParser.loop m n c buf = RespParser.feed m c buf :=
  ⟨feed_not_stuck m c buf, fun n => loop_eq_feed m n c buf⟩

/-- C13. Resuming after a request for more bytes is the same as having seen all the bytes at once: same
answer, same state afterwards. For every decoder state. -/
theorem C13_resume (m : Mode) (c c' : Ctx) (buf ext : Bytes) (n : Nat)
    (h : RespParser.feed m c buf = (.readBytes n, c')) :
    RespParser.feed m c' (buf ++ ext) = RespParser.feed m c (buf ++ ext) :=
  feed_read_append m c buf ext n c' h

/-- A decoder that has been given `buf` in pieces and has asked for more every time. -/
inductive Asking (m : Mode) : Bytes → Ctx → Prop where
  | start : Asking m [] Ctx.new
  | more {buf c ext n c'} : Asking m buf c → RespParser.feed m c (buf ++ ext) = (.readBytes n, c') →
      Asking m (buf ++ ext) c'

/-- C13 for any number of chunks. -/
theorem C13_chunks {m : Mode} {buf : Bytes} {c : Ctx} (h : Asking m buf c) (ext : Bytes) :
    RespParser.feed m c (buf ++ ext) = RespParser.feed m Ctx.new (buf ++ ext) := by
  induction h generalizing ext with
  | start => rfl
  | @more buf c e n c' _ hf ih =>
    rw [C13_resume m c c' (buf ++ e) ext n hf, List.append_assoc, ih]

/-- Header first, then half of the body, then the rest. -/
example : ∃ c, Asking .debug [0, 0, 0, 9, 3, 0, 0] c ∧
    RespParser.feed .debug c ([0, 0, 0, 9, 3, 0, 0] ++ [0, 0, 0, 0, 0, 7]) =
      (.concluded (.value (.integer 7)), Ctx.new) := by
  have h1 : Asking .debug ([] ++ [0, 0, 0, 9]) Ctx.new := Asking.more (n := 9) .start (by decide +kernel)
  have h2 : Asking .debug ([] ++ [0, 0, 0, 9] ++ [3, 0, 0]) Ctx.new := Asking.more (n := 6) h1 (by decide +kernel)
  refine ⟨_, h2, ?_⟩
  exact (C13_chunks h2 [0, 0, 0, 0, 0, 7]).trans (by decide +kernel)

/-! ## C14 Reading exactly as many bytes as asked reads exactly one response -/

/-- A client that owns the byte stream `stream`, starts with an empty buffer, and reads exactly as many
bytes as the decoder asks for. `none`: it would have to wait for bytes beyond the stream's end (or the
decoder failed, or did not conclude within `feeds` calls). Otherwise: the response, the decoder state and
the unread rest of the stream. -/
def readOne (m : Mode) : Nat → Ctx → Bytes → Bytes → Option (Response × Ctx × Bytes)
  | 0, _, _, _ => none
  | feeds + 1, c, buf, stream =>
    match RespParser.feed m c buf with
    | (.concluded r, c') => some (r, c', stream)
    | (.readBytes n, c') =>
      if n ≤ stream.length then readOne m feeds c' (buf ++ stream.take n) (stream.drop n) else none
    | _ => none

/-- Reading `k` responses one after the other with the same decoder. -/
def readMany (m : Mode) : Nat → Ctx → Bytes → Option (List Response × Ctx × Bytes)
  | 0, c, stream => some ([], c, stream)
  | k + 1, c, stream =>
    match readOne m 3 c [] stream with
    | none => none
    | some (r, c', stream') =>
      match readMany m k c' stream' with
      | none => none
      | some (rs, c'', stream'') => some (r :: rs, c'', stream'')

theorem readOne_frame (m : Mode) (r : Response) (rest : Bytes) (h : Fits m r) :
    readOne m 3 Ctx.new [] (frame r ++ rest) = some (r, Ctx.new, rest) := by
  have hb := fits_body h
  have hpos : 0 < (body r).length := by cases r <;> simp [body]
  have h1 : RespParser.feed m Ctx.new [] = (.readBytes 4, Ctx.new) := by
    apply feed_readBytes; cases m <;> rfl
  have h2 : RespParser.feed m Ctx.new (beBytes 4 (body r).length) = (.readBytes (body r).length, Ctx.new) := by
    apply feed_readBytes
    simp only [RespParser.step, Ctx.new, stageInit]
    rw [debugAssert_true (by simp), slice_all _ _ (by simp)]
    simp only [beBytes_length]
    rw [beNat_beBytes_of_lt (by omega), if_pos (by omega)]
    congr 1
    omega
  have h3 : RespParser.feed m Ctx.new (frame r) = (.concluded r, Ctx.new) := by
    have := feed_frame m r [] h
    rwa [List.append_nil] at this
  simp only [readOne, h1]
  rw [if_pos (by simp [frame])]
  have e1 : (frame r ++ rest).take 4 = beBytes 4 (body r).length := by
    rw [frame, List.append_assoc, List.take_append_of_le_length (by simp),
      List.take_of_length_le (by simp)]
  have e2 : (frame r ++ rest).drop 4 = body r ++ rest := by
    rw [frame, List.append_assoc, List.drop_append_of_le_length (by simp)]
    simp
  simp only [List.nil_append, e1, e2, h2]
  rw [if_pos (by simp)]
  have e3 : beBytes 4 (body r).length ++ (body r ++ rest).take (body r).length = frame r := by
    simp [frame]
  rw [e3, h3]
  simp

/-- C14. Any number of responses within the limits, written one after the other into one output, are read
back in order by a client that reads exactly as many bytes as it is asked for, with at most three feeds
per response; it ends at the end of the last frame with a fresh decoder. -/
theorem C14_reads_exactly (env : Env) (rs : List Response) (to rest : Bytes)
    (h : ∀ r ∈ rs, Fits env.mode r) :
    ∃ (stream : Bytes) (rs' : List Response), rs.foldlM (Response.copyTo env) to = some (to ++ stream) ∧
      readMany env.mode rs.length Ctx.new (stream ++ rest) = some (rs', Ctx.new, rest) ∧
      rs'.length = rs.length ∧ ∀ (i : Nat) (r r' : Response), rs[i]? = some r → rs'[i]? = some r' → SameResponse r' r := by
  induction rs generalizing to with
  | nil => exact ⟨[], [], by simp, by simp [readMany], rfl, by simp⟩
  | cons r rs ih =>
    have hr := h r List.mem_cons_self
    have hw := copyTo_eq env to r (by rw [body_ordered_length]; exact fits_body hr) (by
      intro _ l hl; subst hl; exact hr.2.1)
    obtain ⟨stream, rs', i1, i2, i3, i4⟩ := ih (to ++ frame (ordered env r))
      (fun x hx => h x (List.mem_cons_of_mem _ hx))
    refine ⟨frame (ordered env r) ++ stream, ordered env r :: rs', ?_, ?_, by simp [i3], ?_⟩
    · simp only [List.foldlM_cons, hw, Option.bind_eq_bind, Option.bind_some]
      rw [i1]; simp
    · simp only [List.length_cons, readMany, List.append_assoc]
      rw [readOne_frame _ _ _ (fits_ordered env _ r hr)]
      simp only [i2]
    · intro i a b ha hb
      cases i with
      | zero =>
        simp at ha hb
        subst ha hb
        exact ordered_same env r
      | succ i => exact i4 i a b (by simpa using ha) (by simpa using hb)

example : readMany .debug 2 Ctx.new ([0, 0, 0, 2, 0, 1] ++ [0, 0, 0, 2, 9, 4] ++ [0]) =
    some ([.value (.boolean true), .dispatchError .preconditionFailed], Ctx.new, [0]) := by decide +kernel

/-! ## C51 Exactly which buffers make the decoder panic -/

/-- An error frame with a code that does not exist. -/
def UnknownErrorCode (buf : Bytes) : Prop :=
  (buf[4]? = some 8 ∧ ∃ b, buf[5]? = some b ∧ 1 < b.toNat) ∨
  (buf[4]? = some 9 ∧ ∃ b, buf[5]? = some b ∧ 7 < b.toNat)

/-- Frames that violate an assertion of debug builds: bytes of length zero, and frames that end inside
their count field. -/
def ViolatesAssertion (buf : Bytes) : Prop :=
  (buf[4]? = some 1 ∧ 9 ≤ buf.length ∧ beNat ((buf.drop 5).take 4) = 0) ∨
  ((buf[4]? = some 4 ∨ buf[4]? = some 5 ∨ buf[4]? = some 6) ∧ buf.length < 7) ∨
  ((buf[4]? = some 1 ∨ buf[4]? = some 7) ∧ 5 < buf.length ∧ buf.length < 9)

theorem ofByte_responseType (b : UInt8) (k : ResponseType) :
    ResponseType.ofByte b = some k ↔ b = k.toByte := by
  have : ∀ n : Fin 256, ∀ k, ResponseType.ofByte (UInt8.ofFin n) = some k ↔ UInt8.ofFin n = k.toByte := by
    intro n k; cases k <;> revert n <;> decide +kernel
  exact this b.toFin k

theorem readBytes_no_panic (m : Mode) (c : Ctx) (buf : Bytes) (n : Nat)
    (h : RespParser.step m c buf = .readBytes n) : (RespParser.feed m c buf).1 ≠ .panic := by
  rw [feed_readBytes h]; simp

/-- C51. A new decoder panics on a buffer exactly if the frame announced by the header is complete and it
is an error frame with an unknown code or, in debug builds, violates one of the identified assertions. -/
theorem C51_panic_iff (m : Mode) (buf : Bytes) :
    (RespParser.feed m Ctx.new buf).1 = .panic ↔
      4 ≤ buf.length ∧ 4 + beNat (buf.take 4) ≤ buf.length ∧
        (UnknownErrorCode buf ∨ (m = .debug ∧ ViolatesAssertion buf)) := by
  by_cases h4 : buf.length < 4
  · have hs : slice buf 0 4 = none := by rw [slice_eq_none]; omega
    have : RespParser.step m Ctx.new buf = .readBytes (4 - buf.length) := by
      simp only [RespParser.step, Ctx.new, stageInit]
      rw [debugAssert_true (by simp), hs]
    constructor
    · intro h; exact absurd h (readBytes_no_panic _ _ _ _ this)
    · intro h; omega
  · have hs : slice buf 0 4 = some (buf.take 4) := by
      rw [slice_eq_some]; refine ⟨by omega, by omega, by simp⟩
    by_cases hc : buf.length < beNat (buf.take 4) + 4
    · have : RespParser.step m Ctx.new buf = .readBytes (4 + beNat (buf.take 4) - buf.length) := by
        simp only [RespParser.step, Ctx.new, stageInit]
        rw [debugAssert_true (by simp), hs]
        simp only
        rw [if_pos hc]
      constructor
      · intro h; exact absurd h (readBytes_no_panic _ _ _ _ this)
      · intro h; omega
    · have s1 : RespParser.step m Ctx.new buf = .next { idx := 4, stage := .determineType } := by
        simp only [RespParser.step, Ctx.new, stageInit]
        rw [debugAssert_true (by simp), hs]
        simp only
        rw [if_neg hc]
      rw [feed_next s1]
      have hfull : 4 ≤ buf.length ∧ 4 + beNat (buf.take 4) ≤ buf.length := by omega
      suffices H : (RespParser.feed m { idx := 4, stage := .determineType } buf).1 = .panic ↔
          (UnknownErrorCode buf ∨ (m = .debug ∧ ViolatesAssertion buf)) by
        rw [H]
        exact ⟨fun h => ⟨hfull.1, hfull.2, h⟩, fun h => h.2.2⟩
      cases hb4 : buf[4]? with
      | none =>
        have : RespParser.step m { idx := 4, stage := .determineType } buf = .readBytes 1 := by
          simp only [RespParser.step, stageDetermineType]
          rw [debugAssert_true (by simp), hb4]
        constructor
        · intro h; exact absurd h (readBytes_no_panic _ _ _ _ this)
        · simp [UnknownErrorCode, ViolatesAssertion, hb4]
      | some t =>
        have hlen5 : 5 ≤ buf.length := by
          rcases Nat.lt_or_ge 4 buf.length with h1 | h1
          · omega
          · simp [List.getElem?_eq_none h1] at hb4
        cases hk : ResponseType.ofByte t with
        | none =>
          have : RespParser.step m { idx := 4, stage := .determineType } buf = .error .responseTypeInvalid := by
            simp only [RespParser.step, stageDetermineType]
            rw [debugAssert_true (by simp), hb4]
            simp only [hk]
          rw [feed_error this]
          have hne : ∀ k : ResponseType, t ≠ k.toByte := by
            intro k h
            rw [(ofByte_responseType t k).mpr h] at hk
            simp at hk
          have hn : t ≠ 1 ∧ t ≠ 4 ∧ t ≠ 5 ∧ t ≠ 6 ∧ t ≠ 7 ∧ t ≠ 8 ∧ t ≠ 9 :=
            ⟨hne .bytes, hne .list, hne .map, hne .set, hne .string, hne .parseError, hne .dispatchError⟩
          simp [UnknownErrorCode, ViolatesAssertion, hb4, hn]
        | some k =>
          have s2 : RespParser.step m { idx := 4, stage := .determineType } buf =
              .next { idx := 5, stage := stageOfKind k } := by
            simp only [RespParser.step, stageDetermineType]
            rw [debugAssert_true (by simp), hb4]
            simp only [hk]
          rw [feed_next s2]
          obtain rfl := (ofByte_responseType t k).mp hk
          have hcount : ∀ (kind : ResponseType) (n : Nat), n = 2 ∨ n = 4 →
              stageOfKind kind = .typeInit kind n →
              (buf.length < 5 + n →
                ((RespParser.feed m { idx := 5, stage := .typeInit kind n } buf).1 = .panic ↔
                  m = .debug ∧ n + 1 < buf.length)) ∧
              (5 + n ≤ buf.length → slice buf 5 (5 + n) = some ((buf.drop 5).take n)) := by
            intro kind n hn _
            constructor
            · intro hlt
              have hsl : slice buf 5 (5 + n) = none := by rw [slice_eq_none]; omega
              have hst : RespParser.step m { idx := 5, stage := .typeInit kind n } buf =
                  subThen m (n + 1) buf.length .readBytes := by
                simp only [RespParser.step, stageTypeInit]
                rw [debugAssert_true (by simp), hsl]
              rw [← subThen_panic, ← hst]
              constructor
              · intro h
                cases hstep : RespParser.step m { idx := 5, stage := .typeInit kind n } buf with
                | next c' => rw [hstep] at hst; exact absurd hst.symm (subThen_ne_next _ _ _ _)
                | concluded r => rw [hstep] at hst; exact absurd hst.symm (subThen_ne_concluded _ _ _ _)
                | readBytes k => exact absurd h (readBytes_no_panic _ _ _ _ hstep)
                | error e => rw [feed_error hstep] at h; simp at h
                | panic => rfl
              · intro h; rw [feed_panic h]
            · intro hle
              rw [slice_eq_some]; refine ⟨by omega, by omega, ?_⟩
              congr 1; omega
          have hcoll : ∀ (st : Stage), (∃ a n, st = .list a n) ∨ (∃ a n, st = .map a n) ∨ (∃ a n, st = .set a n) →
              7 ≤ buf.length → (RespParser.feed m { idx := 7, stage := st } buf).1 ≠ .panic := by
            intro st hst hl
            exact collection_no_panic m buf { idx := 7, stage := st } (by omega) (by simp) hst
          cases k with
          | boolean =>
            have : (RespParser.feed m { idx := 5, stage := .boolean } buf).1 ≠ .panic := by
              cases h5 : buf[5]? with
              | none => exact readBytes_no_panic _ _ _ 1 (by
                  simp only [RespParser.step, stageBoolean]; rw [debugAssert_true (by simp), h5])
              | some b =>
                rw [feed_concluded (r := .value (.boolean (b != 0))) (by
                  simp only [RespParser.step, stageBoolean]; rw [debugAssert_true (by simp), h5])]
                simp
            simp [stageOfKind, this, UnknownErrorCode, ViolatesAssertion, hb4, ResponseType.toByte]
          | float =>
            have : (RespParser.feed m { idx := 5, stage := .float } buf).1 ≠ .panic := by
              cases h5 : slice buf 5 (5 + 8) with
              | none => exact readBytes_no_panic _ _ _ 1 (by
                  simp only [RespParser.step, stageFloat]; rw [debugAssert_true (by simp), h5])
              | some b =>
                rw [feed_concluded (r := .value (.float (F64.ofBytes b))) (by
                  simp only [RespParser.step, stageFloat]; rw [debugAssert_true (by simp), h5])]
                simp
            simp [stageOfKind, this, UnknownErrorCode, ViolatesAssertion, hb4, ResponseType.toByte]
          | integer =>
            have : (RespParser.feed m { idx := 5, stage := .integer } buf).1 ≠ .panic := by
              cases h5 : slice buf 5 (5 + 8) with
              | none => exact readBytes_no_panic _ _ _ 1 (by
                  simp only [RespParser.step, stageInteger]; rw [debugAssert_true (by simp), h5])
              | some b =>
                rw [feed_concluded (r := .value (.integer (i64OfBytes b))) (by
                  simp only [RespParser.step, stageInteger]; rw [debugAssert_true (by simp), h5])]
                simp
            simp [stageOfKind, this, UnknownErrorCode, ViolatesAssertion, hb4, ResponseType.toByte]
          | dispatchError =>
            simp only [stageOfKind, UnknownErrorCode, ViolatesAssertion, hb4, ResponseType.toByte]
            cases h5 : buf[5]? with
            | none =>
              have := readBytes_no_panic m { idx := 5, stage := .dispatchError } buf 1 (by
                simp only [RespParser.step, stageDispatchError]; rw [debugAssert_true (by simp), h5])
              simp [this]
            | some b =>
              cases he : DispatchError.ofByte b with
              | none =>
                rw [feed_panic (by
                  simp only [RespParser.step, stageDispatchError]; rw [debugAssert_true (by simp), h5]
                  simp only [he])]
                have := dispatchError_ofByte_none.mp he
                simp [this]
              | some e =>
                rw [feed_concluded (r := .dispatchError e) (by
                  simp only [RespParser.step, stageDispatchError]; rw [debugAssert_true (by simp), h5]
                  simp only [he])]
                have : ¬ 7 < b.toNat := fun h => by rw [dispatchError_ofByte_none.mpr h] at he; simp at he
                simp; omega
          | parseError =>
            simp only [stageOfKind, UnknownErrorCode, ViolatesAssertion, hb4, ResponseType.toByte]
            cases h5 : buf[5]? with
            | none =>
              have := readBytes_no_panic m { idx := 5, stage := .parseError } buf 1 (by
                simp only [RespParser.step, stageParseError]; rw [debugAssert_true (by simp), h5])
              simp [this]
            | some b =>
              cases he : ReqParseError.ofByte b with
              | none =>
                rw [feed_panic (by
                  simp only [RespParser.step, stageParseError]; rw [debugAssert_true (by simp), h5]
                  simp only [he])]
                have := parseError_ofByte_none.mp he
                simp [this]
              | some e =>
                rw [feed_concluded (r := .parseError e) (by
                  simp only [RespParser.step, stageParseError]; rw [debugAssert_true (by simp), h5]
                  simp only [he])]
                have : ¬ 1 < b.toNat := fun h => by rw [parseError_ofByte_none.mpr h] at he; simp at he
                simp; omega
          | list =>
            obtain ⟨q1, q2⟩ := hcount .list 2 (Or.inl rfl) rfl
            simp only [stageOfKind, UnknownErrorCode, ViolatesAssertion, hb4, ResponseType.toByte]
            by_cases hlt : buf.length < 7
            · rw [q1 (by omega)]
              simp [hlt]; omega
            · have hst : RespParser.step m { idx := 5, stage := .typeInit .list 2 } buf =
                  .next { idx := 7, stage := .list [] (beNat ((buf.drop 5).take 2)) } := by
                simp only [RespParser.step, stageTypeInit]
                rw [debugAssert_true (by simp), q2 (by omega)]
              rw [feed_next hst]
              have := hcoll (.list [] (beNat ((buf.drop 5).take 2))) (Or.inl ⟨_, _, rfl⟩) (by omega)
              simp [this, hlt]
          | set =>
            obtain ⟨q1, q2⟩ := hcount .set 2 (Or.inl rfl) rfl
            simp only [stageOfKind, UnknownErrorCode, ViolatesAssertion, hb4, ResponseType.toByte]
            by_cases hlt : buf.length < 7
            · rw [q1 (by omega)]
              simp [hlt]; omega
            · have hst : RespParser.step m { idx := 5, stage := .typeInit .set 2 } buf =
                  .next { idx := 7, stage := .set [] (beNat ((buf.drop 5).take 2)) } := by
                simp only [RespParser.step, stageTypeInit]
                rw [debugAssert_true (by simp), q2 (by omega)]
              rw [feed_next hst]
              have := hcoll (.set [] (beNat ((buf.drop 5).take 2))) (Or.inr (Or.inr ⟨_, _, rfl⟩)) (by omega)
              simp [this, hlt]
          | map =>
            obtain ⟨q1, q2⟩ := hcount .map 2 (Or.inl rfl) rfl
            simp only [stageOfKind, UnknownErrorCode, ViolatesAssertion, hb4, ResponseType.toByte]
            by_cases hlt : buf.length < 7
            · rw [q1 (by omega)]
              simp [hlt]; omega
            · by_cases hz : beNat ((buf.drop 5).take 2) = 0
              · have hst : RespParser.step m { idx := 5, stage := .typeInit .map 2 } buf =
                    .concluded (.value (.map [])) := by
                  simp only [RespParser.step, stageTypeInit]
                  rw [debugAssert_true (by simp), q2 (by omega)]
                  simp only [hz, if_true]
                rw [feed_concluded hst]
                simp [hlt]
              · have hst : RespParser.step m { idx := 5, stage := .typeInit .map 2 } buf =
                    .next { idx := 7, stage := .map [] (beNat ((buf.drop 5).take 2)) } := by
                  simp only [RespParser.step, stageTypeInit]
                  rw [debugAssert_true (by simp), q2 (by omega)]
                  simp only [if_neg hz]
                rw [feed_next hst]
                have := hcoll (.map [] (beNat ((buf.drop 5).take 2))) (Or.inr (Or.inl ⟨_, _, rfl⟩)) (by omega)
                simp [this, hlt]
          | bytes =>
            obtain ⟨q1, q2⟩ := hcount .bytes 4 (Or.inr rfl) rfl
            simp only [stageOfKind, UnknownErrorCode, ViolatesAssertion, hb4, ResponseType.toByte]
            by_cases hlt : buf.length < 9
            · rw [q1 (by omega)]
              have : ¬ 9 ≤ buf.length := by omega
              simp [hlt, this]
            · have hst : RespParser.step m { idx := 5, stage := .typeInit .bytes 4 } buf =
                  .next { idx := 9, stage := .bytes (beNat ((buf.drop 5).take 4)) } := by
                simp only [RespParser.step, stageTypeInit]
                rw [debugAssert_true (by simp), q2 (by omega)]
              rw [feed_next hst]
              generalize hL : beNat ((buf.drop 5).take 4) = L
              have h9 : 9 ≤ buf.length := by omega
              have hrhs : (some (1 : UInt8) = some 8 ∧ (∃ b, buf[5]? = some b ∧ 1 < b.toNat) ∨
                  some (1 : UInt8) = some 9 ∧ (∃ b, buf[5]? = some b ∧ 7 < b.toNat)) = False := by simp
              simp only [h9, hlt, true_and, and_false, or_false, Option.some.injEq]
              have hgoal : (RespParser.feed m { idx := 9, stage := .bytes L } buf).1 = .panic ↔
                  m = .debug ∧ L = 0 := by
                constructor
                · intro h
                  cases hstep : RespParser.step m { idx := 9, stage := .bytes L } buf with
                  | next c' =>
                    simp only [RespParser.step, stageBytes, debugAssert_next] at hstep
                    have := hstep.2.2
                    split at this
                    · simp at this
                    · exact absurd this (remainingBytes_ne_next _ _ _ _ _)
                  | concluded r => rw [feed_concluded hstep] at h; simp at h
                  | readBytes k => exact absurd h (readBytes_no_panic _ _ _ _ hstep)
                  | error e => rw [feed_error hstep] at h; simp at h
                  | panic =>
                    simp only [RespParser.step, stageBytes, debugAssert_panic] at hstep
                    rcases hstep with ⟨-, h1⟩ | ⟨h1, h2⟩ | h1
                    · simp at h1
                    · exact ⟨h1, by simpa using h2⟩
                    · split at h1
                      · simp at h1
                      · rename_i hn
                        exact absurd h1 (remainingBytes_panic (by omega)
                          (by have := slice_none_lt hn (by omega); omega))
                · rintro ⟨rfl, rfl⟩
                  rw [feed_panic (by simp only [RespParser.step, stageBytes, debugAssert_panic]; right; left; simp)]
              rw [hgoal]
              simp
          | string =>
            obtain ⟨q1, q2⟩ := hcount .string 4 (Or.inr rfl) rfl
            simp only [stageOfKind, UnknownErrorCode, ViolatesAssertion, hb4, ResponseType.toByte]
            by_cases hlt : buf.length < 9
            · rw [q1 (by omega)]
              simp [hlt]
            · by_cases hz : beNat ((buf.drop 5).take 4) = 0
              · have hst : RespParser.step m { idx := 5, stage := .typeInit .string 4 } buf =
                    .concluded (.value (.string [])) := by
                  simp only [RespParser.step, stageTypeInit]
                  rw [debugAssert_true (by simp), q2 (by omega)]
                  simp only [hz, if_true]
                rw [feed_concluded hst]
                simp [hlt]
              · have hst : RespParser.step m { idx := 5, stage := .typeInit .string 4 } buf =
                    .next { idx := 9, stage := .string (beNat ((buf.drop 5).take 4)) } := by
                  simp only [RespParser.step, stageTypeInit]
                  rw [debugAssert_true (by simp), q2 (by omega)]
                  simp only [if_neg hz]
                rw [feed_next hst]
                generalize hL : beNat ((buf.drop 5).take 4) = L at hz
                have : (RespParser.feed m { idx := 9, stage := .string L } buf).1 ≠ .panic := by
                  intro h
                  cases hstep : RespParser.step m { idx := 9, stage := .string L } buf with
                  | next c' =>
                    simp only [RespParser.step, stageString, debugAssert_next] at hstep
                    have := hstep.2.2
                    split at this
                    · exact absurd this (subThen_ne_next _ _ _ _)
                    · split at this <;> simp at this
                  | concluded r => rw [feed_concluded hstep] at h; simp at h
                  | readBytes k => exact absurd h (readBytes_no_panic _ _ _ _ hstep)
                  | error e => rw [feed_error hstep] at h; simp at h
                  | panic =>
                    simp only [RespParser.step, stageString, debugAssert_panic] at hstep
                    rcases hstep with ⟨-, h1⟩ | ⟨-, h2⟩ | h1
                    · simp at h1
                    · simp at h2; omega
                    · split at h1
                      · rename_i hn
                        have h2 := slice_none_lt hn (by omega)
                        have h3 := subThen_panic.mp h1
                        omega
                      · split at h1 <;> simp at h1
                simp [this, hlt]

/-- C51 along any chunking of the bytes. -/
theorem C51_panic_chunked {m : Mode} {buf : Bytes} {c : Ctx} (h : Asking m buf c) (ext : Bytes) :
    (RespParser.feed m c (buf ++ ext)).1 = .panic ↔
      4 ≤ (buf ++ ext).length ∧ 4 + beNat ((buf ++ ext).take 4) ≤ (buf ++ ext).length ∧
        (UnknownErrorCode (buf ++ ext) ∨ (m = .debug ∧ ViolatesAssertion (buf ++ ext))) := by
  rw [C13_chunks h ext]
  exact C51_panic_iff m (buf ++ ext)

example : (RespParser.feed .release Ctx.new [0, 0, 0, 2, 8, 2]).1 = .panic ∧
    (RespParser.feed .debug Ctx.new [0, 0, 0, 2, 4, 0]).1 = .panic ∧
    (RespParser.feed .release Ctx.new [0, 0, 0, 2, 4, 0]).1 = .readBytes (2 ^ 64 - 3) := by
  refine ⟨(C51_panic_iff _ _).mpr ⟨by decide, by decide, Or.inl (Or.inl ⟨rfl, 2, rfl, by decide⟩)⟩,
    (C51_panic_iff _ _).mpr ⟨by decide, by decide, Or.inr ⟨rfl, Or.inr (Or.inl ⟨Or.inl rfl, by decide⟩)⟩⟩,
    by decide +kernel⟩

/-! ## C15 The response decoder never panics on arbitrary input -/

/-- C15 as one would want it. -/
def C15_Statement : Prop := ∀ (m : Mode) (buf : Bytes), (RespParser.feed m Ctx.new buf).1 ≠ .panic

theorem C15_false : ¬ C15_Statement := by
  intro h
  exact h .release [0, 0, 0, 2, 9, 8] ((C51_panic_iff _ _).mpr
    ⟨by decide, by decide, Or.inl (Or.inr ⟨rfl, 8, rfl, by decide⟩)⟩)

/-- What is left of C15 (missing: error frames with unknown codes, and debug builds; see C51 for the exact
set of panicking inputs): a release build panics on nothing but error frames with an unknown code. -/
theorem C15_release_partial (buf : Bytes) (h : buf[4]? ≠ some 8) (h' : buf[4]? ≠ some 9) :
    (RespParser.feed .release Ctx.new buf).1 ≠ .panic := by
  intro hp
  rcases ((C51_panic_iff _ _).mp hp).2.2 with (⟨h1, -⟩ | ⟨h1, -⟩) | ⟨h1, -⟩
  · exact h h1
  · exact h' h1
  · simp at h1

example : (RespParser.feed .release Ctx.new [0, 0, 0, 3, 4, 255, 255]).1 ≠ .panic :=
  C15_release_partial _ (by decide) (by decide)

/-! ## Further concrete cases -/

/-- A map key of 256 bytes. -/
example (env : Env) : ∃ out, Response.asBytes env (.value (.map [(List.replicate 256 1, [2])])) = some out ∧
    ∀ m' c', m'.Perm [(List.replicate 256 1, [2])] → RespParser.feed env.mode Ctx.new out ≠ (.concluded (.value (.map m')), c') :=
  C11_long_map_key env _ (by simp only [List.map_cons, List.map_nil]; exact List.nodup_cons.mpr ⟨by simp, List.nodup_nil⟩)
    (by simp only [body, payload, mapItem, List.flatMap_cons, List.flatMap_nil, List.length_cons, List.length_append, List.length_replicate, beBytes_length, List.length_nil]; decide)
    ⟨_, List.mem_singleton.mpr rfl, by simp only [List.length_replicate]; decide⟩

/-- A set item of 65536 bytes. -/
example (env : Env) : ∃ out, Response.asBytes env (.value (.set [List.replicate (2 ^ 16) 1])) = some out ∧
    ∀ s' c', s'.Perm [List.replicate (2 ^ 16) 1] → RespParser.feed env.mode Ctx.new out ≠ (.concluded (.value (.set s')), c') :=
  C11_long_set_item env _ (List.nodup_cons.mpr ⟨by simp only [List.not_mem_nil, not_false_eq_true], List.nodup_nil⟩)
    (by simp only [body, payload, setItem, List.flatMap_cons, List.flatMap_nil, List.length_cons, List.length_append, List.length_replicate, beBytes_length, List.length_nil]; decide)
    ⟨_, List.mem_singleton.mpr rfl, by simp only [List.length_replicate]; decide⟩

/-- A map of 65536 entries. -/
example (env : Env) : ∃ out, Response.asBytes env (.value (.map (List.replicate (2 ^ 16) ([], [])))) = some out ∧
    RespParser.feed env.mode Ctx.new out = (.concluded (.value (.map [])), Ctx.new) :=
  C11_map_65536_becomes_empty env _ (by simp only [List.length_replicate]) (by
    have h : ∀ n, ((List.replicate n ([], [])).flatMap mapItem).length = 5 * n := by
      intro n
      induction n with
      | zero => rfl
      | succ n ih => simp only [List.replicate_succ, List.flatMap_cons, List.length_append, ih]; simp [mapItem]; omega
    simp only [body, payload, List.length_cons, List.length_append, beBytes_length, h]; decide)

/-- A set of two items, with another response after it. -/
example : ∃ out r', Response.asBytes (sampleEnv .debug) (.value (.set [[1], [2, 3]])) = some out ∧
    RespParser.feed .debug Ctx.new (out ++ [0, 0, 0, 2, 0, 1]) = (.concluded r', Ctx.new) ∧ SameResponse r' (.value (.set [[1], [2, 3]])) :=
  C11_round_trip_partial (sampleEnv .debug) _ [0, 0, 0, 2, 0, 1] ⟨by decide, by decide, by decide, by decide, by decide⟩

/-- The header of a text written after other bytes. -/
example (env : Env) (out : Bytes) (hw : Response.copyTo env [9, 9] (.value (.string ['a', 'b'])) = some out) :
    ∃ rest, out = [9, 9] ++ beBytes 4 rest.length ++ rest ∧ rest.length < 2 ^ 32 ∧ beNat (beBytes 4 rest.length) = rest.length ∧
      rest = [7, 0, 0, 0, 2, 97, 98] :=
  C12_header_exact env [9, 9] out _ (by decide) hw

/-- Going on after three bytes of the header, whatever follows. -/
example (m : Mode) (ext : Bytes) : ∃ n c', RespParser.feed m Ctx.new [0, 0, 0] = (.readBytes n, c') ∧
    RespParser.feed m c' ([0, 0, 0] ++ ext) = RespParser.feed m Ctx.new ([0, 0, 0] ++ ext) := by
  have h : RespParser.feed m Ctx.new [0, 0, 0] = (.readBytes 1, (RespParser.feed m Ctx.new [0, 0, 0]).2) := by
    cases m <;> decide +kernel
  exact ⟨_, _, h, C13_resume m _ _ _ ext _ h⟩

/-- Two responses in a row. -/
example (rest : Bytes) : ∃ stream rs', [.value (.boolean true), .value (.bytes [5])].foldlM (Response.copyTo (sampleEnv .debug)) [] = some ([] ++ stream) ∧
    readMany .debug 2 Ctx.new (stream ++ rest) = some (rs', Ctx.new, rest) ∧ rs'.length = 2 ∧
    ∀ (i : Nat) (r r' : Response), [.value (.boolean true), .value (.bytes [5])][i]? = some r → rs'[i]? = some r' → SameResponse r' r :=
  C14_reads_exactly (sampleEnv .debug) [.value (.boolean true), .value (.bytes [5])] [] rest (by
    intro r hr
    simp only [List.mem_cons, List.not_mem_nil, or_false] at hr
    rcases hr with rfl | rfl
    · trivial
    · exact ⟨by decide, by decide⟩)

/-- A dispatch error of unknown code that arrives in two pieces. -/
example (m : Mode) : ∃ c, Asking m [0, 0, 0, 2] c ∧ (RespParser.feed m c ([0, 0, 0, 2] ++ [8, 200])).1 = .panic := by
  have h : Asking m ([] ++ [0, 0, 0, 2]) (RespParser.feed m Ctx.new [0, 0, 0, 2]).2 :=
    Asking.more (n := 2) .start (by cases m <;> decide +kernel)
  exact ⟨_, h, (C51_panic_chunked h [8, 200]).mpr ⟨by decide, by decide, .inl (.inl ⟨rfl, 200, rfl, by decide⟩)⟩⟩

end Hop
