import Verif.Lemmas.BuilderValue
import Verif.Lemmas.Encode
import Verif.Spec.Sample

/-! # Properties of the request builder: C01 - C05 -/

namespace Hop

open Spec

/-! ## C01 Built requests return exactly the arguments put in -/

/-- C01. For every command other than Stats (or Stats without arguments), with or without key type, and
every list of at most 255 non-empty arguments of any length. -/
theorem C01_built_request_args (m : Mode) (c : CommandId) (kt : Option KeyType) (args : List Bytes)
    (hc : c ≠ .stats ∨ args = []) (hn : args.length ≤ 255) (hne : ∀ a ∈ args, a ≠ []) :
    ∃ b, (Builder.newWithKeyType c kt).bytesAll m args = (.ok (), b) ∧
      Views b.intoRequest c kt args ∧
      (∀ i, b.intoRequest.argsFrom i = if args = [] then none else some (args.drop i)) ∧
      (takesKey c → b.intoRequest.key = args.head?) ∧
      (¬ takesKey c → b.intoRequest.key = none) := by
  have key : ∀ b : Builder, Views b.intoRequest c kt args →
      (∀ i, b.intoRequest.argsFrom i = if args = [] then none else some (args.drop i)) ∧
      (takesKey c → b.intoRequest.key = args.head?) ∧
      (¬ takesKey c → b.intoRequest.key = none) := by
    intro b hv
    refine ⟨argsFrom_eq hv, ?_, ?_⟩
    · intro hk
      have : c.keyNotation ≠ .none := by
        obtain ⟨h1, h2⟩ := hk
        cases c <;> simp_all [CommandId.keyNotation]
      rw [Request.key, hv.command, if_neg this, hv.arg 0, List.head?_eq_getElem?]
    · intro hk
      have : c.keyNotation = .none := by
        unfold takesKey at hk
        cases c <;> simp_all [CommandId.keyNotation]
      rw [Request.key, hv.command, if_pos this]
  by_cases hs : c = .stats
  · subst hs
    obtain rfl : args = [] := by simpa using hc
    have hv : Views (Builder.newWithKeyType .stats kt).intoRequest .stats kt [] :=
      ⟨rfl, rfl, rfl, fun i => by simp [Request.arg, Builder.intoRequest, Builder.newWithKeyType]⟩
    exact ⟨_, rfl, hv, key _ hv⟩
  · have hns : c.isSimple = false := by cases c <;> first | rfl | exact absurd rfl hs
    obtain ⟨b, hb, hi⟩ := (BInv.new c kt hns).bytesAll m args (by simpa using hn) hne
    have hv := hi.views
    simp only [List.nil_append] at hv
    exact ⟨b, hb, hv, key b hv⟩

/-- `RequestBuilder::new(c)` is `new_with_key_type(c, None)`, so C01 covers it too. -/
theorem C01_new (c : CommandId) : Builder.new c = Builder.newWithKeyType c none := Builder.new_eq c

/-- The one exception: Stats reserves no count byte, so an argument given to it cannot be read back. -/
theorem C01_stats_argument_lost (m : Mode) (kt : Option KeyType) (a : Bytes) (ha : a ≠ []) :
    ∃ b, (Builder.newWithKeyType .stats kt).bytes m a = (.ok (), b) ∧
      b.intoRequest.argCount = 1 ∧ b.intoRequest.arg 0 = none := by
  have hadd : addU m 8 0 1 = some 1 := by cases m <;> rfl
  cases kt with
  | none =>
    refine ⟨_, by
      simp [Builder.bytes, ha, Builder.pushAll, Builder.pushArgument, hadd, Builder.newWithKeyType,
        Builder.base, CommandId.isSimple, CommandId.argumentNotation, CommandId.keyNotation,
        show 0 < 4 + a.length by omega]
      rfl, rfl, ?_⟩
    simp [Request.arg, Builder.intoRequest, slice]
    try omega
  | some t =>
    refine ⟨_, by
      simp [Builder.bytes, ha, Builder.pushAll, Builder.pushArgument, hadd, Builder.newWithKeyType,
        Builder.base, CommandId.isSimple, CommandId.argumentNotation, CommandId.keyNotation,
        show 0 < 4 + a.length by omega]
      rfl, rfl, ?_⟩
    simp [Request.arg, Builder.intoRequest, slice]
    try omega

example : ∃ b, (Builder.newWithKeyType .set (some .integer)).bytesAll .debug [[102, 111], [1, 2, 3]]
    = (.ok (), b) ∧ b.intoRequest.arg 1 = some [1, 2, 3] := by
  obtain ⟨b, hb, hv, -⟩ := C01_built_request_args .debug .set (some .integer) [[102, 111], [1, 2, 3]]
    (by decide) (by decide) (by decide)
  exact ⟨b, hb, hv.arg 1⟩

/-! ## C02 Request bytes are an unambiguous encoding -/

/-- C02, layout: the bytes of a built request are the documented layout. -/
theorem C02_layout (m : Mode) (c : CommandId) (kt : Option KeyType) (args : List Bytes)
    (hc : c ≠ .stats) (hn : args.length ≤ 255) (hne : ∀ a ∈ args, a ≠ []) :
    ∃ b, (Builder.newWithKeyType c kt).bytesAll m args = (.ok (), b) ∧
      b.intoRequest.buf = encode c kt args := by
  have hns : c.isSimple = false := by cases c <;> first | rfl | exact absurd rfl hc
  obtain ⟨b, hb, hi⟩ := (BInv.new c kt hns).bytesAll m args (by simpa using hn) hne
  exact ⟨b, hb, by show b.buf = _; simpa using hi.buf⟩

/-- C02, unambiguity: built requests (of commands other than Stats) with equal bytes are the same
request. -/
theorem C02_unambiguous (m m' : Mode) (c c' : CommandId) (kt kt' : Option KeyType)
    (args args' : List Bytes) (b b' : Builder)
    (hc : c ≠ .stats) (hc' : c' ≠ .stats)
    (hn : args.length ≤ 255) (hn' : args'.length ≤ 255)
    (hne : ∀ a ∈ args, a ≠ []) (hne' : ∀ a ∈ args', a ≠ [])
    (hl : ∀ a ∈ args, a.length < 2 ^ 32) (hl' : ∀ a ∈ args', a.length < 2 ^ 32)
    (hb : (Builder.newWithKeyType c kt).bytesAll m args = (.ok (), b))
    (hb' : (Builder.newWithKeyType c' kt').bytesAll m' args' = (.ok (), b'))
    (h : b.intoRequest.buf = b'.intoRequest.buf) : c = c' ∧ kt = kt' ∧ args = args' := by
  obtain ⟨b1, hb1, he1⟩ := C02_layout m c kt args hc hn hne
  obtain ⟨b2, hb2, he2⟩ := C02_layout m' c' kt' args' hc' hn' hne'
  rw [hb] at hb1
  rw [hb'] at hb2
  obtain rfl : b = b1 := by simpa using hb1
  obtain rfl : b' = b2 := by simpa using hb2
  rw [he1, he2] at h
  exact encode_inj hn hn' hl hl' h

example : ∃ b, (Builder.newWithKeyType .append none).bytesAll .release [[107], [1, 2]] = (.ok (), b) ∧
    b.intoRequest.buf = [20, 2, 0, 0, 0, 1, 107, 0, 0, 0, 2, 1, 2] := by
  obtain ⟨b, hb, he⟩ := C02_layout .release .append none [[107], [1, 2]] (by decide) (by decide)
    (by decide)
  exact ⟨b, hb, he⟩

/-! ## C03 Values survive being passed as request arguments -/

/-- C03. Whatever value the builder accepts after a key (taking at most 254 arguments) is read back from
the finished request by the accessors, up to the order of maps and sets. -/
theorem C03_value_round_trip (env : Env) (c : CommandId) (kt : Option KeyType) (k : Bytes) (v : Value)
    (b b' : Builder) (hc : c ≠ .stats) (hwf : WF v) (hn : argsOf v ≤ 254)
    (hk : (Builder.newWithKeyType c kt).bytes env.mode k = (.ok (), b))
    (hv : b.value env v = (.ok (), b')) :
    b'.intoRequest.arg 0 = some k ∧ ∃ w, readValue b'.intoRequest v.kind = some w ∧ Same w v := by
  have hns : c.isSimple = false := by cases c <;> first | rfl | exact absurd rfl hc
  have hkne : k ≠ [] := by
    rintro rfl
    simp [Builder.bytes] at hk
  obtain ⟨b1, hb1, hi1⟩ := (BInv.new c kt hns).bytes env.mode k (by simp) hkne
  rw [hk] at hb1
  obtain rfl : b = b1 := by simpa using hb1
  have hacc : acceptable v := by
    cases v with
    | bytes x =>
      intro hx; subst hx; simp [Builder.value] at hv
    | string x =>
      intro hx; subst hx; simp [Builder.value] at hv
    | map x =>
      intro hx; subst hx
      simp only [Builder.value, if_true] at hv
      split at hv <;> simp at hv
    | set x =>
      intro hx; subst hx
      simp only [Builder.value, if_true] at hv
      split at hv <;> simp at hv
    | list l =>
      simp only [argsOf] at hn
      by_cases hall : ∀ a ∈ l, a ≠ []
      · exact hall
      · obtain ⟨b2, hb2, -⟩ := pushItems_empty hi1 env.mode l (by simp; omega) hall
        simp only [Builder.value] at hv
        split at hv
        · simp at hv
        · rw [hb2] at hv; simp at hv
    | boolean => trivial
    | float => trivial
    | integer => trivial
  obtain ⟨b2, hb2, hi2⟩ := hi1.value env v (by simp; omega) hacc
  rw [hv] at hb2
  obtain rfl : b' = b2 := by simpa using hb2
  have hviews := hi2.views
  simp only [List.nil_append, List.singleton_append] at hviews
  exact ⟨by rw [hviews.arg 0]; rfl, readValue_of_views hviews hwf⟩

example : ∃ b b' w, (Builder.newWithKeyType .set (some .map)).bytes .debug [107] = (.ok (), b) ∧
    b.value (sampleEnv .debug) (.map [([1], [2]), ([3], [])]) = (.ok (), b') ∧
    readValue b'.intoRequest .map = some w ∧ Same w (.map [([1], [2]), ([3], [])]) := by
  refine ⟨_, _, _, rfl, rfl, rfl, ?_⟩
  exact List.Perm.swap _ _ _

/-! ## C04 The builder enforces the 255 argument limit with an error -/

/-- The count byte of the request agrees with its number of arguments. -/
def CountRight (b : Builder) : Prop :=
  ∃ x, b.buf[if b.keyType.isSome then 2 else 1]? = some x ∧ x.toNat = b.intoRequest.argCount

/-- C04 as stated: on a builder made by `bytes` calls, no call panics, and a successful call leaves a
correct count byte. -/
def C04_Statement : Prop :=
  ∀ (env : Env) (c : CommandId) (kt : Option KeyType) (args : List Bytes) (b : Builder),
    c ≠ .stats → (Builder.newWithKeyType c kt).bytesAll env.mode args = (.ok (), b) →
    (∀ a, (b.bytes env.mode a).1 ≠ .panic ∧
      ∀ b', b.bytes env.mode a = (.ok (), b') → CountRight b') ∧
    (∀ v, WF v → (b.value env v).1 ≠ .panic ∧
      ∀ b', b.value env v = (.ok (), b') → CountRight b')

theorem BInv.countRight {b : Builder} {c kt args} (h : BInv b c kt args) (hn : args.length ≤ 255) :
    CountRight b := by
  refine ⟨UInt8.ofNat args.length, ?_, ?_⟩
  · rw [h.buf, h.keyType, encode]
    cases kt <;> simp [encodeHead]
  · have := h.views.count
    rw [this, UInt8.toNat_ofNat']
    omega

/-- What really happens at the limit: with 255 arguments in the builder, one more argument panics in a
debug build, and in a release build succeeds with count byte 0 on a request of 256 arguments. -/
theorem C04_overflow (c : CommandId) (kt : Option KeyType) (args : List Bytes) (b : Builder)
    (h : BInv b c kt args) (hn : args.length = 255) (a : Bytes) (ha : a ≠ []) :
    b.bytes .debug a = (.panic, b) ∧
    ∃ b', b.bytes .release a = (.ok (), b') ∧ b'.intoRequest.argCount = 256 ∧
      b'.buf[if kt.isSome then 2 else 1]? = some 0 := by
  have hd : addU .debug 8 b.argumentCount 1 = none := by rw [h.count, hn]; rfl
  have hr : addU .release 8 b.argumentCount 1 = some 0 := by rw [h.count, hn]; rfl
  have hb : b.base = baseOf kt := by simp [Builder.base, baseOf, h.keyType]
  have hlen : b.buf.length = 2 + baseOf kt + argsSize args := by
    rw [h.buf]
    simp only [encode, List.length_append, encodeHead_length, List.length_singleton, argsSize]; omega
  have hlt : 1 + b.base < (b.buf ++ beBytes 4 (a.length % 2 ^ 32) ++ a).length := by
    rw [hb]; simp only [List.length_append, hlen, beBytes_length]; omega
  have hp : b.positions.length < 256 := by rw [h.positions, positionsOf_length]; omega
  constructor
  · simp [Builder.bytes, ha, Builder.pushAll, Builder.pushArgument, hd]
  · refine ⟨_, by
      simp only [Builder.bytes, if_neg ha, Builder.pushAll, Builder.pushArgument, hr, if_pos hlt, if_pos hp]
      rfl, ?_, ?_⟩
    · simp [Builder.intoRequest, Request.argCount, h.positions, hn]
    · have hi : (if kt.isSome then 2 else 1) = 1 + b.base := by rw [hb]; cases kt <;> rfl
      simp only
      rw [hi, List.getElem?_set_self hlt]
      rfl

/-- C04 is false. -/
theorem C04_false : ¬ C04_Statement := by
  intro h
  have hne : ∀ a ∈ List.replicate 255 ([1] : Bytes), a ≠ [] := by
    intro a ha; rw [List.eq_of_mem_replicate ha]; simp
  obtain ⟨b, hb, hi⟩ := (BInv.new .echo none rfl).bytesAll .debug (List.replicate 255 [1])
    (by simp only [List.length_replicate]; decide) hne
  have hfst := (h (sampleEnv .debug) .echo none _ b (by decide) hb).1 [1]
  have hover := (C04_overflow .echo none _ b hi
    (by simp only [List.nil_append, List.length_replicate]) [1] (by decide)).1
  exact hfst.1 (congrArg Prod.fst hover)

/-- C04, the part that holds: as long as the resulting number of arguments is at most 255 no call
panics or reports too many arguments and the count byte is right; and a list, map or set of fewer than
256 elements, whose number of elements does not fit, is rejected with `TooManyArguments` leaving the
builder unchanged. Missing: see `C04_overflow` (an argument beyond 255 is not rejected), lengths of 256
and more are taken modulo 256, and a map counts its entries once although each takes two arguments. -/
theorem C04_limit_partial (env : Env) (c : CommandId) (kt : Option KeyType) (args : List Bytes)
    (b : Builder) (hc : c ≠ .stats)
    (hb : (Builder.newWithKeyType c kt).bytesAll env.mode args = (.ok (), b))
    (hn : args.length ≤ 255) :
    (∀ a, args.length < 255 → (a = [] ∧ b.bytes env.mode a = (.err .argumentEmpty, b)) ∨
      ∃ b', b.bytes env.mode a = (.ok (), b') ∧ CountRight b' ∧
        b'.intoRequest.argCount = args.length + 1) ∧
    (∀ v, args.length + argsOf v ≤ 255 →
      (∃ b', b.value env v = (.err .valueEmpty, b')) ∨
      ∃ b', b.value env v = (.ok (), b') ∧ CountRight b' ∧
        b'.intoRequest.argCount = args.length + argsOf v) ∧
    (∀ l : List Bytes, l.length < 256 → 255 < args.length + l.length →
      b.value env (.list l) = (.err .tooManyArguments, b) ∧
      b.value env (.set l) = (.err .tooManyArguments, b)) ∧
    (∀ l : BMap, l.length < 256 → 255 < args.length + l.length →
      b.value env (.map l) = (.err .tooManyArguments, b)) := by
  have hns : c.isSimple = false := by cases c <;> first | rfl | exact absurd rfl hc
  have hne : ∀ a ∈ args, a ≠ [] := by
    intro a ha hnil
    subst hnil
    clear hn
    revert hb
    generalize Builder.newWithKeyType c kt = b0
    induction args generalizing b0 with
    | nil => simp at ha
    | cons x xs ih =>
      simp only [Builder.bytesAll]
      rcases List.mem_cons.mp ha with rfl | ha
      · simp [Builder.bytes]
      · split
        · exact ih ha _
        · rename_i r hr
          intro hb
          exact (hr b hb).elim
  obtain ⟨b1, hb1, hi⟩ := (BInv.new c kt hns).bytesAll env.mode args (by simpa using hn) hne
  rw [hb] at hb1
  obtain rfl : b = b1 := by simpa using hb1
  simp only [List.nil_append] at hi
  have hover : ∀ n, n < 256 → 255 < args.length + n → b.wouldOverfill (n % 256) = true := by
    intro n h1 h2
    simp only [Builder.wouldOverfill, hi.count, decide_eq_true_eq]
    omega
  refine ⟨?_, ?_, ?_, ?_⟩
  · intro a hlt
    by_cases ha : a = []
    · exact Or.inl ⟨ha, by simp [Builder.bytes, ha]⟩
    · obtain ⟨b', hb', hi'⟩ := hi.bytes env.mode a hlt ha
      exact Or.inr ⟨b', hb', hi'.countRight (by simp; omega), by rw [hi'.views.count]; simp⟩
  · intro v hv
    by_cases hacc : acceptable v
    · obtain ⟨b', hb', hi'⟩ := hi.value env v hv hacc
      have hl : (args ++ valueArgs env v).length = args.length + argsOf v := by
        rw [List.length_append, valueArgs_length]
      exact Or.inr ⟨b', hb', hi'.countRight (by rw [hl]; exact hv), by rw [hi'.views.count, hl]⟩
    · left
      have hnov : ∀ n, args.length + n ≤ 255 → b.wouldOverfill (n % 256) = false := by
        intro n hn
        simp only [Builder.wouldOverfill, hi.count, decide_eq_false_iff_not]
        omega
      cases v with
      | boolean => exact absurd trivial hacc
      | float => exact absurd trivial hacc
      | integer => exact absurd trivial hacc
      | bytes x =>
        obtain rfl : x = [] := Decidable.not_not.mp hacc
        exact ⟨b, by simp [Builder.value]⟩
      | string x =>
        obtain rfl : x = [] := Decidable.not_not.mp hacc
        exact ⟨b, by simp [Builder.value]⟩
      | map x =>
        obtain rfl : x = [] := Decidable.not_not.mp hacc
        exact ⟨b, by simp [Builder.value, hnov 0 (by simpa using hn)]⟩
      | set x =>
        obtain rfl : x = [] := Decidable.not_not.mp hacc
        exact ⟨b, by simp [Builder.value, hnov 0 (by simpa using hn)]⟩
      | list l =>
        obtain ⟨b', hb', -⟩ := pushItems_empty hi env.mode l (by simpa [argsOf] using hv) hacc
        exact ⟨b', by simp [Builder.value, hnov l.length (by simpa [argsOf] using hv), hb']⟩
  · intro l h1 h2
    simp [Builder.value, hover _ h1 h2]
  · intro l h1 h2
    simp [Builder.value, hover _ h1 h2]

theorem BInv.push_full {b : Builder} {c kt args} (h : BInv b c kt args) (a : Bytes)
    (hn : args.length = 255) : b.pushArgument .debug a = none := by
  have hd : addU .debug 8 b.argumentCount 1 = none := by rw [h.count, hn]; rfl
  simp [Builder.pushArgument, hd]

theorem BInv.pushAll_panic {b : Builder} {c kt args} (h : BInv b c kt args) (as : List Bytes)
    (hn : args.length ≤ 255) (hov : 255 < args.length + as.length) :
    (b.pushAll .debug as).1 = .panic := by
  induction as generalizing b args with
  | nil => simp at hov; omega
  | cons a as ih =>
    by_cases hf : args.length = 255
    · simp [Builder.pushAll, h.push_full a hf]
    · obtain ⟨b1, hb1, hi1⟩ := h.push .debug a (by omega)
      simp only [Builder.pushAll, hb1]
      exact ih hi1 (by simp; omega) (by simp at hov ⊢; omega)

theorem BInv.pushItems_panic {b : Builder} {c kt args} (h : BInv b c kt args) (as : List Bytes)
    (hn : args.length ≤ 255) (hov : 255 < args.length + as.length) (hne : [] ∉ as) :
    (b.pushItems .debug as).1 = .panic := by
  induction as generalizing b args with
  | nil => simp at hov; omega
  | cons a as ih =>
    simp only [List.mem_cons, not_or] at hne
    by_cases hf : args.length = 255
    · simp [Builder.pushItems, h.push_full a hf, Ne.symm hne.1]
    · obtain ⟨b1, hb1, hi1⟩ := h.push .debug a (by omega)
      simp only [Builder.pushItems, hb1, if_neg (Ne.symm hne.1)]
      exact ih hi1 (by simp; omega) (by simp at hov ⊢; omega) hne.2

/-- The other gaps named in `C04_limit_partial`: in a debug build a list whose length is small modulo
256, and a map with too many arguments but few enough entries, are let through the check and panic. -/
theorem C04_list_map_panic (env : Env) (hm : env.mode = .debug) (c : CommandId) (kt : Option KeyType)
    (args : List Bytes) (b : Builder) (h : BInv b c kt args) (hn : args.length ≤ 255) :
    (∀ l : List Bytes, [] ∉ l → 255 < args.length + l.length → args.length + l.length % 256 ≤ 255 →
      (b.value env (.list l)).1 = .panic) ∧
    (∀ mp : BMap, mp ≠ [] → 255 < args.length + 2 * mp.length →
      args.length + mp.length % 256 ≤ 255 → (b.value env (.map mp)).1 = .panic) := by
  have hnov : ∀ n, args.length + n % 256 ≤ 255 → b.wouldOverfill (n % 256) = false := by
    intro n hn
    simp only [Builder.wouldOverfill, h.count, decide_eq_false_iff_not]
    omega
  constructor
  · intro l hne h1 h2
    simp only [Builder.value, hnov _ h2, hm]
    exact h.pushItems_panic l hn h1 hne
  · intro mp hne h1 h2
    simp only [Builder.value, hnov _ h2, hm, if_neg hne]
    refine h.pushAll_panic _ hn ?_
    rw [flattenPairs_length, (env.mapOrd_perm mp).length_eq]
    exact h1

example : ∃ b, (Builder.newWithKeyType .echo none).bytesAll .debug [[1], [2]] = (.ok (), b) ∧
    b.value (sampleEnv .debug) (.list (List.replicate 254 [7])) = (.err .tooManyArguments, b) := by
  refine ⟨_, rfl, ?_⟩
  exact ((C04_limit_partial (sampleEnv .debug) .echo none [[1], [2]] _ (by decide) rfl
    (by decide)).2.2.1 _ (by simp only [List.length_replicate]; decide)
      (by simp only [List.length_replicate]; decide)).1

/-! ## C05 A failed builder call leaves the builder as it was -/

/-- C05 as stated. -/
def C05_Statement : Prop :=
  ∀ (env : Env) (b : Builder),
    (∀ a e b', b.bytes env.mode a = (.err e, b') → b' = b) ∧
    (∀ v e b', b.value env v = (.err e, b') → b' = b)

/-- C05 is false: a list with an empty item after a good one leaves the good one behind. -/
theorem C05_false : ¬ C05_Statement := by
  intro h
  have := (h (sampleEnv .release) (Builder.new .set)).2 (.list [[1], []]) .valueEmpty _ rfl
  exact absurd this (by decide)

theorem pushAll_not_err (m : Mode) (as : List Bytes) (b : Builder) (e : BuilderError) (b' : Builder) :
    b.pushAll m as ≠ (.err e, b') := by
  induction as generalizing b with
  | nil => simp [Builder.pushAll]
  | cons a as ih =>
    simp only [Builder.pushAll]
    split
    · simp
    · exact ih _

theorem pushItems_no_empty (m : Mode) (as : List Bytes) (b : Builder) (e : BuilderError) (b' : Builder)
    (hne : [] ∉ as) : b.pushItems m as ≠ (.err e, b') := by
  induction as generalizing b with
  | nil => simp [Builder.pushItems]
  | cons a as ih =>
    simp only [List.mem_cons, not_or] at hne
    simp only [Builder.pushItems]
    rw [if_neg (fun h => hne.1 h.symm)]
    split
    · simp
    · exact ih _ hne.2

/-- C05, the part that holds: every failing `bytes` call, and every failing `value` call except with a
list that has an empty item after its first one. Missing: those lists (`C05_false`). -/
theorem C05_unchanged_partial (env : Env) (b : Builder) :
    (∀ a e b', b.bytes env.mode a = (.err e, b') → b' = b) ∧
    (∀ v e b', b.value env v = (.err e, b') →
      (∀ l, v = .list l → l.head? = some [] ∨ [] ∉ l) → b' = b) := by
  constructor
  · intro a e b' h
    simp only [Builder.bytes] at h
    split at h
    · simp at h; exact h.2.symm
    · exact absurd h (pushAll_not_err _ _ _ _ _)
  · intro v e b' h hl
    cases v <;> simp only [Builder.value] at h
    case list l =>
      split at h
      · simp at h; exact h.2.symm
      · rcases hl l rfl with h1 | h1
        · cases l with
          | nil => simp at h1
          | cons x xs =>
            simp at h1; subst h1
            simp [Builder.pushItems] at h
            exact h.2.symm
        · exact absurd h (pushItems_no_empty _ _ _ _ _ h1)
    all_goals
      repeat' split at h
      all_goals first
        | (simp at h; exact h.2.symm)
        | exact absurd h (pushAll_not_err _ _ _ _ _)

example : ((Builder.new .set).value (sampleEnv .debug) (.map [])) = (.err .valueEmpty, Builder.new .set) :=
  rfl

/-! ## Further concrete cases -/

/-- The argument of a Stats request is counted and not found. -/
example : ∃ b, (Builder.newWithKeyType .stats none).bytes .debug [97, 98] = (.ok (), b) ∧
    b.intoRequest.argCount = 1 ∧ b.intoRequest.arg 0 = none :=
  C01_stats_argument_lost .debug none [97, 98] (by decide)

/-- A request is not mistaken for one that has the same arguments cut in another place. -/
example (b b' : Builder) (hb : (Builder.newWithKeyType .append none).bytesAll .debug [[107], [1, 2]] = (.ok (), b))
    (hb' : (Builder.newWithKeyType .append none).bytesAll .release [[107, 1], [2]] = (.ok (), b')) :
    b.intoRequest.buf ≠ b'.intoRequest.buf := fun h =>
  absurd (C02_unambiguous .debug .release .append .append none none _ _ b b' (by decide) (by decide) (by decide) (by decide) (by decide)
    (by decide) (by decide) (by decide) hb hb' h).2.2 (by decide)

example : ∃ b b' : Builder, (Builder.newWithKeyType .append none).bytesAll .debug [[107], [1, 2]] = (.ok (), b) ∧
    (Builder.newWithKeyType .append none).bytesAll .release [[107, 1], [2]] = (.ok (), b') := ⟨_, _, rfl, rfl⟩

/-- A list given to the builder after a key. -/
example (b b' : Builder) (hk : (Builder.newWithKeyType .set (some .list)).bytes .debug [107] = (.ok (), b))
    (hv : b.value (sampleEnv .debug) (.list [[1], [2, 3]]) = (.ok (), b')) :
    b'.intoRequest.arg 0 = some [107] ∧ ∃ w, readValue b'.intoRequest .list = some w ∧ Same w (.list [[1], [2, 3]]) :=
  C03_value_round_trip (sampleEnv .debug) .set (some .list) [107] (.list [[1], [2, 3]]) b b' (by decide) trivial (by decide) hk hv

/-- A request with as many arguments as there may be. -/
theorem fullBuilder : ∃ b, (Builder.newWithKeyType .echo none).bytesAll .debug (List.replicate 255 [7]) = (.ok (), b) ∧
    BInv b .echo none (List.replicate 255 [7]) := by
  obtain ⟨b, hb, hi⟩ := (BInv.new .echo none rfl).bytesAll .debug (List.replicate 255 [7])
    (by simp only [List.length_replicate]; decide) (fun a h => by rw [(List.mem_replicate.mp h).2]; decide)
  exact ⟨b, hb, hi⟩

/-- One argument more. -/
example : ∃ b, (Builder.newWithKeyType .echo none).bytesAll .debug (List.replicate 255 [7]) = (.ok (), b) ∧
    b.bytes .debug [8] = (.panic, b) := by
  obtain ⟨b, hb, hi⟩ := fullBuilder
  exact ⟨b, hb, (C04_overflow .echo none _ b hi (by simp only [List.length_replicate]) [8] (by decide)).1⟩

/-- A list of 256 items more. -/
example : ∃ b, (Builder.newWithKeyType .echo none).bytesAll .debug (List.replicate 255 [7]) = (.ok (), b) ∧
    (b.value (sampleEnv .debug) (.list (List.replicate 256 [8]))).1 = .panic := by
  obtain ⟨b, hb, hi⟩ := fullBuilder
  exact ⟨b, hb, (C04_list_map_panic (sampleEnv .debug) rfl .echo none _ b hi (by simp only [List.length_replicate]; decide)).1 _
    (fun h => absurd (List.mem_replicate.mp h).2 (by decide)) (by simp only [List.length_replicate]; decide)
    (by simp only [List.length_replicate]; decide)⟩

/-- An empty key is refused, and nothing is written. -/
example : ∃ e b', (Builder.new .set).bytes .release [] = (.err e, b') ∧ b' = Builder.new .set :=
  ⟨_, _, rfl, (C05_unchanged_partial (sampleEnv .release) _).1 [] _ _ rfl⟩

end Hop
