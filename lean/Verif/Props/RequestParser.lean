import Verif.Lemmas.ReqParser
import Verif.Props.Builder

/-! # Properties of the server-side request parser: C06 - C09, C49 -/

namespace Hop

open Spec ReqParser

/-! ## Vocabulary -/

/-- Parser states that occur: a new parser, and whatever any call of `feed` that returns leaves behind,
with arbitrary buffers. -/
inductive Reachable : Ctx → Prop where
  | new : Reachable Ctx.new
  | feed {c buf r c'} : Reachable c → ReqParser.feed c buf = (r, c') → r ≠ .panic → Reachable c'

/-- A parser that has been given `buf` in pieces (each call seeing everything so far) and has asked for
more every time. -/
inductive Waiting : Bytes → Ctx → Prop where
  | start : Waiting [] Ctx.new
  | more {buf c ext c'} : Waiting buf c → ReqParser.feed c (buf ++ ext) = (.more, c') →
      Waiting (buf ++ ext) c'

/-- Feeding a list of chunks one after another, each call seeing the chunks so far, until an answer other
than "need more" comes. -/
def feedChunks (c : Ctx) (sofar : Bytes) : List Bytes → Fed × Ctx × Bytes
  | [] => (.more, c, sofar)
  | x :: xs =>
    match ReqParser.feed c (sofar ++ x) with
    | (.more, c') => feedChunks c' (sofar ++ x) xs
    | (r, c') => (r, c', sofar ++ x)

/-! ## C06 Chunking of request bytes does not matter -/

/-- C06. Resuming after "need more data" is the same as having seen all the bytes at once: same answer,
same state afterwards. For every parser state, reachable or not. -/
theorem C06_resume (c c' : Ctx) (buf ext : Bytes) (h : ReqParser.feed c buf = (.more, c')) :
    ReqParser.feed c' (buf ++ ext) = ReqParser.feed c (buf ++ ext) :=
  feed_more_append c buf ext c' h

/-- C06 for any number of chunks: when the chunks are through, or an answer came, the parser is exactly
where feeding all bytes seen so far at once would have put it. -/
theorem C06_chunks (c : Ctx) (chunks : List Bytes) (hne : chunks ≠ []) :
    ∃ k, 1 ≤ k ∧ k ≤ chunks.length ∧
      feedChunks c [] chunks =
        ((ReqParser.feed c (chunks.take k).flatten).1, (ReqParser.feed c (chunks.take k).flatten).2,
          (chunks.take k).flatten) ∧
      ((feedChunks c [] chunks).1 = .more → k = chunks.length) := by
  suffices H : ∀ (chunks : List Bytes) (c' : Ctx) (sofar : Bytes), chunks ≠ [] →
      (∀ ext, ReqParser.feed c' (sofar ++ ext) = ReqParser.feed c (sofar ++ ext)) →
      ∃ k, 1 ≤ k ∧ k ≤ chunks.length ∧
        feedChunks c' sofar chunks =
          ((ReqParser.feed c (sofar ++ (chunks.take k).flatten)).1,
           (ReqParser.feed c (sofar ++ (chunks.take k).flatten)).2, sofar ++ (chunks.take k).flatten) ∧
        ((feedChunks c' sofar chunks).1 = .more → k = chunks.length) by
    simpa using H chunks c [] hne (fun _ => rfl)
  intro chunks
  induction chunks with
  | nil => intro _ _ h; exact absurd rfl h
  | cons x xs ih =>
    intro c' sofar _ heq
    rw [feedChunks]
    rcases hf : ReqParser.feed c' (sofar ++ x) with ⟨r, c2⟩
    have hf2 := hf
    rw [heq] at hf2
    cases r with
    | more =>
      cases xs with
      | nil =>
        refine ⟨1, Nat.le_refl _, by simp, ?_, by simp⟩
        simp [feedChunks, hf2]
      | cons y ys =>
        obtain ⟨k, h1, h2, h3, h4⟩ := ih c2 (sofar ++ x) (by simp) (by
          intro ext
          rw [C06_resume c' c2 (sofar ++ x) ext hf, List.append_assoc, heq])
        refine ⟨k + 1, by omega, by simp at h2 ⊢; omega, ?_, ?_⟩
        · simp only [h3, List.take_succ_cons, List.flatten_cons, List.append_assoc]
        · intro hm
          have := h4 hm
          simp at this ⊢; omega
    | _ =>
      refine ⟨1, Nat.le_refl _, by simp, ?_, by simp⟩
      simp [hf2]

/-- C06, in the form used below: a parser waiting for the rest of `buf` behaves like a new one that has
seen everything. -/
theorem C06_waiting {buf : Bytes} {c : Ctx} (h : Waiting buf c) (ext : Bytes) :
    ReqParser.feed c (buf ++ ext) = ReqParser.feed Ctx.new (buf ++ ext) := by
  induction h generalizing ext with
  | start => rfl
  | @more buf c e c' _ hf ih =>
    rw [C06_resume c c' (buf ++ e) ext hf, List.append_assoc, ih]

/-- Three chunks that cut a length field and an argument in two. -/
example : (feedChunks Ctx.new [] [[20, 2, 0, 0], [0, 1, 107, 0, 0, 0, 6, 1], [2, 3]]).1 =
    .request { buf := [20, 2, 0, 0, 0, 1, 107, 0, 0, 0, 6, 1, 2, 3], commandId := .append,
               keyType := none, positions := [] } := by decide +kernel

/-! ## Invariant of reachable states -/

/-- Untyped, and either at a request start or inside a request of a command with arguments. -/
def PInv (c : Ctx) : Prop :=
  match c.stage with
  | .init => c = Ctx.new
  | .kind _ kt => kt = none
  | .arguments _ _ kt => kt = none

theorem PInv.step {c c' : Ctx} {buf : Bytes} (h : PInv c) (hs : ReqParser.step c buf = .next c') :
    PInv c' := by
  unfold ReqParser.step at hs
  split at hs
  · simp at hs
  · unfold PInv at h
    split at hs <;> rename_i hst
    · simp only [hst] at h
      subst h
      simp only [stageInit] at hs
      split at hs
      · simp at hs
      · rename_i byte _
        have hk : ∀ byte : UInt8, byte >>> 7 = 1 → KeyType.ofByte (byte >>> 1) = none :=
          forall_u8 (by decide +kernel)
        by_cases hb : byte >>> 7 = 1
        · simp [hb, hk _ hb] at hs
        · simp only [if_neg hb] at hs
          split at hs
          · simp at hs
          · split at hs
            · simp at hs
            · simp only [Step.next.injEq] at hs
              subst hs
              rfl
    · simp only [hst] at h
      simp only [stageKind] at hs
      split at hs
      · simp at hs
      · simp only [Step.next.injEq] at hs
        subst hs
        exact h
    · simp only [hst] at h
      simp only [stageArguments] at hs
      repeat' split at hs
      all_goals first | (simp at hs; done) | skip
      simp only [Step.next.injEq] at hs
      subst hs
      simp [PInv, hst, h]

theorem PInv.feed {c : Ctx} (h : PInv c) (buf : Bytes) :
    PInv (ReqParser.feed c buf).2 ∧
    (∀ r, (ReqParser.feed c buf).1 = .request r → r.buf = buf ∧ r.keyType = none ∧ r.positions = [] ∧
      (ReqParser.feed c buf).2 = Ctx.new) ∧
    (∀ e, (ReqParser.feed c buf).1 = .error e →
      c = Ctx.new ∧ (ReqParser.feed c buf).2 = Ctx.new) := by
  revert h
  refine feed_induct (P := fun c r => PInv c → PInv r.2 ∧ (∀ q, r.1 = .request q → q.buf = buf ∧
    q.keyType = none ∧ q.positions = [] ∧ r.2 = Ctx.new) ∧
    (∀ e, r.1 = .error e → c = Ctx.new ∧ r.2 = Ctx.new)) buf ?_ ?_ c
  · intro c c' hs ih h
    obtain ⟨i1, i2, i3⟩ := ih (h.step hs)
    refine ⟨i1, i2, ?_⟩
    intro e he
    obtain ⟨rfl, -⟩ := i3 e he
    -- no round ends at the start state
    exfalso
    unfold ReqParser.step at hs
    split at hs
    · simp at hs
    · split at hs
      · simp only [stageInit] at hs
        repeat' split at hs
        all_goals simp_all [Ctx.new]
      · simp only [stageKind] at hs
        repeat' split at hs
        all_goals simp_all [Ctx.new]
      · simp only [stageArguments] at hs
        repeat' split at hs
        all_goals simp_all [Ctx.new]
  · intro c hs h
    obtain ⟨h1, h2, h3, h4⟩ := feed_of_step (c := c) (buf := buf)
    cases hst : ReqParser.step c buf with
    | next c1 => exact absurd hst (hs c1)
    | finished a b =>
      rw [h1 _ _ hst]
      refine ⟨rfl, ?_, by simp⟩
      intro q hq
      simp only [Fed.request.injEq] at hq
      subst hq
      refine ⟨rfl, ?_, rfl, rfl⟩
      show b = none
      unfold ReqParser.step at hst
      split at hst
      · simp at hst
      · unfold PInv at h
        split at hst <;> rename_i hstage
        · simp only [stageInit] at hst
          repeat' split at hst
          all_goals simp_all
        · simp only [stageKind] at hst
          split at hst <;> simp at hst
        · simp only [hstage] at h
          simp only [stageArguments] at hst
          repeat' split at hst
          all_goals simp_all
    | incomplete => rw [h2 hst]; exact ⟨h, by simp, by simp⟩
    | error e =>
      rw [h3 _ hst]
      have hc : c = Ctx.new := by
        unfold ReqParser.step at hst
        split at hst
        · simp at hst
        · unfold PInv at h
          split at hst <;> rename_i hstage
          · simpa [hstage] using h
          · simp only [stageKind] at hst
            split at hst <;> simp at hst
          · simp only [stageArguments] at hst
            repeat' split at hst
            all_goals simp at hst
      exact ⟨h, by simp, fun _ _ => ⟨hc, hc⟩⟩
    | panic => rw [h4 hst]; exact ⟨h, by simp, by simp⟩

theorem Reachable.inv {c : Ctx} (h : Reachable c) : PInv c := by
  induction h with
  | new => rfl
  | @feed c buf r c' _ hf _ ih =>
    have := (ih.feed buf).1
    rw [hf] at this
    exact this

/-! ## C49 Exactly which buffers are taken for a request -/

/-- C49. From a request start, a buffer is answered with a request exactly if it starts with the code of
Stats, or with a command code, a count `n ≥ 1`, `n - 1` complete arguments and a last argument that is
`LastReady`; the request then shows the whole buffer, that command, no key type and no arguments. -/
theorem C49_accepted (buf : Bytes) (r : Request) (c' : Ctx) :
    ReqParser.feed Ctx.new buf = (.request r, c') ↔
      c' = Ctx.new ∧
      ((∃ rest, buf = CommandId.stats.toByte :: rest ∧
          r = { buf := buf, commandId := .stats, keyType := none, positions := [] }) ∨
       (∃ cmd n k, takesArguments cmd ∧ n.toNat = k + 1 ∧ Chunked cmd n k buf ∧
          r = { buf := buf, commandId := cmd, keyType := none, positions := [] })) := by
  constructor
  · intro h
    cases buf with
    | nil => rw [feed_new_nil] at h; simp at h
    | cons b rest =>
      cases hb : CommandId.ofByte b with
      | none => rw [feed_new_bad b rest hb] at h; simp at h
      | some cmd =>
        obtain rfl := ofByte_eq_some.mp hb
        by_cases hc : cmd = .stats
        · subst hc
          rw [feed_new_stats] at h
          simp only [Prod.mk.injEq, Fed.request.injEq] at h
          exact ⟨h.2.symm, Or.inl ⟨rest, rfl, h.1.symm⟩⟩
        · cases rest with
          | nil => rw [feed_new_one cmd hc] at h; simp at h
          | cons n rest =>
            rw [feed_header cmd n rest hc] at h
            have := feed_arguments_sound rest [cmd.toByte, n] [] n cmd none _ _ h
            rcases this with hm | ⟨chunks, tail, k1, k2, k3, k4⟩
            · simp at hm
            · rcases k4 with ⟨q1, -⟩ | ⟨q1, q2, q3⟩
              · simp at q1
              · refine ⟨q2, Or.inr ⟨cmd, n, chunks.length, hc, by simpa using q3.symm,
                  ⟨chunks, tail, by rw [k1], rfl, k2, k3⟩, ?_⟩⟩
                simpa using q1
  · rintro ⟨rfl, ⟨rest, rfl, rfl⟩ | ⟨cmd, n, k, hc, hn, ⟨chunks, tail, rfl, rfl, hl, ht⟩, rfl⟩⟩
    · exact feed_new_stats rest
    · rw [feed_header cmd n _ hc]
      have hlt := n.toNat_lt
      obtain ⟨c1, h1⟩ := feed_arguments_complete chunks tail [cmd.toByte, n] n cmd none hl (by omega)
        (Or.inr (by omega)) ht
      rw [if_neg (by omega), if_pos hn.symm] at h1
      simpa using h1

example : (ReqParser.feed Ctx.new [20, 2, 0, 0, 0, 1, 107, 0, 0, 0, 2]).1 =
    .request { buf := [20, 2, 0, 0, 0, 1, 107, 0, 0, 0, 2], commandId := .append, keyType := none,
               positions := [] } := by
  exact congrArg Prod.fst ((C49_accepted _ _ Ctx.new).mpr ⟨rfl, Or.inr ⟨.append, 2, 1,
    by simp [takesArguments], rfl, ⟨[[107]], [0, 0, 0, 2], rfl, rfl, by simp, by unfold LastReady; decide⟩,
    rfl⟩⟩)

/-! ## C07 A request sent by the client is parsed by the server as the same request -/

/-- C07 as one would want it. -/
def C07_Statement : Prop :=
  ∀ (m : Mode) (c : CommandId) (kt : Option KeyType) (args : List Bytes) (b : Builder),
    takesArguments c → args.length ≤ 255 → (∀ a ∈ args, a ≠ []) → (∀ a ∈ args, a.length < 2 ^ 32) →
    (Builder.newWithKeyType c kt).bytesAll m args = (.ok (), b) →
    ∃ r c', ReqParser.feed Ctx.new b.intoRequest.buf = (.request r, c') ∧ Views r c kt args

/-- The parser gives no arguments and no key type to any request, whatever the bytes. -/
theorem C07_nothing_but_command (c c' : Ctx) (buf : Bytes) (r : Request) (h : Reachable c)
    (hf : ReqParser.feed c buf = (.request r, c')) : Views r r.commandId none [] := by
  have hp := (h.inv.feed buf).2.1 r (by rw [hf])
  refine ⟨rfl, hp.2.1, by simp [Request.argCount, hp.2.2.1], fun i => by
    simp [Request.arg, hp.2.2.1]⟩

/-- Every request with a key type is rejected. -/
theorem C07_typed_rejected (m : Mode) (c : CommandId) (t : KeyType) (args : List Bytes) (b : Builder)
    (hc : takesArguments c) (hn : args.length ≤ 255) (hne : ∀ a ∈ args, a ≠ [])
    (hb : (Builder.newWithKeyType c (some t)).bytesAll m args = (.ok (), b)) :
    ReqParser.feed Ctx.new b.intoRequest.buf = (.error .keyTypeInvalid, Ctx.new) := by
  obtain ⟨b1, hb1, he⟩ := C02_layout m c (some t) args hc hn hne
  rw [hb] at hb1
  obtain rfl : b = b1 := by simpa using hb1
  rw [he]
  have h128 : 128 ≤ (c.toByte ||| 128).toNat := by cases c <;> decide
  have hbad : CommandId.ofByte (c.toByte ||| 128) = none := by cases c <;> decide
  show ReqParser.feed Ctx.new ((c.toByte ||| 128) :: _) = _
  rw [feed_new_bad _ _ hbad, if_pos h128]

/-- A request without arguments is never answered on its own. -/
theorem C07_no_arguments_waits (m : Mode) (c : CommandId) (hc : takesArguments c) (b : Builder)
    (hb : (Builder.newWithKeyType c none).bytesAll m [] = (.ok (), b)) :
    ∃ c', ReqParser.feed Ctx.new b.intoRequest.buf = (.more, c') := by
  obtain ⟨b1, hb1, he⟩ := C02_layout m c none [] hc (by simp) (by simp)
  rw [hb] at hb1
  obtain rfl : b = b1 := by simpa using hb1
  rw [he]
  cases c <;> first | exact absurd rfl hc | exact ⟨_, rfl⟩

theorem C07_false : ¬ C07_Statement := by
  intro h
  obtain ⟨b, hb, -⟩ := C02_layout .release .get (some .bytes) [[107]] (by decide) (by decide) (by decide)
  obtain ⟨r, c', hf, -⟩ := h .release .get (some .bytes) [[107]] b (by simp [takesArguments]) (by decide)
    (by decide) (by decide) hb
  rw [C07_typed_rejected .release .get .bytes [[107]] b (by simp [takesArguments]) (by decide) (by decide)
    hb] at hf
  simp at hf

/-- What is left of C07 (missing: key type and arguments, see `C07_nothing_but_command` and
`C07_typed_rejected`): an untyped request with at least one argument is recognised as a request of its
command. -/
theorem C07_command_partial (m : Mode) (c : CommandId) (args : List Bytes) (b : Builder)
    (hc : takesArguments c) (hn : args.length ≤ 255) (hne : ∀ a ∈ args, a ≠ [])
    (hl : ∀ a ∈ args, a.length < 2 ^ 32) (ha : args ≠ [])
    (hb : (Builder.newWithKeyType c none).bytesAll m args = (.ok (), b)) :
    ∃ r, ReqParser.feed Ctx.new b.intoRequest.buf = (.request r, Ctx.new) ∧ r.commandId = c ∧
      r.buf = b.intoRequest.buf := by
  obtain ⟨b1, hb1, he⟩ := C02_layout m c none args hc hn hne
  rw [hb] at hb1
  obtain rfl : b = b1 := by simpa using hb1
  refine ⟨_, (C49_accepted _ _ _).mpr ⟨rfl, Or.inr ⟨c, UInt8.ofNat args.length, args.length - 1, hc, ?_,
    ⟨args.dropLast, encodeArg (args.getLast ha), ?_, by simp, ?_, ?_⟩, rfl⟩⟩, rfl, rfl⟩
  · have := List.length_pos_iff.mpr ha
    simp only [UInt8.toNat_ofNat']
    omega
  · rw [he]
    conv => lhs; rw [← List.dropLast_concat_getLast ha]
    simp only [encode, encodeHead, List.flatMap_append, List.flatMap_cons, List.flatMap_nil,
      List.append_nil]
    rw [List.dropLast_concat_getLast ha]
    rfl
  · exact fun a h => hl a (List.dropLast_subset _ h)
  · have := hl _ (List.getLast_mem ha)
    unfold LastReady
    rw [encodeArg, List.take_append_of_le_length (by simp), List.take_of_length_le (by simp),
      beNat_beBytes_of_lt (by omega)]
    simp

example : ∃ b r, (Builder.newWithKeyType .append none).bytesAll .debug [[107], [1, 2]] = (.ok (), b) ∧
    ReqParser.feed Ctx.new b.intoRequest.buf = (.request r, Ctx.new) ∧ r.commandId = .append := by
  obtain ⟨b, hb, -⟩ := C02_layout .debug .append none [[107], [1, 2]] (by decide) (by decide) (by decide)
  obtain ⟨r, h1, h2, -⟩ := C07_command_partial .debug .append [[107], [1, 2]] b (by simp [takesArguments])
    (by decide) (by decide) (by decide) (by decide) hb
  exact ⟨b, r, hb, h1, h2⟩

/-! ## C08 A request is never accepted before all of its bytes have arrived -/

/-- C08 as one would want it. -/
def C08_Statement : Prop :=
  ∀ (m : Mode) (c : CommandId) (kt : Option KeyType) (args : List Bytes) (b : Builder) (p : Bytes),
    takesArguments c → args.length ≤ 255 → (∀ a ∈ args, a ≠ []) → (∀ a ∈ args, a.length < 2 ^ 32) →
    (Builder.newWithKeyType c kt).bytesAll m args = (.ok (), b) →
    p <+: b.intoRequest.buf → p ≠ b.intoRequest.buf →
    (ReqParser.feed Ctx.new p).1 = .more

/-- The exact point of acceptance, for every untyped built request with at least one argument and every
prefix of its bytes: the prefix is answered with a request as soon as it covers the last length field and,
counted from the start of that field, as many bytes as the last argument is long; before that the parser
waits. So up to four bytes of the last argument may be missing. -/
theorem C08_threshold_partial (m : Mode) (c : CommandId) (init : List Bytes) (last : Bytes) (b : Builder)
    (p : Bytes) (hc : takesArguments c) (hn : (init ++ [last]).length ≤ 255)
    (hne : ∀ a ∈ init ++ [last], a ≠ []) (hl : ∀ a ∈ init ++ [last], a.length < 2 ^ 32)
    (hb : (Builder.newWithKeyType c none).bytesAll m (init ++ [last]) = (.ok (), b))
    (hp : p <+: b.intoRequest.buf) :
    ∃ c', ReqParser.feed Ctx.new p =
      if b.intoRequest.buf.length - (4 + last.length) + max 4 last.length ≤ p.length then
        (.request { buf := p, commandId := c, keyType := none, positions := [] }, Ctx.new)
      else (.more, c') := by
  obtain ⟨b1, hb1, he⟩ := C02_layout m c none (init ++ [last]) hc hn hne
  rw [hb] at hb1
  obtain rfl : b = b1 := by simpa using hb1
  have hn1 : init.length + 1 ≤ 255 := by simpa using hn
  have hlast : last.length < 2 ^ 32 := hl last (by simp)
  have hinit : ∀ a ∈ init, a.length < 2 ^ 32 := fun a ha => hl a (by simp [ha])
  have hbuf : b.intoRequest.buf = c.toByte :: UInt8.ofNat (init.length + 1) ::
      (init.flatMap encodeArg ++ encodeArg last) := by
    rw [he]; simp [encode, encodeHead]
  have hcount : (UInt8.ofNat (init.length + 1)).toNat = init.length + 1 := by
    simp only [UInt8.toNat_ofNat']; omega
  generalize UInt8.ofNat (init.length + 1) = n at hbuf hcount
  have hlen : b.intoRequest.buf.length - (4 + last.length) = 2 + (init.flatMap encodeArg).length := by
    rw [hbuf]; simp [encodeArg]; omega
  rw [hlen]
  rw [hbuf] at hp
  obtain ⟨ext, hp⟩ := hp
  by_cases hle : 2 + (init.flatMap encodeArg).length + max 4 last.length ≤ p.length
  · refine ⟨Ctx.new, ?_⟩
    rw [if_pos hle, C49_accepted]
    obtain ⟨tail, rfl⟩ : ∃ tail, p = c.toByte :: n :: (init.flatMap encodeArg ++ tail) := by
      refine ⟨p.drop (2 + (init.flatMap encodeArg).length), ?_⟩
      have h1 : p.take (2 + (init.flatMap encodeArg).length) = c.toByte :: n :: init.flatMap encodeArg := by
        rw [← List.take_append_of_le_length (l₂ := ext) (by omega), hp]
        have : (2 + (init.flatMap encodeArg).length) = (c.toByte :: n :: init.flatMap encodeArg).length := by
          simp; omega
        rw [this]
        exact List.take_left (l₁ := c.toByte :: n :: init.flatMap encodeArg)
      conv => lhs; rw [← List.take_append_drop (2 + (init.flatMap encodeArg).length) p, h1]
      simp
    refine ⟨rfl, Or.inr ⟨c, n, init.length, hc, hcount, ⟨init, tail, rfl, rfl, hinit, ?_⟩, rfl⟩⟩
    have ht : tail ++ ext = encodeArg last := by simpa using hp
    have hle2 : max 4 last.length ≤ tail.length := by simp at hle; omega
    have h4 : tail.take 4 = beBytes 4 last.length := by
      rw [← List.take_append_of_le_length (l₂ := ext) (by omega), ht, encodeArg]
      rw [List.take_append_of_le_length (by simp), List.take_of_length_le (by simp)]
    unfold LastReady
    rw [h4, beNat_beBytes_of_lt (by omega)]
    omega
  · suffices ∃ c', ReqParser.feed Ctx.new p = (.more, c') by
      obtain ⟨c', h⟩ := this
      exact ⟨c', by rw [if_neg hle, h]⟩
    cases p with
    | nil => exact ⟨_, feed_new_nil⟩
    | cons x p =>
      simp only [List.cons_append, List.cons.injEq] at hp
      obtain ⟨rfl, hp⟩ := hp
      cases p with
      | nil => exact ⟨_, feed_new_one c hc⟩
      | cons y p =>
        simp only [List.cons_append, List.cons.injEq] at hp
        obtain ⟨rfl, hp⟩ := hp
        rcases hf : ReqParser.feed Ctx.new (c.toByte :: y :: p) with ⟨r, c'⟩
        refine ⟨c', ?_⟩
        rw [feed_header c y p hc] at hf
        rcases feed_arguments_sound p [c.toByte, y] [] y c none r c' hf with
          hm | ⟨chunks, tail, k1, k2, k3, ⟨-, -, -, q⟩ | ⟨-, -, q⟩⟩
        · rw [hm]
        · exfalso
          simp at q; omega
        · exfalso
          rw [k1, List.append_assoc] at hp
          obtain ⟨rfl, ht⟩ := flatMap_encodeArg_append_inj (by simp at q; omega) k2 hinit hp
          unfold LastReady at k3
          have h4 : tail.take 4 = beBytes 4 last.length := by
            rw [← List.take_append_of_le_length (l₂ := ext) (by omega), ht, encodeArg]
            rw [List.take_append_of_le_length (by simp), List.take_of_length_le (by simp)]
          rw [h4, beNat_beBytes_of_lt (by omega)] at k3
          rw [k1] at hle
          simp only [List.length_cons, List.length_append] at hle
          omega

/-- `append k "ab"` without its last two bytes is already accepted. -/
theorem C08_false : ¬ C08_Statement := by
  intro h
  obtain ⟨b, hb, he⟩ := C02_layout .release .append none [[107], [97, 98]] (by decide) (by decide)
    (by decide)
  have := h .release .append none [[107], [97, 98]] b [20, 2, 0, 0, 0, 1, 107, 0, 0, 0, 2]
    (by simp [takesArguments]) (by decide) (by decide) (by decide) hb
    (by rw [he]; exact ⟨[97, 98], by decide⟩) (by rw [he]; decide)
  revert this
  decide

example : ∃ b c', (Builder.newWithKeyType .append none).bytesAll .debug ([[107]] ++ [[1, 2, 3, 4, 5, 6]])
      = (.ok (), b) ∧
    ReqParser.feed Ctx.new [20, 2, 0, 0, 0, 1, 107, 0, 0, 0, 6, 1] = (.more, c') ∧
    (ReqParser.feed Ctx.new [20, 2, 0, 0, 0, 1, 107, 0, 0, 0, 6, 1, 2]).1 ≠ .more := by
  obtain ⟨b, hb, he⟩ := C02_layout .debug .append none ([[107]] ++ [[1, 2, 3, 4, 5, 6]]) (by decide)
    (by decide) (by decide)
  obtain ⟨c1, h1⟩ := C08_threshold_partial .debug .append [[107]] [1, 2, 3, 4, 5, 6] b
    [20, 2, 0, 0, 0, 1, 107, 0, 0, 0, 6, 1] (by simp [takesArguments]) (by decide) (by decide) (by decide) hb
    (by rw [he]; exact ⟨[2, 3, 4, 5, 6], by decide⟩)
  obtain ⟨c2, h2⟩ := C08_threshold_partial .debug .append [[107]] [1, 2, 3, 4, 5, 6] b
    [20, 2, 0, 0, 0, 1, 107, 0, 0, 0, 6, 1, 2] (by simp [takesArguments]) (by decide) (by decide) (by decide)
    hb (by rw [he]; exact ⟨[3, 4, 5, 6], by decide⟩)
  rw [he] at h1 h2
  refine ⟨b, c1, hb, ?_, ?_⟩
  · rw [h1, if_neg (by decide)]
  · rw [h2, if_pos (by decide)]; simp

/-! ## C09 The request parser always answers, and panics only in one identified situation -/

/-- C09, termination: the loop in `feed` ends, for every state and buffer. -/
theorem C09_terminates (c : Ctx) (buf : Bytes) :
    (ReqParser.feed c buf).1 ≠ .stuck ∧
    ∀ n, (ReqParser.loop n c buf).1 ≠ .stuck → ReqParser.loop n c buf = ReqParser.feed c buf :=
  ⟨feed_not_stuck c buf, fun n => loop_eq_feed n c buf⟩

/-- C09, errors: exactly at a request start, when the first byte is no command's code. -/
theorem C09_error_iff (c c' : Ctx) (buf : Bytes) (e : ReqParseError) (h : Reachable c) :
    ReqParser.feed c buf = (.error e, c') ↔
      c = Ctx.new ∧ c' = Ctx.new ∧ ∃ b rest, buf = b :: rest ∧ (∀ cmd : CommandId, cmd.toByte ≠ b) ∧
        e = if 128 ≤ b.toNat then .keyTypeInvalid else .commandIdInvalid := by
  constructor
  · intro hf
    have hp := (h.inv.feed buf).2.2 e (by rw [hf])
    obtain ⟨rfl, hc'⟩ := hp
    rw [hf] at hc'
    refine ⟨rfl, hc', ?_⟩
    cases buf with
    | nil => rw [feed_new_nil] at hf; simp at hf
    | cons b rest =>
      cases hb : CommandId.ofByte b with
      | none =>
        rw [feed_new_bad b rest hb] at hf
        simp only [Prod.mk.injEq, Fed.error.injEq] at hf
        refine ⟨b, rest, rfl, ?_, hf.1.symm⟩
        intro cmd hcmd
        rw [ofByte_eq_some.mpr hcmd] at hb
        simp at hb
      | some cmd =>
        exfalso
        obtain rfl := ofByte_eq_some.mp hb
        by_cases hc : cmd = .stats
        · subst hc; rw [feed_new_stats] at hf; simp at hf
        · cases rest with
          | nil => rw [feed_new_one cmd hc] at hf; simp at hf
          | cons n rest =>
            rw [feed_header cmd n rest hc] at hf
            rcases feed_arguments_sound rest [cmd.toByte, n] [] n cmd none _ _ hf with
              hm | ⟨_, _, _, _, _, ⟨q, -⟩ | ⟨q, -⟩⟩
            · simp at hm
            · simp at q
            · simp at q
  · rintro ⟨rfl, rfl, b, rest, rfl, hb, rfl⟩
    apply feed_new_bad
    cases hcmd : CommandId.ofByte b with
    | none => rfl
    | some cmd => exact absurd (ofByte_eq_some.mp hcmd) (hb cmd)

/-- C09, panics: exactly when the buffer of the current request (however it was cut into chunks) names a
command with arguments, a zero count, and holds 256 complete arguments and a 257th that is
`LastReady`. -/
theorem C09_panic_iff (buf ext : Bytes) (c : Ctx) (h : Waiting buf c) :
    (ReqParser.feed c (buf ++ ext)).1 = .panic ↔
      ∃ cmd, takesArguments cmd ∧ Chunked cmd 0 256 (buf ++ ext) := by
  rw [C06_waiting h ext]
  generalize buf ++ ext = buf
  constructor
  · intro h
    rcases hf : ReqParser.feed Ctx.new buf with ⟨r, c'⟩
    rw [hf] at h
    obtain rfl : r = .panic := h
    cases buf with
    | nil => rw [feed_new_nil] at hf; simp at hf
    | cons b rest =>
      cases hb : CommandId.ofByte b with
      | none => rw [feed_new_bad b rest hb] at hf; simp at hf
      | some cmd =>
        obtain rfl := ofByte_eq_some.mp hb
        by_cases hc : cmd = .stats
        · subst hc; rw [feed_new_stats] at hf; simp at hf
        · cases rest with
          | nil => rw [feed_new_one cmd hc] at hf; simp at hf
          | cons n rest =>
            rw [feed_header cmd n rest hc] at hf
            rcases feed_arguments_sound rest [cmd.toByte, n] [] n cmd none _ _ hf with
              hm | ⟨chunks, tail, k1, k2, k3, ⟨-, -, q1, q2⟩ | ⟨q, -⟩⟩
            · simp at hm
            · have hn : n = 0 := by
                have := n.toNat_lt
                apply UInt8.toNat_inj.mp
                simp at q2 ⊢; omega
              subst hn
              exact ⟨cmd, hc, chunks, tail, by rw [k1], by simpa using q1, k2, k3⟩
            · simp at q
  · rintro ⟨cmd, hc, chunks, tail, rfl, hk, hl, ht⟩
    rw [feed_header cmd 0 _ hc]
    obtain ⟨c1, h1⟩ := feed_arguments_complete chunks tail [cmd.toByte, 0] 0 cmd none hl (by omega)
      (Or.inl rfl) ht
    rw [if_pos hk] at h1
    have h2 := congrArg Prod.fst h1
    simpa using h2

/-- A parser that has seen `append`'s code and a zero count byte is waiting; 257 empty arguments then make
it panic. -/
example : ∃ c, Waiting [20, 0] c ∧
    (ReqParser.feed c ([20, 0] ++ List.replicate (257 * 4) 0)).1 = .panic := by
  have hw : Waiting [20, 0] { idx := 2, positions := [], stage := .arguments 0 .append none } :=
    Waiting.more (buf := []) (ext := [20, 0]) .start rfl
  refine ⟨_, hw, ?_⟩
  rw [C09_panic_iff _ _ _ hw]
  refine ⟨.append, by simp [takesArguments], List.replicate 256 [], [0, 0, 0, 0], ?_, List.length_replicate, ?_, ?_⟩
  · decide +kernel
  · intro a ha; rw [List.eq_of_mem_replicate ha]; decide
  · unfold LastReady; decide

/-! ## Further concrete cases -/

/-- The chunks of an Append request, and more after it: the request is complete with the third. -/
example : ∃ k, 1 ≤ k ∧ k ≤ 4 ∧ feedChunks Ctx.new [] [[20, 2, 0, 0], [0, 1, 107, 0, 0, 0, 6, 1], [2, 3], [9]] =
    ((ReqParser.feed Ctx.new ([[20, 2, 0, 0], [0, 1, 107, 0, 0, 0, 6, 1], [2, 3], [9]].take k).flatten).1,
      (ReqParser.feed Ctx.new ([[20, 2, 0, 0], [0, 1, 107, 0, 0, 0, 6, 1], [2, 3], [9]].take k).flatten).2,
      ([[20, 2, 0, 0], [0, 1, 107, 0, 0, 0, 6, 1], [2, 3], [9]].take k).flatten) := by
  obtain ⟨k, h1, h2, h3, -⟩ := C06_chunks Ctx.new [[20, 2, 0, 0], [0, 1, 107, 0, 0, 0, 6, 1], [2, 3], [9]] (by simp)
  exact ⟨k, h1, h2, h3⟩

/-- Going on after the first byte, whatever follows. -/
example (ext : Bytes) : ∃ c', ReqParser.feed Ctx.new [20] = (.more, c') ∧
    ReqParser.feed c' ([20] ++ ext) = ReqParser.feed Ctx.new ([20] ++ ext) := by
  have h : ReqParser.feed Ctx.new [20] = (.more, (ReqParser.feed Ctx.new [20]).2) := by decide +kernel
  exact ⟨_, h, C06_resume _ _ _ ext h⟩

/-- A Get without a key is waited for. -/
example : ∃ c', ReqParser.feed Ctx.new (Builder.newWithKeyType .get none).intoRequest.buf = (.more, c') :=
  C07_no_arguments_waits .debug .get (by intro h; cases h) _ rfl

/-- A typed request is refused. -/
example : ∃ b, (Builder.newWithKeyType .set (some .integer)).bytesAll .debug [[107], [1]] = (.ok (), b) ∧
    ReqParser.feed Ctx.new b.intoRequest.buf = (.error .keyTypeInvalid, Ctx.new) :=
  ⟨_, rfl, C07_typed_rejected .debug .set .integer [[107], [1]] _ (by intro h; cases h) (by decide) (by decide) rfl⟩

/-- Of a complete request nothing but the command arrives. -/
example : ∃ r c', ReqParser.feed Ctx.new [20, 2, 0, 0, 0, 1, 107, 0, 0, 0, 6, 1, 2, 3] = (.request r, c') ∧ Views r .append none [] := by
  have h : ReqParser.feed Ctx.new [20, 2, 0, 0, 0, 1, 107, 0, 0, 0, 6, 1, 2, 3] =
      (.request { buf := [20, 2, 0, 0, 0, 1, 107, 0, 0, 0, 6, 1, 2, 3], commandId := .append, keyType := none, positions := [] },
        (ReqParser.feed Ctx.new [20, 2, 0, 0, 0, 1, 107, 0, 0, 0, 6, 1, 2, 3]).2) := by decide +kernel
  exact ⟨_, _, h, C07_nothing_but_command _ _ _ _ .new h⟩

/-- A byte that is no command. -/
example (rest : Bytes) : ReqParser.feed Ctx.new (127 :: rest) = (.error .commandIdInvalid, Ctx.new) :=
  (C09_error_iff _ _ _ _ .new).mpr ⟨rfl, rfl, 127, rest, rfl, by intro c; cases c <;> decide, rfl⟩

/-- Two pieces, the first of which ends within the count of arguments. -/
example (ext : Bytes) : ∃ c, Waiting [20, 2] c ∧ ReqParser.feed c ([20, 2] ++ ext) = ReqParser.feed Ctx.new ([20, 2] ++ ext) := by
  have h1 : ReqParser.feed Ctx.new ([] ++ [20]) = (.more, (ReqParser.feed Ctx.new [20]).2) := by decide +kernel
  have hw1 : Waiting [20] _ := Waiting.more (ext := [20]) .start h1
  have h2 : ReqParser.feed (ReqParser.feed Ctx.new [20]).2 ([20] ++ [2]) =
      (.more, (ReqParser.feed (ReqParser.feed Ctx.new [20]).2 [20, 2]).2) := by decide +kernel
  have hw2 : Waiting [20, 2] _ := Waiting.more (ext := [2]) hw1 h2
  exact ⟨_, hw2, C06_waiting hw2 ext⟩

end Hop
