import Verif.Props.RequestParser

/-! # C146, C147 Requests taken up again by a builder -/

namespace Hop

open Spec ReqParser

/-- Two builders that differ in the argument count alone, and in the byte it is written to. -/
structure Twins (b1 b2 : Builder) (n : Nat) (x : UInt8) : Prop where
  command : b1.commandId = b2.commandId
  keyType : b1.keyType = b2.keyType
  count : b1.argumentCount = n
  buf : b1.buf = b2.buf.set (1 + b2.base) x
  room : 1 + b2.base < b2.buf.length
  positions : b1.positions = b2.positions

theorem Twins.push {b1 b2 b2' : Builder} {n : Nat} {x : UInt8} (h : Twins b1 b2 n x) (m : Mode) (a : Bytes)
    (hn : n < 255) (h2 : b2.pushArgument m a = some b2') :
    ∃ b1', b1.pushArgument m a = some b1' ∧ Twins b1' b2' (n + 1) (UInt8.ofNat (n + 1)) := by
  obtain ⟨q1, q2, q3, q4, q5, q6⟩ := h
  have hb : b1.base = b2.base := by simp [Builder.base, q2]
  have hadd : addU m 8 n 1 = some (n + 1) := by unfold addU; rw [if_pos (by omega)]
  unfold Builder.pushArgument at h2 ⊢
  rw [q3, hb, q4, q6, hadd]
  cases hc : addU m 8 b2.argumentCount 1 with
  | none => rw [hc] at h2; simp at h2
  | some k =>
    rw [hc] at h2
    have hlt : 1 + b2.base < (b2.buf ++ beBytes 4 (a.length % 2 ^ 32) ++ a).length := by
      simp only [List.length_append]; omega
    have hlt' : 1 + b2.base < (b2.buf.set (1 + b2.base) x ++ beBytes 4 (a.length % 2 ^ 32) ++ a).length := by
      simp only [List.length_append, List.length_set]; omega
    simp only [if_pos hlt] at h2
    simp only [if_pos hlt']
    split at h2
    · rename_i hroom
      simp only [Option.some.injEq] at h2
      subst h2
      simp only [if_pos hroom]
      refine ⟨_, rfl, q1, q2, rfl, ?_, ?_, rfl⟩
      · show (b2.buf.set (1 + b2.base) x ++ _ ++ _).set (1 + b2.base) _ =
          ((b2.buf ++ _ ++ _).set (1 + b2.base) _).set (1 + b2.base) _
        rw [List.append_assoc, List.append_assoc, ← List.set_append_left _ _ q5, List.set_set, List.set_set]
      · simp only [Builder.base, List.length_set]
        exact hlt
    · simp at h2

theorem Twins.bytesAll {b1 b2 b2' : Builder} {n : Nat} {x : UInt8} (h : Twins b1 b2 n x) (m : Mode)
    (a : Bytes) (as : List Bytes) (hn : n + (a :: as).length ≤ 255)
    (h2 : b2.bytesAll m (a :: as) = (.ok (), b2')) :
    ∃ b1', b1.bytesAll m (a :: as) = (.ok (), b1') ∧
      Twins b1' b2' (n + (a :: as).length) (UInt8.ofNat (n + (a :: as).length)) := by
  induction as generalizing b1 b2 n x a with
  | nil =>
    simp only [Builder.bytesAll, Builder.bytes] at h2 ⊢
    by_cases ha : a = []
    · simp [ha] at h2
    · simp only [if_neg ha, Builder.pushAll] at h2 ⊢
      cases hp : b2.pushArgument m a with
      | none => simp [hp] at h2
      | some b =>
        simp only [hp, Prod.mk.injEq, true_and] at h2
        subst h2
        obtain ⟨b1', h1, ht⟩ := h.push m a (by simp at hn; omega) hp
        exact ⟨b1', by simp [h1], by simpa using ht⟩
  | cons a' as ih =>
    rw [Builder.bytesAll] at h2 ⊢
    simp only [Builder.bytes] at h2 ⊢
    by_cases ha : a = []
    · simp [ha] at h2
    · simp only [if_neg ha, Builder.pushAll] at h2 ⊢
      cases hp : b2.pushArgument m a with
      | none => simp [hp] at h2
      | some b =>
        simp only [hp] at h2
        simp only [List.length_cons] at hn
        obtain ⟨b1', h1, ht⟩ := h.push m a (by omega) hp
        obtain ⟨b1'', h1', ht'⟩ := ih ht a' (by simp; omega) h2
        refine ⟨b1'', by simp [h1, h1'], ?_⟩
        simp only [List.length_cons, Nat.add_assoc, Nat.add_comm 1] at ht' ⊢
        exact ht'

/-- Changing a byte in front of what is read changes nothing. -/
theorem slice_set {buf : Bytes} {i a b : Nat} {x : UInt8} (h : i < a) :
    slice (buf.set i x) a b = slice buf a b := by
  simp only [slice, List.length_set, List.drop_set, if_pos h]

/-- C147. A request turned into a builder and back is the same request. -/
theorem C147_again (r : Request) : (Builder.ofRequest r).intoRequest = r := by
  cases r; rfl

/-- C146 as one would want it: arguments added to a request taken up again give the request that would have
been built with all of the arguments. -/
def C146_Statement : Prop :=
  ∀ (m : Mode) (c : CommandId) (kt : Option KeyType) (old new : List Bytes) (b b' : Builder),
    takesArguments c → (∀ a ∈ old ++ new, a ≠ []) → (old ++ new).length ≤ 255 →
    (Builder.newWithKeyType c kt).bytesAll m old = (.ok (), b) →
    (Builder.newWithKeyType c kt).bytesAll m (old ++ new) = (.ok (), b') →
    ∃ b'', (Builder.ofRequest b.intoRequest).bytesAll m new = (.ok (), b'') ∧ b''.intoRequest = b'.intoRequest

/-- C147. The added arguments are accepted, and the request shows the arguments it had followed by the added
ones. On the wire it is a complete request with as many arguments as were added, followed by the
bytes of the remaining arguments. -/
theorem C147_taken_up (m : Mode) (c : CommandId) (kt : Option KeyType) (old new : List Bytes)
    (b : Builder) (hc : takesArguments c) (hne : ∀ a ∈ old ++ new, a ≠ []) (hn : (old ++ new).length ≤ 255)
    (hnew : new ≠ []) (hb : (Builder.newWithKeyType c kt).bytesAll m old = (.ok (), b)) :
    ∃ b', (Builder.ofRequest b.intoRequest).bytesAll m new = (.ok (), b') ∧
      Views b'.intoRequest c kt (old ++ new) ∧
      b'.intoRequest.buf = encode c kt ((old ++ new).take new.length) ++
        ((old ++ new).drop new.length).flatMap encodeArg := by
  have hns : c.isSimple = false := by cases c <;> first | rfl | exact absurd rfl hc
  rw [List.length_append] at hn
  obtain ⟨b0, hb0, hi⟩ := (BInv.new c kt hns).bytesAll m old (by simp; omega)
    (fun a ha => hne a (List.mem_append_left _ ha))
  rw [hb] at hb0
  obtain rfl : b = b0 := by simpa using hb0
  simp only [List.nil_append] at hi
  obtain ⟨b2, hb2, hi2⟩ := hi.bytesAll m new (by omega) (fun a ha => hne a (List.mem_append_right _ ha))
  have hbase : b.base = baseOf kt := by simp [Builder.base, baseOf, hi.keyType]
  have hlen : 1 + b.base < b.buf.length := by
    rw [hi.buf, hbase]
    simp only [encode, List.length_append, encodeHead_length, List.length_singleton]
    omega
  have ht : Twins (Builder.ofRequest b.intoRequest) b 0 (b.buf[1 + b.base]) := by
    refine ⟨rfl, rfl, rfl, ?_, hlen, rfl⟩
    show b.buf = _
    rw [List.set_getElem_self]
  cases new with
  | nil => exact absurd rfl hnew
  | cons a as =>
    obtain ⟨b1, hb1, ht1⟩ := ht.bytesAll m a as (by omega) hb2
    have hbase2 : b2.base = baseOf kt := by simp [Builder.base, baseOf, hi2.keyType]
    have hv := hi2.views
    refine ⟨b1, hb1, ⟨?_, ?_, ?_, fun i => ?_⟩, ?_⟩
    · exact ht1.command.trans hi2.command
    · exact ht1.keyType.trans hi2.keyType
    · rw [← hv.count]
      simp [Request.argCount, Builder.intoRequest, ht1.positions]
    · rw [← hv.arg i]
      simp only [Request.arg, Builder.intoRequest, ht1.positions, ht1.keyType, ht1.buf]
      cases hp : b2.positions[i]? with
      | none => rfl
      | some p =>
        simp only
        split
        · exact slice_set (by unfold Builder.base; split <;> simp_all)
        · cases hq : b2.positions[i - 1]? with
          | none => rfl
          | some q =>
            refine slice_set ?_
            rw [hi2.positions, positionsOf_getElem?] at hq
            split at hq
            · simp only [Option.some.injEq] at hq
              rw [hbase2]; omega
            · simp at hq
    · show b1.buf = _
      rw [ht1.buf, hi2.buf, hbase2]
      have hl : ((old ++ a :: as).take (a :: as).length).length = (a :: as).length := by
        rw [List.length_take, List.length_append]; omega
      have hf : (old ++ a :: as).flatMap encodeArg = ((old ++ a :: as).take (a :: as).length).flatMap encodeArg ++
          ((old ++ a :: as).drop (a :: as).length).flatMap encodeArg := by
        rw [← List.flatMap_append, List.take_append_drop]
      simp only [encode, hl]
      rw [hf]
      simp only [List.append_assoc]
      rw [List.set_append_right _ _ (Nat.le_of_eq (encodeHead_length c kt))]
      simp [encodeHead_length]

theorem C146_false : ¬ C146_Statement := by
  intro h
  obtain ⟨b, hb, -⟩ := C02_layout .release .exists none [[107]] (by decide) (by decide) (by decide)
  obtain ⟨b', hb', he⟩ := C02_layout .release .exists none ([[107]] ++ [[108]]) (by decide) (by decide) (by decide)
  obtain ⟨b'', h1, h2⟩ := h .release .exists none [[107]] [[108]] b b' (by simp [takesArguments]) (by decide)
    (by decide) hb hb'
  obtain ⟨b3, h3, -, h4⟩ := C147_taken_up .release .exists none [[107]] [[108]] b (by simp [takesArguments])
    (by decide) (by decide) (by decide) hb
  rw [h1] at h3
  obtain rfl : b'' = b3 := by simpa using h3
  rw [h2, he] at h4
  exact absurd h4 (by decide)

/-- What is left of C146 (missing: the bytes, which carry the number of the added arguments instead of the
number of all of them, see `C147_taken_up`): both requests show the same command, key type and arguments, and
their bytes differ in that number alone. -/
theorem C146_shown_partial (m : Mode) (c : CommandId) (kt : Option KeyType) (old new : List Bytes)
    (b b' : Builder) (hc : takesArguments c) (hne : ∀ a ∈ old ++ new, a ≠ []) (hn : (old ++ new).length ≤ 255)
    (hnew : new ≠ []) (hb : (Builder.newWithKeyType c kt).bytesAll m old = (.ok (), b))
    (hb' : (Builder.newWithKeyType c kt).bytesAll m (old ++ new) = (.ok (), b')) :
    ∃ b'', (Builder.ofRequest b.intoRequest).bytesAll m new = (.ok (), b'') ∧
      Views b''.intoRequest c kt (old ++ new) ∧ Views b'.intoRequest c kt (old ++ new) ∧
      ∃ head args, b''.intoRequest.buf = head ++ UInt8.ofNat new.length :: args ∧
        b'.intoRequest.buf = head ++ UInt8.ofNat (old ++ new).length :: args := by
  obtain ⟨b'', h1, h2, h3⟩ := C147_taken_up m c kt old new b hc hne hn hnew hb
  obtain ⟨b1, hb1, he⟩ := C02_layout m c kt (old ++ new) hc hn hne
  obtain ⟨b2, hb2, hv, -⟩ := C01_built_request_args m c kt (old ++ new) (.inl hc) hn hne
  rw [hb'] at hb1 hb2
  obtain rfl : b' = b1 := by simpa using hb1
  obtain rfl : b' = b2 := by simpa using hb2
  refine ⟨b'', h1, h2, hv, encodeHead c kt, (old ++ new).flatMap encodeArg, ?_, ?_⟩
  · rw [h3, encode, List.length_take, Nat.min_eq_left (by simp), List.append_assoc, List.append_assoc,
      ← List.flatMap_append, List.take_append_drop]
    rfl
  · rw [he, encode, List.append_assoc]
    rfl

/-- C147. A server takes the beginning of such a request, up to as many arguments as were added, for the
request, before the rest has arrived. -/
theorem C147_cut_short (m : Mode) (c : CommandId) (old new : List Bytes) (b b' : Builder)
    (hc : takesArguments c) (hne : ∀ a ∈ old ++ new, a ≠ []) (hl : ∀ a ∈ old ++ new, a.length < 2 ^ 32)
    (hn : (old ++ new).length ≤ 255) (hnew : new ≠ [])
    (hb : (Builder.newWithKeyType c none).bytesAll m old = (.ok (), b))
    (hb' : (Builder.ofRequest b.intoRequest).bytesAll m new = (.ok (), b')) :
    ∃ sent rest r, b'.intoRequest.buf = sent ++ rest ∧ (old ≠ [] → rest ≠ []) ∧
      ReqParser.feed Ctx.new sent = (.request r, Ctx.new) ∧ r.commandId = c ∧
      sent = encode c none ((old ++ new).take new.length) := by
  obtain ⟨b1, h1, -, h3⟩ := C147_taken_up m c none old new b hc hne hn hnew hb
  rw [hb'] at h1
  obtain rfl : b' = b1 := by simpa using h1
  have hsub : ∀ a ∈ (old ++ new).take new.length, a ∈ old ++ new := fun a ha => List.mem_of_mem_take ha
  have hlen : ((old ++ new).take new.length).length ≤ 255 := by rw [List.length_take]; omega
  have hpos := List.length_pos_iff.mpr hnew
  obtain ⟨d, hd, he⟩ := C02_layout m c none ((old ++ new).take new.length) hc hlen (fun a ha => hne a (hsub a ha))
  obtain ⟨r, hr, hcmd, -⟩ := C07_command_partial m c ((old ++ new).take new.length) d hc hlen
    (fun a ha => hne a (hsub a ha)) (fun a ha => hl a (hsub a ha))
    (by intro h; have := congrArg List.length h; rw [List.length_take, List.length_append, List.length_nil] at this; omega) hd
  rw [he] at hr
  refine ⟨_, _, r, h3, fun ho h => ?_, hr, hcmd, rfl⟩
  have hpo := List.length_pos_iff.mpr ho
  have hz : (old ++ new).drop new.length ≠ [] := by
    intro h; have := congrArg List.length h; simp at this; exact ho this
  obtain ⟨x, xs, hx⟩ := List.exists_cons_of_ne_nil hz
  rw [hx] at h
  have := congrArg List.length h
  simp [encodeArg] at this

example : ∃ b', (Builder.newWithKeyType .exists none).bytesAll .debug [[107], [109]] =
      (.ok (), b') ∧ ∃ b'', (Builder.ofRequest b'.intoRequest).bytesAll .debug [[108]] = (.ok (), b'') ∧
      b''.intoRequest.buf = [13, 1, 0, 0, 0, 1, 107, 0, 0, 0, 1, 109, 0, 0, 0, 1, 108] ∧
      b''.intoRequest.arg 2 = some [108] := by
  obtain ⟨b, hb, -⟩ := C02_layout .debug .exists none [[107], [109]] (by decide) (by decide) (by decide)
  obtain ⟨b'', h1, h2, h3⟩ := C147_taken_up .debug .exists none [[107], [109]] [[108]] b
    (by simp [takesArguments]) (by decide) (by decide) (by decide) hb
  exact ⟨b, hb, b'', h1, h3.trans (by decide), (h2.arg 2).trans rfl⟩

/-! ## Further concrete cases -/

example : ∃ b b' b'', (Builder.newWithKeyType .exists none).bytesAll .debug [[107], [109]] = (.ok (), b) ∧
    (Builder.newWithKeyType .exists none).bytesAll .debug [[107], [109], [108]] = (.ok (), b') ∧
    (Builder.ofRequest b.intoRequest).bytesAll .debug [[108]] = (.ok (), b'') ∧ Views b''.intoRequest .exists none [[107], [109], [108]] := by
  obtain ⟨b, hb, -⟩ := C02_layout .debug .exists none [[107], [109]] (by decide) (by decide) (by decide)
  obtain ⟨b', hb', -⟩ := C02_layout .debug .exists none [[107], [109], [108]] (by decide) (by decide) (by decide)
  obtain ⟨b'', h1, h2, -⟩ := C146_shown_partial .debug .exists none [[107], [109]] [[108]] b b' (by simp [takesArguments]) (by decide) (by decide)
    (by decide) hb hb'
  exact ⟨b, b', b'', hb, hb', h1, h2⟩

/-- Sent over the wire, it is an Exists of the first key only. -/
example : ∃ b b', (Builder.newWithKeyType .exists none).bytesAll .debug [[107], [109]] = (.ok (), b) ∧
    (Builder.ofRequest b.intoRequest).bytesAll .debug [[108]] = (.ok (), b') ∧
    ∃ rest r, b'.intoRequest.buf = encode .exists none [[107]] ++ rest ∧ rest ≠ [] ∧
      ReqParser.feed Ctx.new (encode .exists none [[107]]) = (.request r, Ctx.new) := by
  obtain ⟨b, hb, -⟩ := C02_layout .debug .exists none [[107], [109]] (by decide) (by decide) (by decide)
  obtain ⟨b', h1, -⟩ := C147_taken_up .debug .exists none [[107], [109]] [[108]] b (by simp [takesArguments]) (by decide) (by decide) (by decide) hb
  obtain ⟨sent, rest, r, h2, h3, h4, -, rfl⟩ := C147_cut_short .debug .exists [[107], [109]] [[108]] b b' (by simp [takesArguments]) (by decide) (by decide)
    (by decide) (by decide) hb h1
  exact ⟨b, b', hb, h1, rest, r, h2, h3 (by decide), h4⟩

end Hop
