import Verif.Spec.Wire
import Verif.Spec.Sample
import Verif.Props.Builder
import Verif.Props.Response

/-!
# C75 Numbers and text on the wire are big-endian, two's complement and UTF-8
-/

namespace Hop

open Spec

theorem bigEndian_succ (k n : Nat) :
    Wire.bigEndian (k + 1) n = Wire.bigEndian k (n / 256) ++ [UInt8.ofNat (n % 256)] := by
  simp only [Wire.bigEndian, List.range_succ, List.map_append, List.map_cons, List.map_nil]
  congr 1
  · apply List.map_congr_left
    intro i hi
    have hi : i < k := List.mem_range.mp hi
    rw [show k + 1 - 1 - i = (k - 1 - i) + 1 by omega, Nat.pow_succ, Nat.mul_comm, ← Nat.div_div_eq_div_mul]
  · simp

theorem beBytes_eq_bigEndian (k n : Nat) : beBytes k n = Wire.bigEndian k n := by
  induction k generalizing n with
  | zero => rfl
  | succ k ih =>
    rw [beBytes, ih, bigEndian_succ]
    congr 2
    apply UInt8.toNat_inj.mp
    simp

theorem beNat_eq_number (bs : Bytes) : beNat bs = Wire.number bs := by
  have key : ∀ (bs : Bytes) (a : Nat),
      bs.foldl (fun acc b => acc * 256 + b.toNat) a = a * 256 ^ bs.length + Wire.number bs := by
    intro bs
    induction bs with
    | nil => intro a; simp [Wire.number]
    | cons b bs ih =>
      intro a
      simp only [List.foldl_cons, ih, Wire.number, List.length_cons]
      rw [Nat.add_mul, Nat.pow_succ, Nat.mul_assoc, Nat.mul_comm 256, Nat.add_assoc]
  simpa [beNat] using key bs 0

theorem strBytes_eq_utf8 (s : List Char) : strBytes s = Wire.utf8 s := by
  simp [strBytes, Wire.utf8, String.ofList, List.utf8Encode]

/-- C75, requests: the bytes of a built request in positional notation. -/
theorem C75_request_bytes (m : Mode) (c : CommandId) (kt : Option KeyType) (args : List Bytes)
    (hc : c ≠ .stats) (hn : args.length ≤ 255) (hne : ∀ a ∈ args, a ≠ []) :
    ∃ b, (Builder.newWithKeyType c kt).bytesAll m args = (.ok (), b) ∧
      b.intoRequest.buf = Wire.request c kt args := by
  obtain ⟨b, hb, he⟩ := C02_layout m c kt args hc hn hne
  refine ⟨b, hb, he.trans ?_⟩
  have h1 : Spec.encodeArg = Wire.prefixed 4 := by
    funext a
    simp [Spec.encodeArg, Wire.prefixed, beBytes_eq_bigEndian]
  cases kt with
  | none => simp [Spec.encode, Wire.request, h1, Spec.encodeHead]
  | some t =>
    have : c.toByte ||| 128 = UInt8.ofNat (128 + c.toByte.toNat) := by cases c <;> decide
    simp [Spec.encode, Wire.request, h1, Spec.encodeHead, this]

example : Wire.request .decrementBy (some .integer) [[97, 98], [0, 0, 0, 0, 0, 0, 0, 5]] =
    [131, 3, 2, 0, 0, 0, 2, 97, 98, 0, 0, 0, 8, 0, 0, 0, 0, 0, 0, 0, 5] := by decide

theorem wire_body_eq (r : Response) : Spec.body r = Wire.body r := by
  cases r with
  | dispatchError e => rfl
  | parseError e => rfl
  | value v =>
    cases v with
    | map m =>
      have : Spec.mapItem = fun e => Wire.prefixed 1 e.1 ++ Wire.prefixed 4 e.2 := by
        funext e; simp [Spec.mapItem, Wire.prefixed, beBytes_eq_bigEndian]
      simp [Spec.body, Wire.body, Spec.payload, Spec.valueCode, beBytes_eq_bigEndian, this]
    | list l =>
      have : Spec.listItem = Wire.prefixed 4 := by
        funext e; simp [Spec.listItem, Wire.prefixed, beBytes_eq_bigEndian]
      simp [Spec.body, Wire.body, Spec.payload, Spec.valueCode, beBytes_eq_bigEndian, this]
    | set l =>
      have : Spec.setItem = Wire.prefixed 2 := by
        funext e; simp [Spec.setItem, Wire.prefixed, beBytes_eq_bigEndian]
      simp [Spec.body, Wire.body, Spec.payload, Spec.valueCode, beBytes_eq_bigEndian, this]
    | _ => simp [Spec.body, Wire.body, Spec.payload, Spec.valueCode, beBytes_eq_bigEndian,
        Wire.prefixed, Wire.bytes64, toUInt64_toNat_eq, strBytes_eq_utf8]

/-- C75, responses: whatever is written is a four-byte big-endian length and the body in positional
notation (maps and sets in the order in which they are iterated). -/
theorem C75_response_bytes (env : Env) (to out : Bytes) (r : Response)
    (h : (Wire.body r).length < 2 ^ 32) (hw : Response.copyTo env to r = some out) :
    out = to ++ Wire.prefixed 4 (Wire.body (ordered env r)) := by
  rw [← wire_body_eq] at h ⊢
  obtain ⟨rest, ho, -, -, rfl⟩ := C12_header_exact env to out r h hw
  simp [ho, Wire.prefixed, beBytes_eq_bigEndian]

example : Wire.prefixed 4 (Wire.body (.value (.integer (-2)))) =
    [0, 0, 0, 9, 3, 255, 255, 255, 255, 255, 255, 255, 254] := by decide +kernel

example : Wire.prefixed 4 (Wire.body (.value (.string ['é']))) = [0, 0, 0, 7, 7, 0, 0, 0, 2, 0xc3, 0xa9] := by
  decide +kernel

/-- C75, reading integer arguments: the first eight bytes, big-endian two's complement; fewer bytes are
not a number. -/
theorem C75_reads_integer (b : Bytes) :
    (b.length < 8 → convInt b = none) ∧
    (8 ≤ b.length → ∃ i, convInt b = some i ∧ i.toInt = Wire.signed (Wire.number (b.take 8))) := by
  constructor
  · intro h
    simp [convInt, slice]
    omega
  · intro h
    refine ⟨i64OfBytes (b.take 8), by simp [convInt, slice, h], ?_⟩
    have hl := beNat_lt (b.take 8)
    have hlen : (b.take 8).length = 8 := by simp; omega
    rw [hlen] at hl
    rw [← beNat_eq_number, i64OfBytes]
    generalize beNat (b.take 8) = n at hl ⊢
    have h1 : (UInt64.ofNat n).toInt64.toInt = Int.bmod n (2 ^ 64) := by
      show BitVec.toInt (BitVec.ofNat 64 n) = _
      rw [BitVec.toInt_eq_toNat_bmod, BitVec.toNat_ofNat, Nat.mod_eq_of_lt (by omega)]
    show (UInt64.ofNat n).toInt64.toInt = _
    rw [h1, Int.bmod_def, Wire.signed]
    split <;> split <;> omega

example : Wire.signed (Wire.number [255, 255, 255, 255, 255, 255, 255, 254]) = -2 := by decide

/-- C75, reading float arguments: the bit pattern is the big-endian number. -/
theorem C75_reads_float (b : Bytes) :
    (b.length < 8 → convFloat b = none) ∧
    (8 ≤ b.length → ∃ f, convFloat b = some f ∧ f.bits.toNat = Wire.number (b.take 8)) := by
  constructor
  · intro h
    simp [convFloat, slice]
    omega
  · intro h
    refine ⟨F64.ofBytes (b.take 8), by simp [convFloat, slice, h], ?_⟩
    have hl := beNat_lt (b.take 8)
    have hlen : (b.take 8).length = 8 := by simp; omega
    rw [hlen] at hl
    rw [← beNat_eq_number]
    simp [F64.ofBytes]
    omega

/-- C75, reading text arguments: bytes are accepted exactly if they are the UTF-8 bytes of a string,
and are read as that string. -/
theorem C75_reads_text (b : Bytes) (s : List Char) : convStr b = some s ↔ Wire.utf8 s = b := by
  rw [← strBytes_eq_utf8]
  exact ⟨strBytes_fromUtf8, fun h => h ▸ fromUtf8_strBytes s⟩

example : Wire.utf8 ['é', 'a'] = [0xc3, 0xa9, 0x61] := by decide +kernel

/-! ## Further concrete cases -/

example : ∃ b, (Builder.newWithKeyType .decrementBy (some .integer)).bytesAll .debug [[97, 98], [0, 0, 0, 0, 0, 0, 0, 5]] = (.ok (), b) ∧
    b.intoRequest.buf = [131, 3, 2, 0, 0, 0, 2, 97, 98, 0, 0, 0, 8, 0, 0, 0, 0, 0, 0, 0, 5] :=
  C75_request_bytes .debug .decrementBy (some .integer) [[97, 98], [0, 0, 0, 0, 0, 0, 0, 5]] (by decide) (by decide) (by decide)

example (env : Env) (out : Bytes) (hw : Response.copyTo env [7] (.value (.integer (-2))) = some out) :
    out = [7, 0, 0, 0, 9, 3, 255, 255, 255, 255, 255, 255, 255, 254] := by
  rw [C75_response_bytes env [7] out _ (by decide +kernel) hw]
  show [7] ++ Wire.prefixed 4 (Wire.body (.value (.integer (-2)))) = _
  decide +kernel

end Hop
