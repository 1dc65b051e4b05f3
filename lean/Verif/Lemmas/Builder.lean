import Verif.Lemmas.Bytes
import Verif.Spec.Request

/-! Lemmas about the request builder. -/

namespace Hop

open Spec

theorem beBytes_mod (k n : Nat) : beBytes k (n % 256 ^ k) = beBytes k n := by
  induction k generalizing n with
  | zero => rfl
  | succ k ih =>
    rw [beBytes, beBytes]
    have h1 : n % 256 ^ (k + 1) / 256 = (n / 256) % 256 ^ k := by
      rw [show 256 ^ (k + 1) = 256 * 256 ^ k by rw [Nat.pow_succ, Nat.mul_comm]]
      exact Nat.mod_mul_right_div_self n 256 (256 ^ k)
    have h2 : UInt8.ofNat (n % 256 ^ (k + 1)) = UInt8.ofNat n := by
      apply UInt8.toNat_inj.mp
      simp only [UInt8.toNat_ofNat']
      have : (256 : Nat) ∣ 256 ^ (k + 1) := ⟨256 ^ k, by rw [Nat.pow_succ, Nat.mul_comm]⟩
      exact Nat.mod_mod_of_dvd n this
    rw [h1, ih, h2]

/-- The positions the builder records: for each argument the index of its last byte (empty arguments:
of the byte before), counted from `p`, the index of the argument count byte. -/
def positionsOf : Nat → List Bytes → List Nat
  | _, [] => []
  | p, a :: as => (p + 4 + a.length) :: positionsOf (p + 4 + a.length) as

/-- Bytes taken by the encoded arguments. -/
def argsSize (args : List Bytes) : Nat := (args.flatMap encodeArg).length

theorem argsSize_nil : argsSize [] = 0 := rfl
theorem argsSize_cons (a : Bytes) (as : List Bytes) : argsSize (a :: as) = 4 + a.length + argsSize as := by
  simp [argsSize, encodeArg]
  omega

theorem argsSize_append (as bs : List Bytes) : argsSize (as ++ bs) = argsSize as + argsSize bs := by
  simp [argsSize]

@[simp] theorem positionsOf_length (p : Nat) (args : List Bytes) :
    (positionsOf p args).length = args.length := by
  induction args generalizing p with
  | nil => rfl
  | cons a as ih => simp [positionsOf, ih]

theorem positionsOf_append (p : Nat) (as bs : List Bytes) :
    positionsOf p (as ++ bs) = positionsOf p as ++ positionsOf (p + argsSize as) bs := by
  induction as generalizing p with
  | nil => simp [positionsOf, argsSize_nil]
  | cons a as ih =>
    simp only [List.cons_append, positionsOf, ih, argsSize_cons]
    congr 3
    omega

theorem positionsOf_getLast? (p : Nat) (args : List Bytes) :
    (positionsOf p args).getLast? = if args = [] then none else some (p + argsSize args) := by
  induction args generalizing p with
  | nil => rfl
  | cons a as ih =>
    simp only [positionsOf, List.getLast?_cons, ih]
    by_cases h : as = []
    · subst h; simp [argsSize_cons, argsSize_nil]; omega
    · simp [h, argsSize_cons]; omega

theorem positionsOf_getElem? (p : Nat) (args : List Bytes) (i : Nat) :
    (positionsOf p args)[i]? =
      if i < args.length then some (p + argsSize (args.take (i + 1))) else none := by
  induction args generalizing p i with
  | nil => simp [positionsOf]
  | cons a as ih =>
    cases i with
    | zero => simp [positionsOf, argsSize_cons, argsSize_nil]; omega
    | succ i =>
      simp only [positionsOf, List.getElem?_cons_succ, ih, List.length_cons, List.take_succ_cons,
        argsSize_cons, Nat.add_lt_add_iff_right]
      split <;> simp; omega

def baseOf (kt : Option KeyType) : Nat := if kt.isSome then 1 else 0

theorem encodeHead_length (c : CommandId) (kt : Option KeyType) :
    (encodeHead c kt).length = 1 + baseOf kt := by
  cases kt <;> simp [encodeHead, baseOf]

/-- The relation between a builder and the arguments pushed so far. -/
structure BInv (b : Builder) (c : CommandId) (kt : Option KeyType) (args : List Bytes) : Prop where
  command : b.commandId = c
  keyType : b.keyType = kt
  count : b.argumentCount = args.length
  buf : b.buf = encode c kt args
  positions : b.positions = positionsOf (baseOf kt + 1) args

theorem BInv.new (c : CommandId) (kt : Option KeyType) (h : c.isSimple = false) :
    BInv (Builder.newWithKeyType c kt) c kt [] := by
  refine ⟨rfl, rfl, rfl, ?_, rfl⟩
  cases kt <;> simp [Builder.newWithKeyType, encode, encodeHead, h]

theorem Builder.new_eq (c : CommandId) : Builder.new c = Builder.newWithKeyType c none := by
  cases c <;> rfl

theorem BInv.push {b : Builder} {c kt args} (h : BInv b c kt args) (m : Mode) (a : Bytes)
    (hn : args.length < 255) :
    ∃ b', b.pushArgument m a = some b' ∧ BInv b' c kt (args ++ [a]) := by
  obtain ⟨h1, h2, h3, h4, h5⟩ := h
  have hadd : addU m 8 b.argumentCount 1 = some (args.length + 1) := by
    unfold addU; rw [h3, if_pos (by omega)]
  have hb : b.base = baseOf kt := by simp [Builder.base, baseOf, h2]
  have hlen : (encode c kt args).length = 2 + baseOf kt + argsSize args := by
    simp only [encode, List.length_append, encodeHead_length, List.length_singleton, argsSize]; omega
  have hlt : 1 + b.base < (b.buf ++ beBytes 4 (a.length % 2 ^ 32) ++ a).length := by
    rw [h4, hb]; simp only [List.length_append, hlen, beBytes_length]; omega
  have hp : b.positions.length < 256 := by rw [h5, positionsOf_length]; omega
  have hpush : b.pushArgument m a = some
      { b with
        argumentCount := args.length + 1
        buf := (b.buf ++ beBytes 4 (a.length % 2 ^ 32) ++ a).set (1 + b.base)
          (UInt8.ofNat (args.length + 1))
        positions := b.positions ++ [match b.positions.getLast? with
          | some position => position + 4 + a.length
          | none => b.base + 1 + 4 + a.length] } := by
    unfold Builder.pushArgument
    simp only [hadd, if_pos hlt, if_pos hp]
    cases b.positions.getLast? <;> rfl
  refine ⟨_, hpush, h1, h2, by simp, ?_, ?_⟩
  · simp only
    rw [h4, hb]
    have : beBytes 4 (a.length % 2 ^ 32) = beBytes 4 a.length := beBytes_mod 4 a.length
    rw [this]
    simp only [encode, List.append_assoc]
    rw [List.set_append_right _ _ (Nat.le_of_eq (encodeHead_length c kt))]
    simp [encodeHead_length, encodeArg]
  · simp only
    rw [h5, positionsOf_append, positionsOf_getLast?, hb]
    by_cases hnil : args = []
    · subst hnil; simp [positionsOf, argsSize_nil]
    · simp [hnil, positionsOf]

theorem BInv.pushAll {b : Builder} {c kt args} (h : BInv b c kt args) (m : Mode) (as : List Bytes)
    (hn : args.length + as.length ≤ 255) :
    ∃ b', b.pushAll m as = (.ok (), b') ∧ BInv b' c kt (args ++ as) := by
  induction as generalizing b args with
  | nil => exact ⟨b, rfl, by simpa using h⟩
  | cons a as ih =>
    simp only [List.length_cons] at hn
    obtain ⟨b1, hb1, hi1⟩ := h.push m a (by omega)
    obtain ⟨b2, hb2, hi2⟩ := ih hi1 (by simp; omega)
    refine ⟨b2, ?_, by simpa using hi2⟩
    simp only [Builder.pushAll, hb1, hb2]

theorem BInv.pushItems {b : Builder} {c kt args} (h : BInv b c kt args) (m : Mode) (as : List Bytes)
    (hn : args.length + as.length ≤ 255) (hne : ∀ a ∈ as, a ≠ []) :
    ∃ b', b.pushItems m as = (.ok (), b') ∧ BInv b' c kt (args ++ as) := by
  induction as generalizing b args with
  | nil => exact ⟨b, rfl, by simpa using h⟩
  | cons a as ih =>
    simp only [List.length_cons] at hn
    obtain ⟨b1, hb1, hi1⟩ := h.push m a (by omega)
    obtain ⟨b2, hb2, hi2⟩ := ih hi1 (by simp; omega) (fun x hx => hne x (List.mem_cons_of_mem _ hx))
    refine ⟨b2, ?_, by simpa using hi2⟩
    simp only [Builder.pushItems, hb1, hb2, if_neg (hne a (List.mem_cons_self))]

theorem BInv.bytes {b : Builder} {c kt args} (h : BInv b c kt args) (m : Mode) (a : Bytes)
    (hn : args.length < 255) (hne : a ≠ []) :
    ∃ b', b.bytes m a = (.ok (), b') ∧ BInv b' c kt (args ++ [a]) := by
  simp only [Builder.bytes, if_neg hne]
  exact h.pushAll m [a] (by simp; omega)

theorem BInv.bytesAll {b : Builder} {c kt args} (h : BInv b c kt args) (m : Mode) (as : List Bytes)
    (hn : args.length + as.length ≤ 255) (hne : ∀ a ∈ as, a ≠ []) :
    ∃ b', b.bytesAll m as = (.ok (), b') ∧ BInv b' c kt (args ++ as) := by
  induction as generalizing b args with
  | nil => exact ⟨b, rfl, by simpa using h⟩
  | cons a as ih =>
    simp only [List.length_cons] at hn
    obtain ⟨b1, hb1, hi1⟩ := h.bytes m a (by omega) (hne a List.mem_cons_self)
    obtain ⟨b2, hb2, hi2⟩ := ih hi1 (by simp; omega) (fun x hx => hne x (List.mem_cons_of_mem _ hx))
    refine ⟨b2, ?_, by simpa using hi2⟩
    simp only [Builder.bytesAll, hb1, hb2]

theorem encode_split (c : CommandId) (kt : Option KeyType) (args : List Bytes) (i : Nat)
    (h : i < args.length) :
    encode c kt args =
      (encodeHead c kt ++ [UInt8.ofNat args.length] ++ (args.take i).flatMap encodeArg
        ++ beBytes 4 args[i].length) ++ args[i] ++ (args.drop (i + 1)).flatMap encodeArg := by
  have hf : args.flatMap encodeArg = (args.take i).flatMap encodeArg ++
      (encodeArg args[i] ++ (args.drop (i + 1)).flatMap encodeArg) := by
    have := congrArg (List.flatMap encodeArg) (List.take_append_drop i args)
    rw [List.drop_eq_getElem_cons h, List.flatMap_append, List.flatMap_cons] at this
    exact this.symm
  rw [encode, hf]
  simp only [encodeArg, List.append_assoc]

/-- The accessors of a built request report what was pushed. -/
theorem BInv.views {b : Builder} {c kt args} (h : BInv b c kt args) :
    Views b.intoRequest c kt args := by
  obtain ⟨h1, h2, h3, h4, h5⟩ := h
  refine ⟨h1, h2, by simp [Request.argCount, Builder.intoRequest, h5], ?_⟩
  intro i
  simp only [Request.arg, Builder.intoRequest, h5, positionsOf_getElem?]
  by_cases hi : i < args.length
  · rw [if_pos hi]
    have hs := encode_split c kt args i hi
    have hget : args[i]? = some args[i] := List.getElem?_eq_getElem hi
    have hsz : argsSize (args.take (i + 1)) = argsSize (args.take i) + (4 + args[i].length) := by
      rw [List.take_succ_eq_append_getElem hi, argsSize_append, argsSize_cons, argsSize_nil]
      omega
    have hpre : (encodeHead c kt ++ [UInt8.ofNat args.length] ++ (args.take i).flatMap encodeArg
        ++ beBytes 4 args[i].length).length = 1 + baseOf kt + 1 + argsSize (args.take i) + 4 := by
      simp only [List.length_append, encodeHead_length, beBytes_length, List.length_singleton, argsSize]
    by_cases h0 : i = 0
    · subst h0
      simp only [if_true, h2, h4, hget]
      rw [hs]
      apply slice_mid
      · rw [hpre]; simp only [baseOf, List.take_zero, argsSize_nil]; omega
      · rw [hpre, hsz]; simp only [baseOf, List.take_zero, argsSize_nil]; omega
    · rw [if_pos (show i - 1 < args.length by omega)]
      simp only [if_neg h0, h4, hget, show i - 1 + 1 = i by omega]
      rw [hs]
      apply slice_mid
      · rw [hpre]; omega
      · rw [hpre, hsz]; omega
  · rw [if_neg hi]
    simp [List.getElem?_eq_none (Nat.le_of_not_lt hi)]

/-! Consequences of `Views`. -/

theorem collect_eq {r : Request} {c kt args} (h : Views r c kt args) (n i : Nat) :
    r.collect i n = (args.drop i).take n := by
  induction n generalizing i with
  | zero => simp [Request.collect]
  | succ n ih =>
    simp only [Request.collect, h.arg, ih]
    by_cases hi : i < args.length
    · rw [List.getElem?_eq_getElem hi, List.drop_eq_getElem_cons hi, List.take_succ_cons]
    · rw [List.getElem?_eq_none (by omega), List.drop_eq_nil_of_le (show args.length ≤ i by omega),
        List.take_nil]

theorem argsFrom_eq {r : Request} {c kt args} (h : Views r c kt args) (i : Nat) :
    r.argsFrom i = if args = [] then none else some (args.drop i) := by
  unfold Request.argsFrom
  rw [h.count]
  by_cases hn : args = []
  · simp [hn]
  · have : args.length ≠ 0 := by simpa using hn
    rw [if_neg this, if_neg hn, collect_eq h]
    congr 1
    apply List.take_of_length_le
    simp

end Hop
