import Verif.Model.Types

/-! Lemmas about slices, big-endian numbers and UTF-8. -/

namespace Hop

theorem slice_eq_some {buf : Bytes} {a b : Nat} {s : Bytes} :
    slice buf a b = some s ↔ a ≤ b ∧ b ≤ buf.length ∧ s = (buf.drop a).take (b - a) := by
  unfold slice
  split
  · rename_i h
    simp [h.1, h.2, eq_comm]
  · rename_i h
    simp only [reduceCtorEq, false_iff]
    rintro ⟨h1, h2, -⟩
    exact h ⟨h1, h2⟩

theorem slice_eq_none {buf : Bytes} {a b : Nat} :
    slice buf a b = none ↔ ¬ (a ≤ b ∧ b ≤ buf.length) := by
  unfold slice
  split <;> simp_all

theorem slice_length {buf : Bytes} {a b : Nat} {s : Bytes} (h : slice buf a b = some s) :
    s.length = b - a := by
  rw [slice_eq_some] at h
  obtain ⟨h1, h2, rfl⟩ := h
  simp
  omega

/-- A slice that is present stays the same when the buffer grows. -/
theorem slice_append {buf ext : Bytes} {a b : Nat} {s : Bytes} (h : slice buf a b = some s) :
    slice (buf ++ ext) a b = some s := by
  rw [slice_eq_some] at h ⊢
  obtain ⟨h1, h2, rfl⟩ := h
  refine ⟨h1, by simp; omega, ?_⟩
  rw [List.drop_append_of_le_length (by omega), List.take_append_of_le_length (by simp; omega)]

/-- The slice between two pieces of a concatenation. -/
theorem slice_mid (pre s post : Bytes) (a b : Nat) (ha : a = pre.length)
    (hb : b = pre.length + s.length) : slice (pre ++ s ++ post) a b = some s := by
  subst ha hb
  rw [slice_eq_some]
  refine ⟨by omega, by simp, ?_⟩
  simp [List.append_assoc]

@[simp] theorem beBytes_length (k n : Nat) : (beBytes k n).length = k := by
  induction k generalizing n with
  | zero => rfl
  | succ k ih => simp [beBytes, ih]

theorem beNat_append_singleton (bs : Bytes) (b : UInt8) :
    beNat (bs ++ [b]) = beNat bs * 256 + b.toNat := by
  simp [beNat]

theorem beNat_nil : beNat [] = 0 := rfl

theorem beNat_beBytes (k n : Nat) : beNat (beBytes k n) = n % 256 ^ k := by
  induction k generalizing n with
  | zero => simp [beBytes, beNat, Nat.mod_one]
  | succ k ih =>
    rw [beBytes, beNat_append_singleton, ih, UInt8.toNat_ofNat']
    rw [show 256 ^ (k + 1) = 256 * 256 ^ k by rw [Nat.pow_succ, Nat.mul_comm], Nat.mod_mul]
    omega

theorem beNat_beBytes_of_lt {k n : Nat} (h : n < 256 ^ k) : beNat (beBytes k n) = n := by
  rw [beNat_beBytes, Nat.mod_eq_of_lt h]

theorem beNat_lt (bs : Bytes) : beNat bs < 256 ^ bs.length := by
  induction h : bs.length generalizing bs with
  | zero =>
    have : bs = [] := List.length_eq_zero_iff.mp h
    subst this; simp [beNat]
  | succ n ih =>
    rcases List.eq_nil_or_concat bs with rfl | ⟨init, b, rfl⟩
    · simp at h
    · simp at h
      have := ih init h
      rw [List.concat_eq_append, beNat_append_singleton, Nat.pow_succ]
      have hb := b.toNat_lt
      omega

theorem beBytes_beNat (bs : Bytes) : beBytes bs.length (beNat bs) = bs := by
  induction h : bs.length generalizing bs with
  | zero =>
    have : bs = [] := List.length_eq_zero_iff.mp h
    subst this; rfl
  | succ n ih =>
    rcases List.eq_nil_or_concat bs with rfl | ⟨init, b, rfl⟩
    · simp at h
    · simp at h
      have hb := b.toNat_lt
      rw [List.concat_eq_append, beNat_append_singleton, beBytes]
      have h1 : (beNat init * 256 + b.toNat) / 256 = beNat init := by omega
      rw [h1, ih init h]
      congr 2
      apply UInt8.toNat_inj.mp
      rw [UInt8.toNat_ofNat']
      omega

theorem beBytes_inj {k a b : Nat} (ha : a < 256 ^ k) (hb : b < 256 ^ k)
    (h : beBytes k a = beBytes k b) : a = b := by
  rw [← beNat_beBytes_of_lt ha, ← beNat_beBytes_of_lt hb, h]

@[simp] theorem i64Bytes_length (i : Int64) : (i64Bytes i).length = 8 := by simp [i64Bytes]
@[simp] theorem F64.toBytes_length (f : F64) : f.toBytes.length = 8 := by simp [F64.toBytes]

theorem i64OfBytes_i64Bytes (i : Int64) : i64OfBytes (i64Bytes i) = i := by
  have h := i.toUInt64.toNat_lt
  simp only [i64OfBytes, i64Bytes]
  rw [beNat_beBytes_of_lt (by omega)]
  simp

theorem i64Bytes_i64OfBytes (b : Bytes) (h : b.length = 8) : i64Bytes (i64OfBytes b) = b := by
  have hl := beNat_lt b
  simp only [i64OfBytes, i64Bytes]
  have : (UInt64.ofNat (beNat b)).toInt64.toUInt64.toNat = beNat b := by
    simp
    rw [h] at hl
    omega
  rw [this, ← h, beBytes_beNat]

theorem F64.ofBytes_toBytes (f : F64) : F64.ofBytes f.toBytes = f := by
  have h := f.bits.toNat_lt
  simp only [F64.ofBytes, F64.toBytes]
  rw [beNat_beBytes_of_lt (by omega)]
  simp

theorem F64.toBytes_ofBytes (b : Bytes) (h : b.length = 8) : (F64.ofBytes b).toBytes = b := by
  have hl := beNat_lt b
  simp only [F64.ofBytes, F64.toBytes]
  have : (UInt64.ofNat (beNat b)).toNat = beNat b := by
    simp
    rw [h] at hl
    omega
  rw [this, ← h, beBytes_beNat]

theorem i64Bytes_inj {a b : Int64} (h : i64Bytes a = i64Bytes b) : a = b := by
  rw [← i64OfBytes_i64Bytes a, h, i64OfBytes_i64Bytes]

theorem F64.toBytes_inj {a b : F64} (h : a.toBytes = b.toBytes) : a = b := by
  rw [← F64.ofBytes_toBytes a, h, F64.ofBytes_toBytes]

/-! ## UTF-8 -/

theorem toByteArray_strBytes (s : List Char) : (strBytes s).toByteArray = s.utf8Encode := rfl

theorem fromUtf8_strBytes (s : List Char) : fromUtf8 (strBytes s) = some s := by
  simp [fromUtf8, toByteArray_strBytes, List.utf8Decode?_utf8Encode]

theorem toByteArray_inj {a b : Bytes} (h : a.toByteArray = b.toByteArray) : a = b := by
  have := congrArg (fun x => x.data.toList) h
  simpa using this

theorem strBytes_fromUtf8 {b : Bytes} {s : List Char} (h : fromUtf8 b = some s) : strBytes s = b := by
  unfold fromUtf8 at h
  cases hd : b.toByteArray.utf8Decode? with
  | none => simp [hd] at h
  | some cs =>
    simp [hd] at h
    subst h
    apply toByteArray_inj
    rw [toByteArray_strBytes]
    have := ByteArray.utf8Encode_get_utf8Decode? (b := b.toByteArray) (h := by simp [hd])
    simpa [hd] using this

theorem strBytes_inj {a b : List Char} (h : strBytes a = strBytes b) : a = b := by
  have := congrArg fromUtf8 h
  simpa [fromUtf8_strBytes] using this

theorem strBytes_eq_nil {s : List Char} : strBytes s = [] ↔ s = [] := by
  constructor
  · intro h
    apply strBytes_inj
    rw [h]; rfl
  · rintro rfl; rfl

theorem strBytes_append (a b : List Char) : strBytes (a ++ b) = strBytes a ++ strBytes b := by
  simp [strBytes]

theorem fromUtf8_nil : fromUtf8 [] = some [] := fromUtf8_strBytes []

/-! ## Maps and sets -/

theorem BMap.get_nil (k : Bytes) : BMap.get [] k = none := rfl

theorem BMap.get_cons (k' v' : Bytes) (m : BMap) (k : Bytes) :
    BMap.get ((k', v') :: m) k = if k = k' then some v' else BMap.get m k := by
  simp only [BMap.get, List.lookup]
  by_cases h : k = k'
  · simp [h]
  · rw [beq_false_of_ne h]; simp [h]

theorem BMap.get_insert (m : BMap) (k v k' : Bytes) :
    (m.insert k v).get k' = if k' = k then some v else m.get k' := by
  induction m with
  | nil => simp [BMap.insert, BMap.get_cons, BMap.get_nil]
  | cons e m ih =>
    obtain ⟨a, b⟩ := e
    simp only [BMap.insert]
    split
    · rename_i h; subst h
      simp only [BMap.get_cons]
      split <;> rfl
    · rename_i h
      simp only [BMap.get_cons, ih]
      by_cases h1 : k' = a
      · subst h1; simp [h]
      · simp [h1]

/-- No key occurs twice: the invariant every `DashMap` has. -/
def BMap.Nodup (m : BMap) : Prop := (m.map Prod.fst).Nodup

theorem BMap.keys_insert (m : BMap) (k v : Bytes) (k' : Bytes) :
    k' ∈ (m.insert k v).map Prod.fst ↔ k' = k ∨ k' ∈ m.map Prod.fst := by
  induction m with
  | nil => simp [BMap.insert]
  | cons e m ih =>
    obtain ⟨a, b⟩ := e
    simp only [BMap.insert]
    split
    · rename_i h; subst h; simp
    · simp only [List.map_cons, List.mem_cons, ih]
      constructor
      · rintro (h | h | h) <;> simp [h]
      · rintro (h | h | h) <;> simp [h]

theorem BMap.nodup_insert {m : BMap} (h : m.Nodup) (k v : Bytes) : (m.insert k v).Nodup := by
  induction m with
  | nil => simp [BMap.insert, BMap.Nodup]
  | cons e m ih =>
    obtain ⟨a, b⟩ := e
    simp only [BMap.Nodup, List.map_cons, List.nodup_cons] at h
    simp only [BMap.insert]
    split
    · rename_i h'; subst h'
      simp [BMap.Nodup, h]
    · rename_i h'
      simp only [BMap.Nodup, List.map_cons, List.nodup_cons]
      refine ⟨?_, ih h.2⟩
      rw [BMap.keys_insert]
      rintro (h1 | h1)
      · exact h' h1
      · exact h.1 h1

theorem BMap.insert_of_not_mem {m : BMap} {k : Bytes} (v : Bytes) (h : k ∉ m.map Prod.fst) :
    m.insert k v = m ++ [(k, v)] := by
  induction m with
  | nil => rfl
  | cons e m ih =>
    obtain ⟨a, b⟩ := e
    simp only [List.map_cons, List.mem_cons, not_or] at h
    simp only [BMap.insert]
    rw [if_neg (fun hh => h.1 hh.symm), ih h.2]
    rfl

theorem BMap.get_eq_some_of_mem {m : BMap} (h : m.Nodup) {k v : Bytes} (hm : (k, v) ∈ m) :
    m.get k = some v := by
  induction m with
  | nil => simp at hm
  | cons e m ih =>
    obtain ⟨a, b⟩ := e
    simp only [BMap.Nodup, List.map_cons, List.nodup_cons] at h
    rw [BMap.get_cons]
    simp only [List.mem_cons, Prod.mk.injEq] at hm
    rcases hm with ⟨rfl, rfl⟩ | hm
    · simp
    · rw [if_neg, ih h.2 hm]
      rintro rfl
      exact h.1 (List.mem_map_of_mem (f := Prod.fst) hm)

theorem BMap.mem_of_get {m : BMap} {k v : Bytes} (h : m.get k = some v) : (k, v) ∈ m := by
  induction m with
  | nil => simp [BMap.get_nil] at h
  | cons e m ih =>
    obtain ⟨a, b⟩ := e
    rw [BMap.get_cons] at h
    split at h
    · rename_i hk; subst hk; simp_all
    · exact List.mem_cons_of_mem _ (ih h)

theorem BMap.get_perm {m m' : BMap} (hp : m'.Perm m) (h : m.Nodup) (k : Bytes) :
    m'.get k = m.get k := by
  have h' : m'.Nodup := by
    unfold BMap.Nodup at *
    exact (hp.map Prod.fst).nodup_iff.mpr h
  cases hg : m.get k with
  | some v => exact BMap.get_eq_some_of_mem h' (hp.mem_iff.mpr (BMap.mem_of_get hg))
  | none =>
    cases hg' : m'.get k with
    | none => rfl
    | some v =>
      have := BMap.get_eq_some_of_mem h (hp.mem_iff.mp (BMap.mem_of_get hg'))
      simp [hg] at this

theorem BSet.mem_insert (s : BSet) (k x : Bytes) : x ∈ s.insert k ↔ x = k ∨ x ∈ s := by
  unfold BSet.insert
  split
  · rename_i h
    constructor
    · exact Or.inr
    · rintro (rfl | h') <;> assumption
  · simp [or_comm]

theorem BSet.nodup_insert {s : BSet} (h : s.Nodup) (k : Bytes) : (s.insert k).Nodup := by
  unfold BSet.insert
  split
  · exact h
  · rename_i hk
    rw [List.nodup_append]
    refine ⟨h, by simp, ?_⟩
    intro a ha b hb
    simp at hb
    subst hb
    rintro rfl
    exact hk ha

theorem toUInt64_toNat_eq (i : Int64) : i.toUInt64.toNat = (i.toInt % 2 ^ 64).toNat := by
  have h : i.toInt = (BitVec.toInt i.toBitVec) := rfl
  have h2 : i.toUInt64.toNat = i.toBitVec.toNat := rfl
  rw [h, h2, BitVec.toInt_eq_toNat_bmod]
  have := i.toBitVec.isLt
  rw [Int.bmod_def]
  split <;> omega

end Hop
