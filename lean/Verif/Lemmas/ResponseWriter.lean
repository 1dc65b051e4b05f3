import Verif.Spec.Response
import Verif.Lemmas.Bytes
import Verif.Lemmas.Builder

/-! Writers produce frames. -/

namespace Hop

open Spec Response

theorem addU_of_lt {m : Mode} {bits a b : Nat} (h : a + b < 2 ^ bits) : addU m bits a b = some (a + b) := by
  simp [addU, h]

theorem addU_release (bits a b : Nat) : addU .release bits a b = some ((a + b) % 2 ^ bits) := by
  unfold addU
  split
  · rename_i h; rw [Nat.mod_eq_of_lt h]
  · rfl

theorem addU_mod {m : Mode} {bits a b x : Nat} (h : addU m bits a b = some x) : x = (a + b) % 2 ^ bits := by
  unfold addU at h
  split at h
  · rename_i h1; simp at h; rw [Nat.mod_eq_of_lt h1, h]
  · cases m <;> simp at h; exact h.symm

theorem writeListLoop_eq (m : Mode) (items : List Bytes) (to : Bytes) (msgLen itemCount : Nat)
    (h1 : msgLen + (items.flatMap listItem).length < 2 ^ 32)
    (h2 : m = .release ∨ itemCount + items.length < 2 ^ 16) (h3 : itemCount < 2 ^ 16) :
    writeListLoop m to msgLen itemCount items =
      some (to ++ items.flatMap listItem, msgLen + (items.flatMap listItem).length,
        (itemCount + items.length) % 2 ^ 16) := by
  induction items generalizing to msgLen itemCount with
  | nil => simp [writeListLoop, Nat.mod_eq_of_lt h3]
  | cons x xs ih =>
    simp only [List.flatMap_cons, List.length_append] at h1
    have hx : (listItem x).length = 4 + x.length := by simp [listItem]
    rw [hx] at h1
    have e1 : ∃ n, addU m 16 itemCount 1 = some n ∧ n = (itemCount + 1) % 2 ^ 16 := by
      rcases h2 with rfl | h2
      · exact ⟨_, addU_release _ _ _, rfl⟩
      · simp only [List.length_cons] at h2
        exact ⟨_, addU_of_lt (by omega), by omega⟩
    obtain ⟨n, e1, hn⟩ := e1
    have e2 : x.length % 2 ^ 32 = x.length := Nat.mod_eq_of_lt (by omega)
    simp only [writeListLoop, e1, e2, Option.bind_eq_bind, Option.bind_some]
    rw [addU_of_lt (show 4 + x.length < 2 ^ 32 by omega)]
    simp only [Option.bind_some]
    rw [addU_of_lt (show msgLen + (4 + x.length) < 2 ^ 32 by omega)]
    simp only [Option.bind_some]
    rw [ih _ _ _ (by omega) ?_ (by omega)]
    · simp only [List.flatMap_cons, List.length_append, List.length_cons, hx, Option.some.injEq,
        Prod.mk.injEq]
      refine ⟨?_, by omega, by omega⟩
      simp [listItem]
    · rcases h2 with rfl | h2
      · exact Or.inl rfl
      · simp only [List.length_cons] at h2; right; omega

theorem patch_mid (a x y c : Bytes) (h : x.length = y.length) : patch (a ++ x ++ c) a.length y = a ++ y ++ c := by
  unfold patch
  rw [← h]
  simp

theorem writeList_eq (m : Mode) (items : List Bytes) (to : Bytes)
    (h1 : 3 + (items.flatMap listItem).length < 2 ^ 32)
    (h2 : m = .release ∨ items.length < 2 ^ 16) :
    writeList m to items = some (to ++ frame (.value (.list items))) := by
  unfold writeList
  simp only
  rw [writeListLoop_eq m items _ 3 0 h1 (by simpa using h2) (by decide)]
  simp only [Option.bind_eq_bind, Option.bind_some, Option.pure_def, Nat.zero_add, Option.some.injEq]
  have e1 : to ++ [0, 0, 0, 0] ++ [ResponseType.list.toByte] ++ [0] ++ [0] ++ items.flatMap listItem =
      to ++ [0, 0, 0, 0] ++ (ResponseType.list.toByte :: 0 :: 0 :: items.flatMap listItem) := by simp
  rw [e1, patch_mid _ _ _ _ (by simp)]
  have e2 : to ++ beBytes 4 (3 + (items.flatMap listItem).length) ++
      (ResponseType.list.toByte :: 0 :: 0 :: items.flatMap listItem) =
      (to ++ beBytes 4 (3 + (items.flatMap listItem).length) ++ [ResponseType.list.toByte]) ++ [0, 0] ++
        items.flatMap listItem := by simp
  have e3 : to.length + 5 =
      (to ++ beBytes 4 (3 + (items.flatMap listItem).length) ++ [ResponseType.list.toByte]).length := by
    simp
  rw [e2, e3, patch_mid _ _ _ _ (by simp)]
  rw [show (2:Nat) ^ 16 = 256 ^ 2 by decide, beBytes_mod]
  have e4 : (body (.value (.list items))).length = 3 + (items.flatMap listItem).length := by
    simp [body, payload]; omega
  rw [frame, e4]
  simp [body, payload, valueCode, ResponseType.toByte]

theorem mapItem_length (e : Bytes × Bytes) : (mapItem e).length = 5 + e.1.length + e.2.length := by
  simp [mapItem]; omega

theorem mapLen_eq (m : Mode) (mp : BMap) (acc : Nat) (h : acc + (mp.flatMap mapItem).length < 2 ^ 32) :
    mapLen m acc mp = some (acc + (mp.flatMap mapItem).length) := by
  induction mp generalizing acc with
  | nil => simp [mapLen]
  | cons e rest ih =>
    obtain ⟨k, v⟩ := e
    simp only [List.flatMap_cons, List.length_append, mapItem_length] at h ⊢
    simp only [mapLen, Option.bind_eq_bind]
    rw [Nat.mod_eq_of_lt (show k.length < 2 ^ 32 by omega), Nat.mod_eq_of_lt (show v.length < 2 ^ 32 by omega)]
    rw [addU_of_lt (show 1 + k.length < 2 ^ 32 by omega)]
    simp only [Option.bind_some]
    rw [addU_of_lt (show 1 + k.length + 4 < 2 ^ 32 by omega)]
    simp only [Option.bind_some]
    rw [addU_of_lt (show 1 + k.length + 4 + v.length < 2 ^ 32 by omega)]
    simp only [Option.bind_some]
    rw [addU_of_lt (show acc + (1 + k.length + 4 + v.length) < 2 ^ 32 by omega)]
    simp only [Option.bind_some]
    rw [ih _ (by omega)]
    simp only [Option.some.injEq]; omega

theorem beBytes_one (n : Nat) : beBytes 1 n = [UInt8.ofNat n] := by simp [beBytes]

theorem mapEntry_eq (e : Bytes × Bytes) : mapEntry e = mapItem e := by
  simp only [mapEntry, mapItem, beBytes_one]
  rw [show (2:Nat) ^ 32 = 256 ^ 4 by decide, beBytes_mod]
  have : UInt8.ofNat (e.1.length % 2 ^ 8) = UInt8.ofNat e.1.length := by
    apply UInt8.toNat_inj.mp; simp
  rw [this]
  simp

theorem writeMapIter_eq (m : Mode) (mp : BMap) (to : Bytes)
    (h : 3 + (mp.flatMap mapItem).length < 2 ^ 32) :
    writeMapIter m to mp = some (to ++ frame (.value (.map mp))) := by
  unfold writeMapIter
  rw [mapLen_eq m mp 3 h]
  have e4 : (body (.value (.map mp))).length = 3 + (mp.flatMap mapItem).length := by
    simp [body, payload]; omega
  have e5 : mapEntry = mapItem := funext mapEntry_eq
  simp only [Option.bind_eq_bind, Option.bind_some, Option.pure_def, Option.some.injEq]
  rw [frame, e4, show (2:Nat) ^ 16 = 256 ^ 2 by decide, beBytes_mod, e5]
  simp [body, payload, valueCode, ResponseType.toByte]

theorem setLen_eq (m : Mode) (s : BSet) (acc : Nat) (h : acc + (s.flatMap setItem).length < 2 ^ 32) :
    setLen m acc s = some (acc + (s.flatMap setItem).length) := by
  induction s generalizing acc with
  | nil => simp [setLen]
  | cons e rest ih =>
    have hi : (setItem e).length = 2 + e.length := by simp [setItem]
    simp only [List.flatMap_cons, List.length_append, hi] at h ⊢
    simp only [setLen, Option.bind_eq_bind]
    rw [Nat.mod_eq_of_lt (show e.length < 2 ^ 32 by omega)]
    rw [addU_of_lt (show 2 + e.length < 2 ^ 32 by omega)]
    simp only [Option.bind_some]
    rw [addU_of_lt (show acc + (2 + e.length) < 2 ^ 32 by omega)]
    simp only [Option.bind_some]
    rw [ih _ (by omega)]
    simp only [Option.some.injEq]; omega

theorem setEntry_eq (i : Bytes) : setEntry i = setItem i := by
  simp only [setEntry, setItem]
  rw [show (2:Nat) ^ 16 = 256 ^ 2 by decide, beBytes_mod]

theorem writeSetIter_eq (m : Mode) (s : BSet) (to : Bytes)
    (h : 3 + (s.flatMap setItem).length < 2 ^ 32) :
    writeSetIter m to s = some (to ++ frame (.value (.set s))) := by
  unfold writeSetIter
  rw [setLen_eq m s 3 h]
  have e4 : (body (.value (.set s))).length = 3 + (s.flatMap setItem).length := by
    simp [body, payload]; omega
  have e5 : setEntry = setItem := funext setEntry_eq
  simp only [Option.bind_eq_bind, Option.bind_some, Option.pure_def, Option.some.injEq]
  rw [frame, e4, show (2:Nat) ^ 16 = 256 ^ 2 by decide, beBytes_mod, e5]
  simp [body, payload, valueCode, ResponseType.toByte]

/-- Whatever is written below the 32-bit limit is one frame in the documented layout. -/
theorem copyTo_eq (env : Env) (to : Bytes) (r : Response)
    (h : (body (ordered env r)).length < 2 ^ 32)
    (hl : env.mode = .debug → ∀ l, r = .value (.list l) → l.length < 2 ^ 16) :
    copyTo env to r = some (to ++ frame (ordered env r)) := by
  cases r with
  | dispatchError e => cases e <;> simp [copyTo, writeDispatchError, frame, ordered, body, ResponseType.toByte]
  | parseError e => cases e <;> simp [copyTo, writeParseError, frame, ordered, body, ResponseType.toByte]
  | value v =>
    cases v with
    | boolean b => simp [copyTo, writeValue, writeBool, frame, ordered, orderedValue, body, payload, valueCode,
        ResponseType.toByte]
    | float f => simp [copyTo, writeValue, writeFloat, frame, ordered, orderedValue, body, payload, valueCode,
        ResponseType.toByte, F64.toBytes]
    | integer f => simp [copyTo, writeValue, writeInt, frame, ordered, orderedValue, body, payload, valueCode,
        ResponseType.toByte, i64Bytes]
    | bytes b =>
      simp only [ordered, orderedValue, body, payload, List.length_cons, List.length_append,
        beBytes_length] at h
      simp only [copyTo, writeValue, writeBytes]
      rw [Nat.mod_eq_of_lt (show b.length < 2 ^ 32 by omega), addU_of_lt (by omega)]
      simp only [Option.bind_eq_bind, Option.bind_some, Option.pure_def, Option.some.injEq, frame, ordered, orderedValue,
        body, payload, valueCode, ResponseType.toByte, List.length_cons, List.length_append, beBytes_length]
      rw [show 4 + b.length + 1 = 1 + 4 + b.length by omega]
      simp
    | string s =>
      simp only [ordered, orderedValue, body, payload, List.length_cons, List.length_append,
        beBytes_length] at h
      simp only [copyTo, writeValue, writeStr]
      rw [Nat.mod_eq_of_lt (show (strBytes s).length < 2 ^ 32 by omega), addU_of_lt (by omega)]
      simp only [Option.bind_eq_bind, Option.bind_some, Option.pure_def, Option.some.injEq, frame, ordered, orderedValue,
        body, payload, valueCode, ResponseType.toByte, List.length_cons, List.length_append, beBytes_length]
      rw [show 4 + (strBytes s).length + 1 = 1 + 4 + (strBytes s).length by omega]
      simp
    | list l =>
      simp only [ordered, orderedValue, body, payload, List.length_cons, List.length_append,
        beBytes_length] at h
      simp only [copyTo, writeValue, ordered, orderedValue]
      refine writeList_eq env.mode l to (by omega) ?_
      cases hm : env.mode with
      | release => exact Or.inl rfl
      | debug => exact Or.inr (hl hm l rfl)
    | map mp =>
      simp only [ordered, orderedValue, body, payload, List.length_cons, List.length_append,
        beBytes_length] at h
      simp only [copyTo, writeValue, writeMap, ordered, orderedValue]
      exact writeMapIter_eq env.mode _ to (by omega)
    | set s =>
      simp only [ordered, orderedValue, body, payload, List.length_cons, List.length_append,
        beBytes_length] at h
      simp only [copyTo, writeValue, writeSet, ordered, orderedValue]
      exact writeSetIter_eq env.mode _ to (by omega)

end Hop
