import Verif.Lemmas.Builder
import Verif.Spec.Value

/-! Lemmas about passing values to the builder. -/

namespace Hop

open Spec

theorem flattenPairs_length (m : BMap) : (Builder.flattenPairs m).length = 2 * m.length := by
  induction m with
  | nil => rfl
  | cons e m ih =>
    obtain ⟨k, v⟩ := e
    simp [Builder.flattenPairs, ih]
    omega

theorem convMapAux_flattenPairs (acc m : BMap) (h : ((acc ++ m).map Prod.fst).Nodup) :
    convMapAux acc (Builder.flattenPairs m) = acc ++ m := by
  induction m generalizing acc with
  | nil => simp [Builder.flattenPairs, convMapAux]
  | cons e m ih =>
    obtain ⟨k, v⟩ := e
    have hk : k ∉ acc.map Prod.fst := by
      intro hin
      simp only [List.map_append, List.map_cons] at h
      rw [List.nodup_append] at h
      exact h.2.2 k hin k (by simp) rfl
    rw [Builder.flattenPairs, convMapAux, BMap.insert_of_not_mem v hk, ih]
    · simp
    · simpa using h

theorem convMap_flattenPairs (m : BMap) (h : (m.map Prod.fst).Nodup) :
    convMap (Builder.flattenPairs m) = m := by
  simpa [convMap] using convMapAux_flattenPairs [] m (by simpa using h)

theorem foldl_insert_of_nodup (acc s : BSet) (h : (acc ++ s).Nodup) :
    s.foldl BSet.insert acc = acc ++ s := by
  induction s generalizing acc with
  | nil => simp
  | cons x s ih =>
    have hx : x ∉ acc := by
      intro hin
      rw [List.nodup_append] at h
      exact h.2.2 x hin x (by simp) rfl
    rw [List.foldl_cons, show BSet.insert acc x = acc ++ [x] by simp [BSet.insert, hx], ih]
    · simp
    · simpa using h

theorem convSet_of_nodup (s : BSet) (h : s.Nodup) : convSet s = s := by
  simpa [convSet] using foldl_insert_of_nodup [] s (by simpa using h)

theorem convBool_byte (b : Bool) : convBool [if b then 1 else 0] = some b := by
  cases b <;> rfl

theorem slice_all (b : Bytes) (n : Nat) (h : b.length = n) : slice b 0 n = some b := by
  rw [slice_eq_some]; simp [← h]

theorem convInt_i64Bytes (i : Int64) : convInt (i64Bytes i) = some i := by
  simp [convInt, slice_all, i64OfBytes_i64Bytes]

theorem convFloat_toBytes (f : F64) : convFloat f.toBytes = some f := by
  simp [convFloat, slice_all, F64.ofBytes_toBytes]

/-- The arguments a value is turned into. -/
def valueArgs (env : Env) : Value → List Bytes
  | .boolean b => [[if b then 1 else 0]]
  | .bytes b => [b]
  | .float f => [f.toBytes]
  | .integer i => [i64Bytes i]
  | .list l => l
  | .map m => Builder.flattenPairs (env.mapOrd m)
  | .set s => env.setOrd s
  | .string s => [strBytes s]

theorem valueArgs_length (env : Env) (v : Value) : (valueArgs env v).length = argsOf v := by
  cases v <;> simp [valueArgs, argsOf, flattenPairs_length]
  · rw [(env.mapOrd_perm _).length_eq]
  · rw [(env.setOrd_perm _).length_eq]

/-- The emptiness checks of the builder. -/
def acceptable : Value → Prop
  | .bytes b => b ≠ []
  | .list l => ∀ a ∈ l, a ≠ []
  | .map m => m ≠ []
  | .set s => s ≠ []
  | .string s => s ≠ []
  | _ => True

theorem BInv.value {b : Builder} {c kt args} (h : BInv b c kt args) (env : Env) (v : Value)
    (hn : args.length + argsOf v ≤ 255) (hv : acceptable v) :
    ∃ b', b.value env v = (.ok (), b') ∧ BInv b' c kt (args ++ valueArgs env v) := by
  have hc := h.count
  have hov : ∀ n, args.length + n ≤ 255 → b.wouldOverfill (n % 256) = false := by
    intro n hn
    simp only [Builder.wouldOverfill, hc, decide_eq_false_iff_not]
    omega
  have hlen := valueArgs_length env v
  cases v with
  | boolean x => exact h.pushAll env.mode _ (by simpa [argsOf] using hn)
  | float f => exact h.pushAll env.mode _ (by simpa [argsOf] using hn)
  | integer i => exact h.pushAll env.mode _ (by simpa [argsOf] using hn)
  | bytes x =>
    simp only [acceptable] at hv
    simp only [Builder.value, if_neg hv]
    exact h.pushAll env.mode _ (by simpa [argsOf] using hn)
  | string x =>
    simp only [acceptable] at hv
    simp only [Builder.value, if_neg hv]
    exact h.pushAll env.mode _ (by simpa [argsOf] using hn)
  | list l =>
    simp only [argsOf] at hn
    simp only [Builder.value, hov _ hn]
    exact h.pushItems env.mode _ hn hv
  | map m =>
    simp only [argsOf] at hn
    simp only [acceptable] at hv
    simp only [Builder.value, hov m.length (by omega), if_neg hv]
    refine h.pushAll env.mode _ ?_
    simp only [valueArgs, argsOf] at hlen
    omega
  | set s =>
    simp only [argsOf] at hn
    simp only [acceptable] at hv
    simp only [Builder.value, hov s.length (by omega), if_neg hv]
    refine h.pushAll env.mode _ ?_
    simp only [valueArgs, argsOf] at hlen
    omega

/-- A value that fails the emptiness checks is rejected. -/
theorem pushItems_empty {b : Builder} {c kt args} (h : BInv b c kt args) (m : Mode) (as : List Bytes)
    (hn : args.length + as.length ≤ 255) (hne : ¬ ∀ a ∈ as, a ≠ []) :
    ∃ b', b.pushItems m as = (.err .valueEmpty, b') ∧
      BInv b' c kt (args ++ as.takeWhile (fun a => a ≠ [])) := by
  induction as generalizing b args with
  | nil => simp at hne
  | cons a as ih =>
    simp only [List.length_cons] at hn
    by_cases ha : a = []
    · subst ha
      exact ⟨b, by simp [Builder.pushItems], by simpa using h⟩
    · obtain ⟨b1, hb1, hi1⟩ := h.push m a (by omega)
      have hne' : ¬ ∀ x ∈ as, x ≠ [] := by
        intro hall
        apply hne
        intro x hx
        rcases List.mem_cons.mp hx with rfl | hx
        · exact ha
        · exact hall x hx
      obtain ⟨b2, hb2, hi2⟩ := ih hi1 (by simp; omega) hne'
      refine ⟨b2, ?_, by simpa [ha] using hi2⟩
      simp only [Builder.pushItems, if_neg ha, hb1, hb2]

/-- Reading a value's arguments back. -/
theorem readValue_of_views {r : Request} {c kt} {k : Bytes} {env : Env} {v : Value}
    (h : Views r c kt (k :: valueArgs env v)) (hwf : WF v) :
    ∃ w, readValue r v.kind = some w ∧ Same w v := by
  have h1 := h.arg 1
  have hargs := argsFrom_eq h 1
  simp only [List.cons_ne_nil, if_false, List.drop_succ_cons, List.drop_zero] at hargs
  cases v with
  | boolean b => exact ⟨.boolean b, by simp [readValue, Value.kind, h1, valueArgs, convBool_byte], rfl⟩
  | bytes b => exact ⟨.bytes b, by simp [readValue, Value.kind, h1, valueArgs], rfl⟩
  | float b => exact ⟨.float b, by simp [readValue, Value.kind, h1, valueArgs, convFloat_toBytes], rfl⟩
  | integer b => exact ⟨.integer b, by simp [readValue, Value.kind, h1, valueArgs, convInt_i64Bytes], rfl⟩
  | string b =>
    exact ⟨.string b, by simp [readValue, Value.kind, h1, valueArgs, convStr, fromUtf8_strBytes], rfl⟩
  | list l => exact ⟨.list l, by simp [readValue, Value.kind, hargs, valueArgs], rfl⟩
  | map m =>
    refine ⟨.map (env.mapOrd m), ?_, env.mapOrd_perm m⟩
    have : ((env.mapOrd m).map Prod.fst).Nodup :=
      ((env.mapOrd_perm m).map Prod.fst).nodup_iff.mpr hwf
    simp [readValue, Value.kind, hargs, valueArgs, convMap_flattenPairs _ this]
  | set s =>
    refine ⟨.set (env.setOrd s), ?_, env.setOrd_perm s⟩
    have : (env.setOrd s).Nodup := (env.setOrd_perm s).nodup_iff.mpr hwf
    simp [readValue, Value.kind, hargs, valueArgs, convSet_of_nodup _ this]

end Hop
