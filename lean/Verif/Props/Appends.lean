import Verif.Props.Engine
import Verif.Spec.Counters

/-! # C26: appends accumulate in order -/

namespace Hop

open Spec

theorem emptyOf_cases {t : KeyType} {e : Value} (h : emptyOf t = some e) : e = .default t ∧ e.kind = t ∧
    (t = .bytes ∨ t = .list ∨ t = .string) := by
  cases t <;> simp [emptyOf] at h <;> subst h <;> simp [Value.default, Value.kind]

theorem plus_kind (v : Value) (b : List Bytes) : (plus v b).kind = v.kind := by cases v <;> rfl

theorem appended_eq_plus {v : Value} (h : v.kind = .bytes ∨ v.kind = .list ∨ v.kind = .string) (b : List Bytes) :
    appended v b = some (plus v b) := by
  cases v <;> simp_all [Value.kind, appended, plus]

/-- C26, splitting: appending two blocks one after the other leaves the same content as appending them as
one. -/
theorem C26_split (v : Value) (a b : List Bytes) : plus (plus v a) b = plus v (a ++ b) := by
  cases v <;> simp [plus, List.append_assoc]

/-- Shorter content is deliverable if longer content is. -/
theorem deliverable_plus {m : Mode} {v : Value} {b : List Bytes} (h : Deliverable m (.value (plus v b))) :
    Deliverable m (.value v) := by
  cases v with
  | bytes x =>
    obtain ⟨h1, h2⟩ := h
    refine ⟨?_, by simp⟩
    simp [plus, body, payload, beBytes_length] at h1 ⊢
    omega
  | list x =>
    obtain ⟨h1, h2⟩ := h
    refine ⟨?_, ?_⟩
    · simp [plus, body, payload, beBytes_length] at h1 ⊢
      omega
    · intro hm l hl
      have := h2 hm _ rfl
      simp at hl
      subst hl
      rw [List.length_append] at this
      omega
  | string x =>
    obtain ⟨h1, h2⟩ := h
    refine ⟨?_, by simp⟩
    simp [plus, body, payload, beBytes_length, strBytes] at h1 ⊢
    omega
  | _ => exact h

theorem plus_contents (v : Value) (b : List Bytes) (bs : List (List Bytes)) :
    plus v (b ++ bs.flatten) = plus (plus v b) bs.flatten := (C26_split _ _ _).symm

theorem performAll_appends {env : Env} {k : Bytes} {t : KeyType} {e : Value} {untyped : Prop}
    {bs : List (List Bytes)} {cs : List Call} (h : AppendAll k t untyped bs cs) (he : emptyOf t = some e)
    (hu : ¬ unusable env.mode k) (db : Db) (v : Value) (hk : (db.keys k).getD e = v) (hvt : v.kind = t)
    (hun : untyped → db.keys k ≠ none ∨ t = .bytes) :
    (performAll env cs db).1 = (contents v bs).map .value ∧
    (performAll env cs db).2.keys = (if bs = [] then db.keys else Store.put db.keys k (some (plus v bs.flatten))) := by
  obtain ⟨he1, he2, he3⟩ := emptyOf_cases he
  induction h generalizing db v with
  | nil => exact ⟨rfl, rfl⟩
  | @cons b kt bs cs hkt hs ih =>
    have heff : effectiveType kt (db.keys k) .bytes = t := by
      rcases hkt with rfl | ⟨rfl, hkt⟩
      · rfl
      · cases hd : db.keys k with
        | none =>
          rcases hun hkt with h | h
          · exact absurd hd h
          · rw [h]; rfl
        | some w =>
          rw [hd] at hk
          simp at hk
          subst hk
          exact hvt
    have hex : execute env db.ctrs .append kt (k :: b) db.keys =
        (.value (plus v b), Store.put db.keys k (some (plus v b))) := by
      simp only [execute, heff]
      rw [if_neg (by rcases he3 with h | h | h <;> simp [h]), if_neg hu, ← he1, hk, if_neg (by simp [hvt]),
        appended_eq_plus (by rw [hvt]; exact he3)]
    simp only [performAll, perform, hex, contents, List.map_cons]
    obtain ⟨h1, h2⟩ := ih
      { keys := Store.put db.keys k (some (plus v b)), ctrs := tally db.ctrs (.value (plus v b)) } (plus v b)
      (by simp [put_apply_self]) (by rw [plus_kind]; exact hvt) (fun _ => Or.inl (by simp [put_apply_self]))
    rw [h1, h2]
    refine ⟨rfl, ?_⟩
    rw [if_neg (c := b :: bs = []) (by simp)]
    split
    · subst_vars; simp
    · simp only [put_put, List.flatten_cons, plus_contents]

theorem contents_deliverable {m : Mode} {v : Value} {bs : List (List Bytes)}
    (h : Deliverable m (.value (plus v bs.flatten))) : ∀ w ∈ contents v bs, Deliverable m (.value w) := by
  induction bs generalizing v with
  | nil => simp [contents]
  | cons b bs ih =>
    rw [List.flatten_cons, plus_contents] at h
    intro w hw
    simp only [contents, List.mem_cons] at hw
    rcases hw with rfl | hw
    · exact deliverable_plus h
    · exact ih h w hw

theorem contents_ordered (env : Env) {v : Value} (h : v.kind = .bytes ∨ v.kind = .list ∨ v.kind = .string) (bs : List (List Bytes)) :
    ∀ w ∈ contents v bs, ordered env (.value w) = .value w := by
  induction bs generalizing v with
  | nil => simp [contents]
  | cons b bs ih =>
    intro w hw
    simp only [contents, List.mem_cons] at hw
    rcases hw with rfl | hw
    · cases v <;> simp_all [Value.kind, plus, ordered, orderedValue]
    · exact ih (by rw [plus_kind]; exact h) w hw

/-- C26. Any sequence (of any length) of Appends of blocks of arguments to a key holding bytes, a list or a
string, or missing: every response carries the content so far, and the key ends with the initial content
followed by all blocks in order. A request may leave the type out if the key exists, or if it is bytes. The
final content must fit into a response. -/
theorem C26_appends {env : Env} {k : Bytes} {t : KeyType} {e v : Value} {h : List (Request × Bytes)}
    {cs : List Call} {bs : List (List Bytes)} (hs : Sees h cs) (db : Db)
    (ha : AppendAll k t (db.keys k ≠ none ∨ t = .bytes) bs cs) (he : emptyOf t = some e)
    (hu : ¬ unusable env.mode k) (hk : (db.keys k).getD e = v) (hvt : v.kind = t)
    (hc : Roomy h.length db.ctrs) (hd : Deliverable env.mode (.value (plus v bs.flatten))) :
    (serveAll env h db).1 = List.zipWith (fun rb w => .ok (rb.2 ++ frame (.value w))) h (contents v bs) ∧
    (bs ≠ [] → (serveAll env h db).2.keys = fun k' => if k' = k then some (plus v bs.flatten) else db.keys k') := by
  obtain ⟨h1, h2⟩ := performAll_appends (env := env) ha he hu db v hk hvt id
  have := C48_history env h cs db hs hc (by
    rw [h1]; intro a ha
    simp only [List.mem_map] at ha
    obtain ⟨w, hw, rfl⟩ := ha
    exact contents_deliverable hd w hw)
  rw [this]
  refine ⟨?_, fun hne => ?_⟩
  · have hord := contents_ordered env (v := v) (by rw [hvt]; exact (emptyOf_cases he).2.2) bs
    rw [h1, List.zipWith_map_right]
    clear this h1 h2 hc hd ha
    generalize contents v bs = ws at hord
    clear hs
    induction ws generalizing h with
    | nil => simp
    | cons w ws ih =>
      cases h with
      | nil => rfl
      | cons x xs =>
        have := ih (h := xs) (fun w hw => hord w (by simp [hw]))
        simp only [delivered] at this
        simp only [List.zipWith_cons_cons, delivered, hord w (by simp), this]
  · rw [h2, if_neg hne]
    rfl

/-- Beside C26: text, one piece of which is not UTF-8. -/
example : (serveAll (sampleEnv .debug)
    [(call .append (some .string) [[107], [98], [255]], []), (call .append none [[107], [99]], [1])]
    (sampleDb [([107], .string ['a'])])).2.keys [107] = some (.string ['a', 'b', 'c']) := by
  have := (C26_appends (env := sampleEnv .debug) (k := [107]) (t := .string) (bs := [[[98], [255]], [[99]]])
    (.cons (resp := []) (c := ⟨.append, some .string, [[107], [98], [255]]⟩) (call_views _ _ _ (by decide) (by decide) (by decide))
      (.cons (resp := [1]) (c := ⟨.append, none, [[107], [99]]⟩) (call_views _ _ _ (by decide) (by decide) (by decide)) .nil))
    (sampleDb [([107], .string ['a'])]) (.cons (Or.inl rfl) (.cons (Or.inr ⟨rfl, Or.inl (by decide +kernel)⟩) .nil))
    (e := .string []) (v := .string ['a']) rfl (by decide +kernel) (by decide +kernel) rfl (sampleDb_roomy _ _ (by decide))
    ⟨by decide +kernel, by intro _ l hl; simp [plus] at hl⟩).2 (by simp)
  rw [this]
  decide +kernel

end Hop
