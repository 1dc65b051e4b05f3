import Verif.Props.Storable
import Verif.Props.Response
import Verif.Props.ClientSet

/-!
# What is stored can be found out (C193)
-/

namespace Hop

open Prog Spec

/-- Values that can be asked for: those the response format can carry, and those with nothing in them. -/
def Spec.Legible (m : Mode) (v : Value) : Prop := FitsValue m v ∨ size v = some 0

/-- Two answers to a command that differ in an order at most: that of the members of a set, of the entries of a map, or of the keys listed. -/
def Spec.Resembles (c : CommandId) : Answer → Answer → Prop
  | .value v, .value w => Same v w ∨ (c = .keys ∧ ∃ l l' : List Bytes, v = .list l ∧ w = .list l' ∧ l.Perm l')
  | a, b => a = b

/-- The same for the answers to a list of calls. -/
inductive Spec.Resemble : List Call → List Answer → List Answer → Prop
  | nil : Resemble [] [] []
  | cons {c : Call} {cs : List Call} {a b : Answer} {as bs : List Answer} :
    Resembles c.cmd a b → Resemble cs as bs → Resemble (c :: cs) (a :: as) (b :: bs)

/-- The same entry: the same value, or none. -/
def Spec.SameEntry : Option Value → Option Value → Prop
  | none, none => True
  | some v, some w => Same v w
  | _, _ => False

private theorem fits_deliverable {m : Mode} {v : Value} (h : FitsValue m v) : Deliverable m (.value v) := by
  refine ⟨?_, ?_⟩
  · cases v <;> simp only [FitsValue] at h <;> simp only [body, payload, List.length_cons, List.length_append, beBytes_length] <;>
      first | omega | simp
  · rintro _ l rfl
    exact h.2.1

/-- What can be carried is told apart by the bytes of the response. -/
private theorem frame_tells {env : Env} {v w : Value} (hv : FitsValue env.mode v) (hw : FitsValue env.mode w)
    (h : frame (ordered env (.value v)) = frame (ordered env (.value w))) : Same v w := by
  obtain ⟨o1, r1, a1, b1, c1⟩ := C11_round_trip_partial env (.value v) [] hv
  obtain ⟨o2, r2, a2, b2, c2⟩ := C11_round_trip_partial env (.value w) [] hw
  have e1 : o1 = frame (ordered env (.value v)) := by
    have := writeValue_deliverable (fits_deliverable hv) (env := env) []
    rw [show Response.writeValue env [] v = some o1 from a1] at this
    simpa using this
  have e2 : o2 = frame (ordered env (.value w)) := by
    have := writeValue_deliverable (fits_deliverable hw) (env := env) []
    rw [show Response.writeValue env [] w = some o2 from a2] at this
    simpa using this
  rw [e1, h, ← e2, b2] at b1
  cases b1
  cases r1 with
  | value u => exact same_trans (same_symm c1) c2
  | _ => cases c1

/-- The answer to a call. -/
private theorem reply_of {env : Env} {c : Call} (hb : Buildable c) (hs : c.cmd ≠ .stats) {db : Db} (hr : Roomy 1 db.ctrs) {v : Value} {s : Store}
    (hx : execute env db.ctrs c.cmd c.kt c.args db.keys = (.value v, s)) (hd : Deliverable env.mode (.value v)) :
    ((dispatch env (call c.cmd c.kt c.args) []).run db).1 = .ok (frame (ordered env (.value v))) ∧
    ((dispatch env (call c.cmd c.kt c.args) []).run db).2.keys = s := by
  rw [C48_dispatch (c := c) (call_views _ _ _ (.inl hs) hb.1 hb.2) [] db hr (by simp only [perform, hx]; exact hd)]
  simp only [perform, hx, delivered, List.nil_append]
  exact ⟨trivial, trivial⟩

/-- A call the two databases answer differently. -/
private def Tells (env : Env) (db db' : Db) (c : Call) : Prop :=
  Buildable c ∧ c.cmd ≠ .stats ∧
  ((dispatch env (call c.cmd c.kt c.args) []).run db).1 ≠ ((dispatch env (call c.cmd c.kt c.args) []).run db').1 ∧
  ¬ Resembles c.cmd (perform env c db).1 (perform env c db').1 ∧ Deliverable env.mode (perform env c db).1

private theorem tells {env : Env} {db db' : Db} (hr : Roomy 1 db.ctrs) (hr' : Roomy 1 db'.ctrs) {c : Call} (hb : Buildable c) (hs : c.cmd ≠ .stats) (hq : c.cmd ≠ .keys)
    {v w : Value} {s s' : Store} (hx : execute env db.ctrs c.cmd c.kt c.args db.keys = (.value v, s))
    (hx' : execute env db'.ctrs c.cmd c.kt c.args db'.keys = (.value w, s')) (hv : FitsValue env.mode v) (hw : FitsValue env.mode w)
    (hne : ¬ Same v w) : Tells env db db' c := by
  refine ⟨hb, hs, ?_, ?_, by simp only [perform, hx]; exact fits_deliverable hv⟩
  rotate_left
  · simp only [perform, hx, hx']
    rintro (h | h)
    · exact hne h
    · exact hq h.1
  rw [(reply_of hb hs hr hx (fits_deliverable hv)).1, (reply_of hb hs hr' hx' (fits_deliverable hw)).1]
  intro h
  exact hne (frame_tells hv hw (Outcome.ok.inj h))

private theorem kind_code {a b : KeyType} (h : Int64.ofNat a.toByte.toNat = Int64.ofNat b.toByte.toNat) : a = b := by
  revert h
  cases a <;> cases b <;> decide

/-- Whether there is something, and what its type is, can be asked for any key. -/
private theorem tells_kind {env : Env} {db db' : Db} (hr : Roomy 1 db.ctrs) (hr' : Roomy 1 db'.ctrs) {k : Bytes} (hk : k ≠ [])
    (hne : (db.keys k).map Value.kind ≠ (db'.keys k).map Value.kind) : ∃ c, Tells env db db' c := by
  have hb : ∀ cmd kt, Buildable ⟨cmd, kt, [k]⟩ := fun _ _ => ⟨by simp, by simp [hk]⟩
  by_cases h : (db.keys k).isSome = (db'.keys k).isSome
  · cases h1 : db.keys k with
    | none =>
      cases h2 : db'.keys k with
      | none => rw [h1, h2] at hne; exact absurd rfl hne
      | some w => rw [h1, h2] at h; cases h
    | some v =>
      cases h2 : db'.keys k with
      | none => rw [h1, h2] at h; cases h
      | some w =>
        rw [h1, h2] at hne
        refine ⟨⟨.type, none, [k]⟩, tells hr hr' (hb _ _) nofun nofun (v := .integer (Int64.ofNat v.kind.toByte.toNat))
          (w := .integer (Int64.ofNat w.kind.toByte.toNat)) (by simp only [execute, h1]; rfl) (by simp only [execute, h2]; rfl) trivial trivial ?_⟩
        intro hs
        simp only [Same, Value.integer.injEq] at hs
        exact hne (congrArg some (kind_code hs))
  · exact ⟨⟨.exists, none, [k]⟩, tells hr hr' (hb _ _) nofun nofun (v := .boolean (db.keys k).isSome) (w := .boolean (db'.keys k).isSome)
      (s := db.keys) (s' := db'.keys)
      (by simp [execute]) (by simp [execute]) trivial trivial (fun hs => h (by simpa [Same] using hs))⟩

theorem size_of_kind {v w : Value} (hk : v.kind = w.kind) {n : Nat} (h : size v = some n) : ∃ m, size w = some m := by
  cases v <;> cases w <;> simp_all [size, Value.kind]

theorem empty_same {v w : Value} (hk : v.kind = w.kind) (hv : size v = some 0) (hw : size w = some 0) : Same v w := by
  cases v <;> cases w <;> simp_all [size, Value.kind, Same]

private theorem strBytes_chars (t : List Char) : t.length ≤ (strBytes t).length := by
  induction t with
  | nil => simp
  | cons c t ih =>
    have := Char.utf8Size_pos c
    simp only [strBytes, List.flatMap_cons, List.length_append, List.length_cons, String.length_utf8EncodeChar] at ih ⊢
    omega

theorem fits_size {m : Mode} {v : Value} {n : Nat} (hf : FitsValue m v) (hs : size v = some n) : n < 2 ^ 32 := by
  cases v <;> simp only [size, Option.some.injEq, reduceCtorEq] at hs <;> subst hs
  case string t => have := strBytes_chars t; have := hf; simp only [FitsValue] at this; omega
  case bytes b => have := hf.1; omega
  case list l => have := hf.2.1; omega
  case map l => have := hf.2.1; omega
  case set l => have := hf.2.2.1; omega

/-- Under a key clients may use, the values can be asked for. -/
private theorem tells_value {env : Env} {db db' : Db} (hr : Roomy 1 db.ctrs) (hr' : Roomy 1 db'.ctrs) {k : Bytes} (hk : k ≠ [])
    (hu : ¬ unusable env.mode k) {v w : Value} (h1 : db.keys k = some v) (h2 : db'.keys k = some w) (hkind : v.kind = w.kind)
    (hv : Legible env.mode v) (hw : Legible env.mode w) (hne : ¬ Same v w) : ∃ c, Tells env db db' c := by
  have hb : ∀ cmd kt, Buildable ⟨cmd, kt, [k]⟩ := fun _ _ => ⟨by simp, by simp [hk]⟩
  by_cases hf : FitsValue env.mode v ∧ FitsValue env.mode w
  · exact ⟨⟨.get, none, [k]⟩, tells hr hr' (hb _ _) nofun nofun (v := v) (w := w) (s := db.keys) (s' := db'.keys)
      (by simp only [execute, if_neg hu, h1, true_or, if_true]) (by simp only [execute, if_neg hu, h2, true_or, if_true]) hf.1 hf.2 hne⟩
  · -- one of them is empty, and the other is not
    have hlen : ∃ n m : Nat, size v = some n ∧ size w = some m ∧ n ≠ m ∧ n < 2 ^ 32 ∧ m < 2 ^ 32 := by
      have hs : ∃ n m, size v = some n ∧ size w = some m := by
        by_cases h : FitsValue env.mode v
        · have h' := hw.resolve_left fun h' => hf ⟨h, h'⟩
          obtain ⟨n, hn⟩ := size_of_kind hkind.symm h'
          exact ⟨n, 0, hn, h'⟩
        · have h' := hv.resolve_left h
          obtain ⟨m, hm⟩ := size_of_kind hkind h'
          exact ⟨0, m, h', hm⟩
      obtain ⟨n, m, s1, s2⟩ := hs
      have bound : ∀ {x : Value} {n : Nat}, Legible env.mode x → size x = some n → n < 2 ^ 32 := by
        intro x n hx hs
        rcases hx with hx | hx
        · exact fits_size hx hs
        · rw [hs] at hx; cases hx; decide
      refine ⟨n, m, s1, s2, ?_, bound hv s1, bound hw s2⟩
      rintro rfl
      by_cases h0 : n = 0
      · subst h0; exact hne (empty_same hkind s1 s2)
      · exact hf ⟨hv.resolve_right (by rw [s1]; simpa using h0), hw.resolve_right (by rw [s2]; simpa using h0)⟩
    obtain ⟨n, m, s1, s2, hnm, hn, hm⟩ := hlen
    have sz : ∀ {x : Value} {n : Nat}, size x = some n → sized x.kind = true := by
      intro x n h; cases x <;> simp_all [size, sized, Value.kind]
    have run : ∀ {d : Db} {x : Value} {n : Nat}, d.keys k = some x → size x = some n →
        execute env d.ctrs .length none [k] d.keys = (.value (.integer (Int64.ofNat n)), d.keys) := by
      intro d x n hx hs
      simp only [execute, effectiveType, hx, sz hs, if_neg hu, hs]
      simp
    refine ⟨⟨.length, none, [k]⟩, tells hr hr' (hb _ _) nofun nofun (run h1 s1) (run h2 s2) trivial trivial fun hs => ?_⟩
    simp only [Same, Value.integer.injEq] at hs
    have := congrArg Int64.toInt hs
    rw [Int64.toInt_ofNat_of_lt (by omega), Int64.toInt_ofNat_of_lt (by omega)] at this
    omega

/-- After renaming to a key that is free. -/
private theorem renamed {env : Env} {k j : Bytes} (hb : Buildable ⟨.rename, none, [k, j]⟩) {d : Db} {x : Value} (hx : d.keys k = some x)
    (hjn : d.keys j = none) : ((dispatch env (call .rename none [k, j]) []).run d).2.keys j = some x := by
  have hk' : ((dispatch env (call .rename none [k, j]) []).run d).2.keys = _ :=
    keys_once (c := ⟨.rename, none, [k, j]⟩) (call_views _ _ _ (by simp) hb.1 hb.2) [] d d.ctrs (.inr (.inl nofun))
  rw [hk']
  simp only [execute, hx, hjn]
  simp [put_apply_self]

/-- The requests that tell two databases apart: one is enough, or two with a free key to rename to. -/
private theorem told {env : Env} {db db' : Db} (hr : Roomy 2 db.ctrs) (hr' : Roomy 2 db'.ctrs)
    {k : Bytes} (hk : k ≠ []) (hl : ∀ v, db.keys k = some v ∨ db'.keys k = some v → Legible env.mode v)
    (hne : ¬ SameEntry (db.keys k) (db'.keys k)) {j : Bytes} (hj : j ≠ []) (hju : ¬ unusable env.mode j)
    (e1 : db.keys j = none) (e2 : db'.keys j = none) :
    (∃ c, Tells env db db' c) ∨ ∃ v w c, Buildable ⟨.rename, none, [k, j]⟩ ∧ db.keys k = some v ∧ db'.keys k = some w ∧
      Tells env ((dispatch env (call .rename none [k, j]) []).run db).2 ((dispatch env (call .rename none [k, j]) []).run db').2 c := by
  have r1 : Roomy 1 db.ctrs := Roomy.mono hr (by omega)
  have r1' : Roomy 1 db'.ctrs := Roomy.mono hr' (by omega)
  by_cases hkind : (db.keys k).map Value.kind = (db'.keys k).map Value.kind
  · cases h1 : db.keys k with
    | none =>
      cases h2 : db'.keys k with
      | none => rw [h1, h2] at hne; exact absurd trivial hne
      | some w => rw [h1, h2] at hkind; cases hkind
    | some v =>
      cases h2 : db'.keys k with
      | none => rw [h1, h2] at hkind; cases hkind
      | some w =>
        rw [h1, h2] at hkind hne
        have hkd : v.kind = w.kind := by simpa using hkind
        by_cases hu : unusable env.mode k
        · have hbr : Buildable ⟨.rename, none, [k, j]⟩ := ⟨by simp, by simp [hk, hj]⟩
          obtain ⟨c, hc⟩ := tells_value (env := env) (dispatch_roomy env _ [] db 1 hr) (dispatch_roomy env _ [] db' 1 hr') hj hju
            (renamed hbr h1 e1) (renamed hbr h2 e2) hkd (hl v (.inl h1)) (hl w (.inr h2)) hne
          exact .inr ⟨v, w, c, hbr, rfl, rfl, hc⟩
        · exact .inl (tells_value r1 r1' hk hu h1 h2 hkd (hl v (.inl h1)) (hl w (.inr h2)) hne)
  · exact .inl (tells_kind r1 r1' hk hkind)

/-- **C193.** Two databases that hold different things under some key can be told apart by the answers to one or two requests, provided
the values can be asked for at all. This includes internal keys: what is there is renamed and then read. -/
theorem C193_told_apart {env : Env} {db db' : Db} (hr : Roomy 2 db.ctrs) (hr' : Roomy 2 db'.ctrs) (hf : Reached db.keys) (hf' : Reached db'.keys)
    {k : Bytes} (hk : k ≠ []) (hl : ∀ v, db.keys k = some v ∨ db'.keys k = some v → Legible env.mode v)
    (hne : ¬ SameEntry (db.keys k) (db'.keys k)) :
    ∃ h cs, Sees h cs ∧ (∀ c ∈ cs, Buildable c) ∧ h.length ≤ 2 ∧ (serveAll env h db).1 ≠ (serveAll env h db').1 := by
  obtain ⟨l, hl0⟩ := hf.finite
  obtain ⟨l', hl0'⟩ := hf'.finite
  obtain ⟨n, hn⟩ := unlike (l ++ l')
  have hj : ∀ x, x ∈ l ∨ x ∈ l' → x ≠ 1 :: List.replicate n 1 := by
    rintro x hx rfl
    have := hn _ (List.mem_append.mpr hx)
    simp only [List.length_cons, List.length_replicate] at this
    omega
  have hju : ¬ unusable env.mode (1 :: List.replicate n 1) := by
    rintro (h | h)
    · have := congrArg List.head? h
      rw [show (List.head? (ascii "__hop__:")) = some 95 from by decide] at this
      simp at this
    · exact absurd h.2 (by simp)
  rcases told hr hr' hk hl hne (by simp) hju (hl0 _ fun h => hj _ (.inl h) rfl) (hl0' _ fun h => hj _ (.inr h) rfl) with
    ⟨c, hb, hs, hc, _⟩ | ⟨_, _, c, hbr, _, _, hb, hs, hc, _⟩
  · refine ⟨[(call c.cmd c.kt c.args, [])], [c], .cons (call_views _ _ _ (.inl hs) hb.1 hb.2) .nil, by simpa using hb, by simp, ?_⟩
    intro h
    simp only [serveAll, List.cons.injEq, and_true] at h
    exact hc h
  · refine ⟨[(call .rename none [k, _], []), (call c.cmd c.kt c.args, [])], [⟨.rename, none, [k, _]⟩, c],
      .cons (call_views _ _ _ (by simp) hbr.1 hbr.2) (.cons (call_views _ _ _ (.inl hs) hb.1 hb.2) .nil), ?_, by simp, ?_⟩
    · intro x hx
      simp only [List.mem_cons, List.not_mem_nil, or_false] at hx
      rcases hx with rfl | rfl
      · exact hbr
      · exact hb
    · intro h
      simp only [serveAll, List.cons.injEq, and_true] at h
      exact hc h.2

/-- **C193, beyond order.** Given a free key whose length fits into a response, the answers differ in more than the order in sets and maps. -/
theorem C193_beyond_order {env : Env} {db db' : Db} (hr : Roomy 2 db.ctrs) (hr' : Roomy 2 db'.ctrs)
    {k : Bytes} (hk : k ≠ []) (hl : ∀ v, db.keys k = some v ∨ db'.keys k = some v → Legible env.mode v)
    (hne : ¬ SameEntry (db.keys k) (db'.keys k)) {j : Bytes} (hj : j ≠ []) (hju : ¬ unusable env.mode j) (hlen : j.length + 5 < 2 ^ 32)
    (e1 : db.keys j = none) (e2 : db'.keys j = none) :
    ∃ h cs, Sees h cs ∧ (∀ c ∈ cs, Buildable c) ∧ h.length ≤ 2 ∧
      ¬ Resemble cs (performAll env cs db).1 (performAll env cs db').1 ∧ ∀ a ∈ (performAll env cs db).1, Deliverable env.mode a := by
  rcases told hr hr' hk hl hne hj hju e1 e2 with ⟨c, hb, hs, _, hc, hd⟩ | ⟨v, w, c, hbr, h1, h2, hb, hs, _, hc, hd⟩
  · refine ⟨[(call c.cmd c.kt c.args, [])], [c], .cons (call_views _ _ _ (.inl hs) hb.1 hb.2) .nil, by simpa using hb, by simp, ?_, ?_⟩
    · intro h
      simp only [performAll] at h
      cases h with
      | cons h _ => exact hc h
    · simpa only [performAll, List.mem_singleton, forall_eq] using hd
  · have dl : ∀ {d : Db} {x : Value}, d.keys k = some x → d.keys j = none → Deliverable env.mode (perform env ⟨.rename, none, [k, j]⟩ d).1 := by
      intro d x hx hjn
      simp only [perform, execute, hx, hjn]
      exact fits_deliverable (v := .bytes j) ⟨hlen, fun _ => hj⟩
    have run : ∀ {d : Db} {x : Value}, Roomy 2 d.ctrs → d.keys k = some x → d.keys j = none →
        ((dispatch env (call .rename none [k, j]) []).run d).2 = (perform env ⟨.rename, none, [k, j]⟩ d).2 := by
      intro d x hrd hx hjn
      rw [C48_dispatch (c := ⟨.rename, none, [k, j]⟩) (call_views _ _ _ (by simp) hbr.1 hbr.2) [] d (Roomy.mono hrd (by omega)) (dl hx hjn)]
    rw [run hr h1 e1] at hc hd
    rw [run hr' h2 e2] at hc
    refine ⟨[(call .rename none [k, j], []), (call c.cmd c.kt c.args, [])], [⟨.rename, none, [k, j]⟩, c],
      .cons (call_views _ _ _ (by simp) hbr.1 hbr.2) (.cons (call_views _ _ _ (.inl hs) hb.1 hb.2) .nil), ?_, by simp, ?_, ?_⟩
    · intro x hx
      simp only [List.mem_cons, List.not_mem_nil, or_false] at hx
      rcases hx with rfl | rfl
      · exact hbr
      · exact hb
    · intro h
      simp only [performAll] at h
      cases h with
      | cons _ h =>
        cases h with
        | cons h _ => exact hc h
    · intro a ha
      simp only [performAll, List.mem_cons, List.not_mem_nil, or_false] at ha
      rcases ha with rfl | rfl
      · exact dl h1 e1
      · exact hd

/-! ## Concrete cases -/

private theorem reached_one {k : Bytes} (hk : k ≠ []) {v : Value} (hv : Storable v) : Reached (sampleDb [(k, v)]).keys := by
  refine ⟨⟨[k], fun x hx => ?_⟩, ?_, fun x w hw => ?_⟩
  · simp only [sampleDb, List.lookup]
    rw [beq_false_of_ne (by simpa using hx)]
  · simp only [sampleDb, List.lookup]
    rw [beq_false_of_ne hk.symm]
  · simp only [sampleDb, List.lookup] at hw
    split at hw
    · cases hw; exact hv
    · cases hw

/-- The internal key "__hop__:a" with an empty list and with a list of one item, in a debug build. -/
example : ∃ h cs, Sees h cs ∧ (∀ c ∈ cs, Buildable c) ∧ h.length ≤ 2 ∧
    (serveAll (sampleEnv .debug) h (sampleDb [(ascii "__hop__:a", .list [])])).1 ≠
      (serveAll (sampleEnv .debug) h (sampleDb [(ascii "__hop__:a", .list [[1]])])).1 := by
  refine C193_told_apart (k := ascii "__hop__:a") (sampleDb_roomy _ _ (by decide)) (sampleDb_roomy _ _ (by decide))
    (reached_one (by decide) (fun x hx => by simp at hx)) (reached_one (by decide) (fun x hx => by simp_all)) (by decide) ?_ ?_
  · rintro v (h | h)
    · cases (show some (Value.list []) = some v from (by decide : (sampleDb [(ascii "__hop__:a", .list [])]).keys (ascii "__hop__:a") = some (.list [])) ▸ h)
      exact .inr rfl
    · cases (show some (Value.list [[1]]) = some v from (by decide : (sampleDb [(ascii "__hop__:a", .list [[1]])]).keys (ascii "__hop__:a") = some (.list [[1]])) ▸ h)
      exact .inl ⟨by simp, by decide, by decide⟩
  · rw [show (sampleDb [(ascii "__hop__:a", .list [])]).keys (ascii "__hop__:a") = some (.list []) by decide,
      show (sampleDb [(ascii "__hop__:a", .list [[1]])]).keys (ascii "__hop__:a") = some (.list [[1]]) by decide]
    intro h
    cases h

end Hop
