import Verif.Props.Engine
import Verif.Lemmas.MapSet
import Verif.Lemmas.Types

/-! # C27 - C29, C52, C56: queries, statistics, types and well-formedness of stored values -/

namespace Hop

open Spec

/-! ## C52 Set stores exactly the entries and members it was given -/

/-- C52. After a successful Set of a map or set: the stored map has no repeated key and maps each key to
the value of its last occurrence among the argument pairs (a trailing key without value is dropped); the
stored set has no repeated member and exactly the arguments as members. -/
theorem C52_set_collections {env : Env} {r : Request} {t : KeyType} {k : Bytes} {items : List Bytes}
    (hv : Views r .set (some t) (k :: items)) (resp : Bytes) (db db' : Db) (out : Bytes) (hc : Roomy 2 db.ctrs)
    (hs : (dispatch env r resp).run db = (.ok out, db')) :
    (t = .map → ∃ m, db'.keys k = some (.map m) ∧ (m.map Prod.fst).Nodup ∧
      ∀ x, List.lookup x m = (pairsOf items).reverse.lookup x) ∧
    (t = .set → ∃ s, db'.keys k = some (.set s) ∧ s.Nodup ∧ ∀ x, x ∈ s ↔ x ∈ items) := by
  obtain ⟨t', v, f, ht', hr, -, hk, -⟩ := C17_set_then_get hv resp db db' out hc hs
  simp only [Option.getD_some] at ht'
  subst ht'
  cases items with
  | nil =>
    obtain ⟨v, hx, -⟩ := dispatch_ok hv (Roomy.mono hc (by omega)) hs
    simp [execute] at hx
  | cons a items =>
    rw [readValue_eq hv] at hr
    refine ⟨?_, ?_⟩
    · rintro rfl
      simp only [parseValue, Option.some.injEq] at hr
      refine ⟨convMap (a :: items), by rw [hk, ← hr], convMapAux_nodup _ _ (by simp), fun x => ?_⟩
      rw [convMap, convMapAux_lookup]
      simp
    · rintro rfl
      simp only [parseValue, Option.some.injEq] at hr
      refine ⟨convSet (a :: items), by rw [hk, ← hr], foldl_insert_nodup _ _ (by simp), fun x => ?_⟩
      rw [convSet, foldl_insert_mem]
      simp

/-- Beside C52: key 1 occurs twice, and 9 has no value. -/
example : ((dispatch (sampleEnv .debug) (call .set (some .map) [[107], [1], [5], [2], [6], [1], [7], [9]]) []).run
    (sampleDb [])).2.keys [107] = some (.map [([1], [7]), ([2], [6])]) := by decide +kernel

/-! ## C27 Length, keys, is, exists and type describe the stored value -/

/-- How many bytes, items, entries or characters. -/
def Spec.extent : Value → Option Nat
  | .bytes b => some b.length
  | .list l => some l.length
  | .map m => some m.length
  | .set s => some s.length
  | .string s => some s.length
  | _ => none

/-- C27, Length: the number of bytes, items, entries or characters; types without length are refused. -/
theorem C27_length {env : Env} {r : Request} {kt : Option KeyType} {k : Bytes} {more : List Bytes}
    (hv : Views r .length kt (k :: more)) (resp : Bytes) (db : Db) (v : Value) (hk : db.keys k = some v)
    (hu : ¬ unusable env.mode k) (hkt : kt = none ∨ kt = some v.kind) (hc : Roomy 1 db.ctrs) :
    ((dispatch env r resp).run db).1 = match extent v with
      | some n => .ok (resp ++ frame (.value (.integer (Int64.ofNat n))))
      | none => .err .keyTypeInvalid := by
  have ht : effectiveType kt (some v) .bytes = v.kind := by
    rcases hkt with rfl | rfl <;> simp [effectiveType]
  have hx : execute env db.ctrs .length kt (k :: more) db.keys =
      (match extent v with
        | some n => .value (.integer (Int64.ofNat n))
        | none => .error .keyTypeInvalid, db.keys) := by
    simp only [execute, hk, ht, if_neg hu]
    cases v <;> simp [sized, Value.kind, size, extent]
  cases he : extent v with
  | some n =>
    rw [he] at hx
    rw [dispatch_value hv resp db hc hx (writeValue_deliverable (deliverable_int _ _) resp)]
    rfl
  | none =>
    rw [he] at hx
    rw [dispatch_error hv resp db hc hx]

/-- C27, Keys: exactly the keys of the map, each once (the stored map has no repeated key, C56), in the
iteration order of the map. -/
theorem C27_keys {env : Env} {r : Request} {kt : Option KeyType} {k : Bytes} {more : List Bytes}
    (hv : Views r .keys kt (k :: more)) (resp : Bytes) (db : Db) (m : BMap) (hk : db.keys k = some (.map m))
    (hwf : (m.map Prod.fst).Nodup) (hu : ¬ unusable env.mode k) (hkt : kt = none ∨ kt = some .map)
    (hd : Deliverable env.mode (.value (.list (m.map Prod.fst)))) (hc : Roomy 1 db.ctrs) :
    ∃ l : List Bytes, ((dispatch env r resp).run db).1 = .ok (resp ++ frame (.value (.list l))) ∧ l.Nodup ∧
      (∀ x, x ∈ l ↔ List.lookup x m ≠ none) ∧ l.length = m.length := by
  have ht : effectiveType kt (some (.map m)) .map = .map := by
    rcases hkt with rfl | rfl <;> simp [effectiveType, Value.kind]
  have hp : ((env.mapOrd m).map Prod.fst).Perm (m.map Prod.fst) := (env.mapOrd_perm m).map _
  have hx : execute env db.ctrs .keys kt (k :: more) db.keys =
      (.value (.list ((env.mapOrd m).map Prod.fst)), db.keys) := by
    simp only [execute, hk, ht, if_neg hu]
    simp
  have hd' : Deliverable env.mode (.value (.list ((env.mapOrd m).map Prod.fst))) := by
    obtain ⟨h1, h2⟩ := hd
    refine ⟨?_, ?_⟩
    · have : ((((env.mapOrd m).map Prod.fst).flatMap listItem)).length = ((m.map Prod.fst).flatMap listItem).length :=
        (hp.flatMap_right listItem).length_eq
      simp only [body, payload, List.length_cons, List.length_append, beBytes_length] at h1 ⊢
      omega
    · intro hm l hl
      simp only [Value.list.injEq] at hl
      subst hl
      rw [hp.length_eq]
      exact h2 hm _ rfl
  refine ⟨_, by rw [dispatch_value hv resp db hc hx (writeValue_deliverable hd' resp)]; rfl, hp.nodup_iff.mpr hwf, ?_, ?_⟩
  · intro x
    rw [hp.mem_iff]
    simp only [List.mem_map, ne_eq, List.lookup_eq_none_iff]
    constructor
    · rintro ⟨e, he, rfl⟩ h
      have := h e he
      simp at this
    · intro h
      apply Classical.byContradiction
      intro hn
      apply h
      intro p hp
      simp only [bne_iff_ne, ne_eq]
      rintro rfl
      exact hn ⟨p, hp, rfl⟩
  · rw [hp.length_eq]; simp

/-- C27, Type: the code of the stored value's type; error if the key is missing. -/
theorem C27_type {env : Env} {r : Request} {k : Bytes} {more : List Bytes} (hv : Views r .type none (k :: more))
    (resp : Bytes) (db : Db) (hc : Roomy 1 db.ctrs) :
    ((dispatch env r resp).run db).1 = match db.keys k with
      | some v => .ok (resp ++ frame (.value (.integer (Int64.ofNat v.kind.toByte.toNat))))
      | none => .err .keyNonexistent := by
  cases hk : db.keys k with
  | none =>
    have hx : execute env db.ctrs .type none (k :: more) db.keys = (.error .keyNonexistent, db.keys) := by
      simp [execute, hk]
    rw [dispatch_error hv resp db hc hx]
  | some v =>
    have hx : execute env db.ctrs .type none (k :: more) db.keys =
        (.value (.integer (Int64.ofNat v.kind.toByte.toNat)), db.keys) := by simp [execute, hk]
    rw [dispatch_value hv resp db hc hx (writeValue_deliverable (deliverable_int _ _) resp)]
    rfl

/-- C27, Exists over any non-empty list of keys: true iff every one of them exists. -/
theorem C27_exists {env : Env} {r : Request} {ks : List Bytes} (hv : Views r .exists none ks) (hne : ks ≠ [])
    (resp : Bytes) (db : Db) (hc : Roomy 1 db.ctrs) :
    ∃ b, ((dispatch env r resp).run db).1 = .ok (resp ++ frame (.value (.boolean b))) ∧
      (b = true ↔ ∀ k ∈ ks, ∃ v, db.keys k = some v) := by
  have hx : execute env db.ctrs .exists none ks db.keys =
      (.value (.boolean (ks.all fun k => (db.keys k).isSome)), db.keys) := by simp [execute, hne]
  refine ⟨_, by rw [dispatch_value hv resp db hc hx (writeValue_deliverable (deliverable_bool _ _) resp)]; rfl, ?_⟩
  simp [Option.isSome_iff_exists]

/-- C27, Is over any non-empty list of keys: true iff every one of them exists and has the type. -/
theorem C27_is {env : Env} {r : Request} {t : KeyType} {ks : List Bytes} (hv : Views r .is (some t) ks) (hne : ks ≠ [])
    (resp : Bytes) (db : Db) (hc : Roomy 1 db.ctrs) :
    ∃ b, ((dispatch env r resp).run db).1 = .ok (resp ++ frame (.value (.boolean b))) ∧
      (b = true ↔ ∀ k ∈ ks, ∃ v, db.keys k = some v ∧ v.kind = t) := by
  have hx : execute env db.ctrs .is (some t) ks db.keys =
      (.value (.boolean (ks.all fun k => (db.keys k).map Value.kind = some t)), db.keys) := by simp [execute, hne]
  refine ⟨_, by rw [dispatch_value hv resp db hc hx (writeValue_deliverable (deliverable_bool _ _) resp)]; rfl, ?_⟩
  simp

/-- C27, missing keys: Length and Keys (untyped) report key-nonexistent. -/
theorem C27_missing {env : Env} {r : Request} {c : CommandId} {k : Bytes} {more : List Bytes}
    (hcmd : c = .length ∨ c = .keys) (hv : Views r c none (k :: more)) (resp : Bytes) (db : Db)
    (hk : db.keys k = none) (hu : ¬ unusable env.mode k) (hc : Roomy 1 db.ctrs) :
    ((dispatch env r resp).run db).1 = .err .keyNonexistent := by
  have hx : execute env db.ctrs c none (k :: more) db.keys = (.error .keyNonexistent, db.keys) := by
    rcases hcmd with rfl | rfl <;> simp [execute, effectiveType, hk, hu, sized]
  rw [dispatch_error hv resp db hc hx]

/-- Beside C27: the length of a string is counted in characters ("ä" takes two bytes). -/
example : ((dispatch (sampleEnv .debug) (call .length none [[107]]) []).run (sampleDb [([107], .string ['ä', 'b'])])).1 =
    .ok (frame (.value (.integer 2))) :=
  C27_length (env := sampleEnv .debug) (call_views .length none [[107]] (by decide) (by decide) (by decide)) []
    (sampleDb [([107], .string ['ä', 'b'])]) (.string ['ä', 'b'])
    (by decide +kernel) (by decide +kernel) (Or.inl rfl) (sampleDb_roomy _ _ (by decide))

example : ∃ l : List Bytes, ((dispatch (sampleEnv .debug) (call .keys none [[107]]) []).run
    (sampleDb [([107], .map [([1], [2]), ([3], [])])])).1 = .ok (frame (.value (.list l))) ∧ [3] ∈ l := by
  obtain ⟨l, h1, -, h2, -⟩ := C27_keys (env := sampleEnv .debug) (call_views .keys none [[107]] (by decide) (by decide) (by decide)) []
    (sampleDb [([107], .map [([1], [2]), ([3], [])])]) [([1], [2]), ([3], [])]
    (by decide +kernel) (by decide +kernel) (by decide +kernel) (Or.inl rfl)
    ⟨by decide +kernel, by intro _ l hl; simp at hl; subst hl; decide⟩ (sampleDb_roomy _ _ (by decide))
  exact ⟨l, h1, by rw [h2]; decide +kernel⟩

/-! ## C28 Statistics count every completed command exactly once -/

/-- Returned successfully. -/
def Spec.isOk : Outcome DispatchError Bytes → Bool
  | .ok _ => true
  | _ => false
/-- Returned an error. -/
def Spec.isErr : Outcome DispatchError Bytes → Bool
  | .err _ => true
  | _ => false

/-- C28. Any history of requests whatsoever (well-formed or not, of any length): afterwards
commands_successful has grown by exactly the number of successes, commands_errored by the number of errors,
and the other counters are untouched. -/
theorem C28_counts (env : Env) (h : List (Request × Bytes)) (db : Db) (hc : Roomy h.length db.ctrs) :
    ((serveAll env h db).2.ctrs .commandsSuccessful).getD 0 =
      (db.ctrs .commandsSuccessful).getD 0 + (serveAll env h db).1.countP isOk ∧
    ((serveAll env h db).2.ctrs .commandsErrored).getD 0 =
      (db.ctrs .commandsErrored).getD 0 + (serveAll env h db).1.countP isErr ∧
    (∀ m, m ≠ .commandsSuccessful → m ≠ .commandsErrored → (serveAll env h db).2.ctrs m = db.ctrs m) ∧
    ((db.ctrs .commandsSuccessful = none → (serveAll env h db).1.countP isOk = 0 →
      (serveAll env h db).2.ctrs .commandsSuccessful = none) ∧
     (db.ctrs .commandsErrored = none → (serveAll env h db).1.countP isErr = 0 →
      (serveAll env h db).2.ctrs .commandsErrored = none)) := by
  induction h generalizing db with
  | nil => simp [serveAll]
  | cons x xs ih =>
    obtain ⟨r, resp⟩ := x
    simp only [List.length_cons] at hc
    obtain ⟨h1, h2, h3, h4, h5⟩ := ih ((dispatch env r resp).run db).2 (dispatch_roomy env r resp db _ hc)
    have hctr := (dispatch_ctrs env r resp db (Roomy.mono hc (by omega))).2.2
    simp only [serveAll]
    rw [h1, h2]
    cases ho : ((dispatch env r resp).run db).1 with
    | ok out =>
      rw [ho] at hctr
      simp only [hctr, counted] at h3 h4 h5 ⊢
      refine ⟨by simp [isOk, List.countP_cons]; omega, by simp [isErr], ?_, by simp [isOk, List.countP_cons], ?_⟩
      · intro m hm1 hm2
        rw [h3 m hm1 hm2, if_neg hm1]
      · intro hn hz
        exact h5 (by simpa using hn) (by simpa [isErr, List.countP_cons] using hz)
    | err e =>
      rw [ho] at hctr
      simp only [hctr, counted] at h3 h4 h5 ⊢
      refine ⟨by simp [isOk], by simp [isErr, List.countP_cons]; omega, ?_, ?_, by simp [isErr, List.countP_cons]⟩
      · intro m hm1 hm2
        rw [h3 m hm1 hm2, if_neg hm2]
      · intro hn hz
        exact h4 (by simpa using hn) (by simpa [isOk, List.countP_cons] using hz)
    | panic =>
      rw [ho] at hctr
      simp only [hctr] at h3 h4 h5 ⊢
      refine ⟨by simp [isOk], by simp [isErr], h3, ?_, ?_⟩
      · intro hn hz; exact h4 hn (by simpa [isOk, List.countP_cons] using hz)
      · intro hn hz; exact h5 hn (by simpa [isErr, List.countP_cons] using hz)
    | stuck =>
      rw [ho] at hctr
      simp only [hctr] at h3 h4 h5 ⊢
      refine ⟨by simp [isOk], by simp [isErr], h3, ?_, ?_⟩
      · intro hn hz; exact h4 hn (by simpa [isOk, List.countP_cons] using hz)
      · intro hn hz; exact h5 hn (by simpa [isErr, List.countP_cons] using hz)

theorem countP_ok_err (l : List (Outcome DispatchError Bytes)) (h : ∀ o ∈ l, isOk o = true ∨ isErr o = true) :
    l.countP isOk + l.countP isErr = l.length := by
  induction l with
  | nil => rfl
  | cons o l ih =>
    have := ih fun o ho => h o (by simp [ho])
    rcases h o (by simp) with ho | ho
    · have hn : isErr o = false := by cases o <;> simp_all [isOk, isErr]
      simp [ho, hn]; omega
    · have hn : isOk o = false := by cases o <;> simp_all [isOk, isErr]
      simp [ho, hn]; omega

theorem serveAll_length (env : Env) (h : List (Request × Bytes)) (db : Db) : (serveAll env h db).1.length = h.length := by
  induction h generalizing db with
  | nil => rfl
  | cons x xs ih => obtain ⟨r, resp⟩ := x; simp [serveAll, ih]

/-- C28, the sum: if every dispatch of the history returned, the two counters have together grown by its
length. -/
theorem C28_sum (env : Env) (h : List (Request × Bytes)) (db : Db) (hc : Roomy h.length db.ctrs)
    (hret : ∀ o ∈ (serveAll env h db).1, isOk o = true ∨ isErr o = true) :
    ((serveAll env h db).2.ctrs .commandsSuccessful).getD 0 + ((serveAll env h db).2.ctrs .commandsErrored).getD 0 =
      (db.ctrs .commandsSuccessful).getD 0 + (db.ctrs .commandsErrored).getD 0 + h.length := by
  obtain ⟨h1, h2, -⟩ := C28_counts env h db hc
  have := countP_ok_err _ hret
  rw [serveAll_length] at this
  omega

theorem statistics_lookup (ctrs : Metric → Option Nat) :
    List.lookup (ascii "commands_successful") (statistics ctrs) = reported ctrs .commandsSuccessful ∧
    List.lookup (ascii "commands_errored") (statistics ctrs) = reported ctrs .commandsErrored ∧
    List.lookup (ascii "sessions_started") (statistics ctrs) = reported ctrs .sessionsStarted ∧
    ((statistics ctrs).map Prod.fst).Nodup ∧
    ∀ x ∈ (statistics ctrs).map Prod.fst,
      x ∈ [ascii "commands_errored", ascii "commands_successful", ascii "sessions_started"] := by
  have e1 : (ascii "commands_successful" == ascii "commands_errored") = false := by decide +kernel
  have e2 : (ascii "sessions_started" == ascii "commands_errored") = false := by decide +kernel
  have e3 : (ascii "sessions_started" == ascii "commands_successful") = false := by decide +kernel
  have e4 : (ascii "commands_errored" == ascii "commands_successful") = false := by decide +kernel
  have e5 : (ascii "commands_errored" == ascii "sessions_started") = false := by decide +kernel
  have e6 : (ascii "commands_successful" == ascii "sessions_started") = false := by decide +kernel
  have f1 := beq_eq_false_iff_ne.mp e1
  have f2 := beq_eq_false_iff_ne.mp e2
  have f3 := beq_eq_false_iff_ne.mp e3
  have f4 := beq_eq_false_iff_ne.mp e4
  have f5 := beq_eq_false_iff_ne.mp e5
  have f6 := beq_eq_false_iff_ne.mp e6
  unfold statistics
  cases h1 : reported ctrs .commandsErrored <;> cases h2 : reported ctrs .commandsSuccessful <;>
    cases h3 : reported ctrs .sessionsStarted <;>
    simp only [List.filterMap_cons, List.filterMap_nil, h1, h2, h3, Option.map_none, Option.map_some] <;>
    simp [List.lookup, e1, e2, e3, e4, e5, e6, f1, f2, f3, f4, f5, f6]

theorem reported_length {ctrs : Metric → Option Nat} {m : Metric} {b : Bytes} (h : reported ctrs m = some b) :
    b.length = 8 := by
  unfold reported at h
  split at h
  · split at h
    · simp at h; rw [← h, beBytes_length]
    · simp at h
  · simp at h

theorem deliverable_statistics (m : Mode) (ctrs : Metric → Option Nat) :
    Deliverable m (.value (.map (statistics ctrs))) := by
  have l1 : (ascii "commands_errored").length = 16 := by decide +kernel
  have l2 : (ascii "commands_successful").length = 19 := by decide +kernel
  have l3 : (ascii "sessions_started").length = 16 := by decide +kernel
  refine ⟨?_, by simp⟩
  unfold statistics
  cases h1 : reported ctrs .commandsErrored <;> cases h2 : reported ctrs .commandsSuccessful <;>
    cases h3 : reported ctrs .sessionsStarted <;>
    (try have g1 := reported_length h1) <;> (try have g2 := reported_length h2) <;> (try have g3 := reported_length h3) <;>
    simp only [List.filterMap_cons, List.filterMap_nil, h1, h2, h3, Option.map_none, Option.map_some] <;>
    simp [body, payload, mapItem, beBytes_length, *]

/-- C28, Stats: after any history from a new engine, the Stats response is a map in which
commands_successful and commands_errored are the numbers of dispatches so far with that outcome, as 8
big-endian bytes (left out if zero), and there is nothing else. -/
theorem C28_stats {env : Env} {r : Request} {args : List Bytes} (hv : Views r .stats none args) (resp : Bytes)
    (h : List (Request × Bytes)) (hlen : h.length < 2 ^ 63) :
    let x := serveAll env h Db.empty
    ∃ m : BMap, ((dispatch env r resp).run x.2).1 = .ok (resp ++ frame (ordered env (.value (.map m)))) ∧
      List.lookup (ascii "commands_successful") m =
        (if x.1.countP isOk = 0 then none else some (beBytes 8 (x.1.countP isOk))) ∧
      List.lookup (ascii "commands_errored") m =
        (if x.1.countP isErr = 0 then none else some (beBytes 8 (x.1.countP isErr))) ∧
      (m.map Prod.fst).Nodup ∧
      ∀ n ∈ m.map Prod.fst, n = ascii "commands_errored" ∨ n = ascii "commands_successful" := by
  intro x
  have hroom : Roomy h.length Db.empty.ctrs := by intro m; simp [Db.empty]; omega
  obtain ⟨h1, h2, h3, h4, h5⟩ := C28_counts env h Db.empty hroom
  have hok : x.1.countP isOk ≤ h.length := by rw [← serveAll_length env h Db.empty]; exact List.countP_le_length
  have herr : x.1.countP isErr ≤ h.length := by rw [← serveAll_length env h Db.empty]; exact List.countP_le_length
  change (x.2.ctrs .commandsSuccessful).getD 0 = _ + x.1.countP isOk at h1
  change (x.2.ctrs .commandsErrored).getD 0 = _ + x.1.countP isErr at h2
  change _ → x.1.countP isOk = 0 → x.2.ctrs .commandsSuccessful = none at h4
  change _ → x.1.countP isErr = 0 → x.2.ctrs .commandsErrored = none at h5
  change ∀ m, _ → _ → x.2.ctrs m = none at h3
  have z1 : (Db.empty.ctrs .commandsSuccessful).getD 0 = 0 := rfl
  have z2 : (Db.empty.ctrs .commandsErrored).getD 0 = 0 := rfl
  rw [z1, Nat.zero_add] at h1
  rw [z2, Nat.zero_add] at h2
  have hc' : Roomy 1 x.2.ctrs := by
    intro m
    cases m
    · rw [h1]; omega
    · rw [h2]; omega
    · rw [h3 _ (by simp) (by simp)]; simp
    · rw [h3 _ (by simp) (by simp)]; simp
  have hx : execute env x.2.ctrs .stats none args x.2.keys = (.value (.map (statistics x.2.ctrs)), x.2.keys) := by
    cases args <;> simp [execute]
  obtain ⟨s1, s2, s3, s4, s5⟩ := statistics_lookup x.2.ctrs
  have rep : ∀ m n, (x.2.ctrs m).getD 0 = n → n < 2 ^ 63 → (n = 0 → x.2.ctrs m = none) →
      reported x.2.ctrs m = if n = 0 then none else some (beBytes 8 n) := by
    intro m n hn hlt hz
    unfold reported
    cases hm : x.2.ctrs m with
    | none => rw [hm] at hn; simp at hn; simp [← hn]
    | some k =>
      rw [hm] at hn
      simp at hn
      subst hn
      by_cases hk : k = 0
      · rw [hz hk] at hm; simp at hm
      · simp only [if_neg hk, if_pos hlt]
  refine ⟨_, by rw [dispatch_value hv resp x.2 hc' hx (writeValue_deliverable (deliverable_statistics _ _) resp)],
    ?_, ?_, s4, ?_⟩
  · rw [s1]; exact rep _ _ h1 (by omega) (h4 rfl)
  · rw [s2]; exact rep _ _ h2 (by omega) (h5 rfl)
  · intro n hn
    have := s5 n hn
    simp only [List.mem_cons, List.not_mem_nil, or_false] at this
    rcases this with h | h | h
    · exact Or.inl h
    · exact Or.inr h
    · exfalso
      have hz : reported x.2.ctrs .sessionsStarted = none := by
        unfold reported; rw [h3 _ (by simp) (by simp)]
      rw [hz, List.lookup_eq_none_iff] at s3
      rw [List.mem_map] at hn
      obtain ⟨e, he, rfl⟩ := hn
      have := s3 e he
      rw [h] at this
      simp at this

/-- Beside C28: a panic (reserved key) is not counted. -/
example : (serveAll (sampleEnv .release)
    [(call .get none [ascii "__hop__:a"], []), (call .echo none [], []), (call .get none [[1]], [])] Db.empty).1.map isOk =
    [false, true, false] := by decide +kernel

/-! ## C29 A key's type changes only through set, delete or rename -/

/-- C29. Any history (of any length) of commands other than Set, Delete and Rename, whatever their outcomes:
a key that exists still exists and has the same type. -/
theorem C29_type_stable {env : Env} {h : List (Request × Bytes)} {cs : List Call} (hs : Sees h cs)
    (hcs : ∀ c ∈ cs, c.cmd ≠ .set ∧ c.cmd ≠ .delete ∧ c.cmd ≠ .rename) (db : Db) (hc : Roomy h.length db.ctrs)
    (k : Bytes) (v : Value) (hk : db.keys k = some v) :
    ∃ w, (serveAll env h db).2.keys k = some w ∧ w.kind = v.kind := by
  induction hs generalizing db v with
  | nil => exact ⟨v, hk, rfl⟩
  | @cons r resp c rs cs hv hs ih =>
    obtain ⟨h1, h2, h3⟩ := hcs c (by simp)
    simp only [List.length_cons] at hc
    have hkeys := dispatch_keys (env := env) hv resp db (Roomy.mono hc (by omega)) (Or.inr (Or.inl h1))
    have hstep : ∃ w, ((dispatch env r resp).run db).2.keys k = some w ∧ w.kind = v.kind := by
      rw [hkeys]
      simp only [perform]
      rcases execute_shape env db.ctrs c.cmd c.kt c.args db.keys h1 h2 h3 with hx | ⟨k', w, -, hx, hw, -⟩
      · rw [hx]; exact ⟨v, hk, rfl⟩
      · rw [hx]
        by_cases e : k = k'
        · subst e
          exact ⟨w, put_apply_self _ _ _, hw v hk⟩
        · exact ⟨v, by rw [put_apply_ne _ _ e]; exact hk, rfl⟩
    obtain ⟨w, hw, hwk⟩ := hstep
    obtain ⟨w', hw', hwk'⟩ := ih (fun c hc => hcs c (by simp [hc])) _ (dispatch_roomy env r resp db _ hc) w hw
    exact ⟨w', hw', by rw [hwk', hwk]⟩

example : ((dispatch (sampleEnv .release) (call .append (some .bytes) [[107], [1]]) []).run (sampleDb [([107], .list [])])).1 =
    .err .keyTypeDifferent := by decide +kernel

/-! ## C56 Stored maps and sets never contain a key or member twice -/

/-- C56. Starting from any database whose maps and sets have no repetition (such as an empty one), after any
history of requests none has. -/
theorem C56_well_formed {env : Env} {h : List (Request × Bytes)} {cs : List Call} (hs : Sees h cs)
    (db : Db) (hc : Roomy h.length db.ctrs) (hd : env.mode = .release ∨ ∀ a ∈ (performAll env cs db).1, Deliverable env.mode a)
    (hwf : ∀ k v, db.keys k = some v → WF v) :
    ∀ k v, (serveAll env h db).2.keys k = some v → WF v := by
  have hput : ∀ (s : Store) (k' : Bytes) (w : Option Value), (∀ k v, s k = some v → WF v) → (∀ v, w = some v → WF v) →
      ∀ k v, s.put k' w k = some v → WF v := by
    intro s k' w hs hw k v hv
    by_cases e : k = k'
    · subst e; rw [put_apply_self] at hv; exact hw v hv
    · rw [put_apply_ne _ _ e] at hv; exact hs k v hv
  induction hs generalizing db with
  | nil => exact hwf
  | @cons r resp c rs cs hv hs ih =>
    simp only [List.length_cons] at hc
    simp only [performAll, List.mem_cons, forall_eq_or_imp] at hd
    have hkeys := dispatch_keys (env := env) hv resp db (Roomy.mono hc (by omega)) (hd.imp id fun h => Or.inr h.1)
    have hstep : ∀ k v, ((dispatch env r resp).run db).2.keys k = some v → WF v := by
      rw [hkeys]
      simp only [perform]
      obtain ⟨cmd, kt, args⟩ := c
      by_cases h1 : cmd = .set
      · subst h1
        rcases args with _ | ⟨k, _ | ⟨a, items⟩⟩ <;> simp only [execute]
        · exact hwf
        · exact hwf
        · cases hp : parseValue (effectiveType kt (db.keys k) .bytes) (a :: items) with
          | none => exact hwf
          | some w =>
            dsimp only
            split
            · exact hput _ _ _ hwf (by simp)
            · exact hput _ _ _ hwf (by intro v hv; simp at hv; subst hv; exact parseValue_WF hp)
      · by_cases h2 : cmd = .delete
        · subst h2
          rcases args with _ | ⟨k, items⟩ <;> simp only [execute]
          · exact hwf
          · repeat' split
            · exact hwf
            · exact hwf
            · exact hput _ _ _ hwf (by simp)
        · by_cases h3 : cmd = .rename
          · subst h3
            rcases args with _ | ⟨a, _ | ⟨b, items⟩⟩ <;> simp only [execute]
            · exact hwf
            · exact hwf
            · repeat' split
              · exact hwf
              · exact hwf
              · exact hwf
              · exact hput _ _ _ (hput _ _ _ hwf (by simp)) (fun v hv => hwf a v hv)
          · rcases execute_shape env db.ctrs cmd kt args db.keys h1 h2 h3 with hx | ⟨k', w, -, hx, -, hw⟩
            · rw [hx]; exact hwf
            · rw [hx]
              refine hput _ _ _ hwf ?_
              intro v hv
              simp at hv
              subst hv
              cases w <;> first | trivial | simp [Value.kind] at hw
    refine ih _ (dispatch_roomy env r resp db _ hc) ?_ hstep
    rcases hd with hm | hd
    · exact Or.inl hm
    · refine Or.inr ?_
      have := dispatch_delivers (env := env) hv resp db (Roomy.mono hc (by omega)) hd.1
      rw [this]
      exact hd.2

/-- Beside C56: an empty engine. -/
example : ∀ k v, Db.empty.keys k = some v → WF v := by intro k v h; simp [Db.empty] at h

/-! ## Further concrete cases -/

example (resp : Bytes) : ∃ b, ((dispatch (sampleEnv .debug) (call .exists none [[1], [2]]) resp).run (sampleDb [([1], .integer 5)])).1 =
    .ok (resp ++ frame (.value (.boolean b))) ∧ (b = true ↔ ∀ k ∈ [[1], [2]], ∃ v, (sampleDb [([1], .integer 5)]).keys k = some v) :=
  C27_exists (call_views _ _ _ (by decide) (by decide) (by decide)) (by decide) resp _ (by intro m; simp [sampleDb])

example (resp : Bytes) : ∃ b, ((dispatch (sampleEnv .debug) (call .is (some .list) [[1], [2]]) resp).run (sampleDb [([1], .integer 5)])).1 =
    .ok (resp ++ frame (.value (.boolean b))) ∧
    (b = true ↔ ∀ k ∈ [[1], [2]], ∃ v, (sampleDb [([1], .integer 5)]).keys k = some v ∧ v.kind = .list) :=
  C27_is (call_views _ _ _ (by decide) (by decide) (by decide)) (by decide) resp _ (by intro m; simp [sampleDb])

example (resp : Bytes) : ((dispatch (sampleEnv .debug) (call .keys none [[2]]) resp).run (sampleDb [([1], .integer 5)])).1 = .err .keyNonexistent :=
  C27_missing (more := []) (.inr rfl) (call_views _ _ _ (by decide) (by decide) (by decide)) resp _ rfl (by decide) (by intro m; simp [sampleDb])

example (resp : Bytes) : ((dispatch (sampleEnv .debug) (call .type none [[1]]) resp).run (sampleDb [([1], .list [[5]])])).1 =
    .ok (resp ++ frame (.value (.integer (Int64.ofNat KeyType.list.toByte.toNat)))) :=
  C27_type (more := []) (call_views _ _ _ (by decide) (by decide) (by decide)) resp _ (by intro m; simp [sampleDb])

private def twoServed : List (Request × Bytes) := [(call .increment none [[107]], []), (call .delete none [[1]], [9])]

example : ((serveAll (sampleEnv .debug) twoServed (sampleDb [])).2.ctrs .commandsErrored).getD 0 = 1 := by
  rw [(C28_counts (sampleEnv .debug) twoServed (sampleDb []) (by intro m; simp [sampleDb, twoServed])).2.1]
  decide +kernel

example (resp : Bytes) : ∃ m : BMap, ((dispatch (sampleEnv .debug) (call .stats none []) resp).run (serveAll (sampleEnv .debug) twoServed Db.empty).2).1 =
    .ok (resp ++ frame (ordered (sampleEnv .debug) (.value (.map m)))) := by
  obtain ⟨m, h, -⟩ := C28_stats (env := sampleEnv .debug) (args := []) (call_views .stats none [] (by decide) (by decide) (by decide)) resp twoServed (by decide)
  exact ⟨m, h⟩

example : ((serveAll (sampleEnv .debug) twoServed (sampleDb [])).2.ctrs .commandsSuccessful).getD 0 +
    ((serveAll (sampleEnv .debug) twoServed (sampleDb [])).2.ctrs .commandsErrored).getD 0 = 2 :=
  (C28_sum (sampleEnv .debug) twoServed (sampleDb []) (by intro m; simp [sampleDb, twoServed]) (by decide +kernel)).trans rfl

example : ∃ w, (serveAll (sampleEnv .debug) [(call .append none [[1], [2]], []), (call .increment none [[107]], [])]
    (sampleDb [([1], .list [[5]])])).2.keys [1] = some w ∧ w.kind = .list :=
  C29_type_stable (cs := [⟨.append, none, [[1], [2]]⟩, ⟨.increment, none, [[107]]⟩])
    (.cons (call_views _ _ _ (by decide) (by decide) (by decide)) (.cons (call_views _ _ _ (by decide) (by decide) (by decide)) .nil)) (by decide) _
    (by intro m; simp [sampleDb]) [1] (.list [[5]]) rfl

example : ∃ s, ((dispatch (sampleEnv .debug) (call .set (some .set) [[107], [1], [2], [1]]) []).run (sampleDb [])).2.keys [107] = some (.set s) ∧ [2] ∈ s := by
  obtain ⟨s, h1, -, h2⟩ := (C52_set_collections (env := sampleEnv .debug) (t := .set) (k := [107]) (items := [[1], [2], [1]])
    (call_views _ _ _ (by decide) (by decide) (by decide)) [] (sampleDb []) _ (frame (.value (.set [[2], [1]]))) (by intro m; simp [sampleDb])
    (Prod.ext (by decide +kernel) rfl)).2 rfl
  exact ⟨s, h1, (h2 [2]).mpr (by decide)⟩

example (k : Bytes) (v : Value) (h : (serveAll (sampleEnv .release) [(call .set (some .map) [[107], [1], [5], [1], [7]], [])] (sampleDb [])).2.keys k = some v) :
    WF v :=
  C56_well_formed (env := sampleEnv .release) (cs := [⟨.set, some .map, [[107], [1], [5], [1], [7]]⟩])
    (.cons (call_views _ _ _ (by decide) (by decide) (by decide)) .nil) (sampleDb []) (by intro m; simp [sampleDb]) (.inl rfl)
    (by intro k v h; cases h) k v h

end Hop
