import Verif.Props.Observe

/-!
# The order in sets and maps (C194)
-/

namespace Hop

open Prog Spec

/-- The same entries, up to the order in sets and maps. -/
def Spec.SameStore (s s' : Store) : Prop := ∀ k, SameEntry (s k) (s' k)

theorem same_self (v : Value) : Same v v := by
  cases v <;> simp [Same]

theorem entry_self (o : Option Value) : SameEntry o o := by
  cases o with
  | none => trivial
  | some v => exact same_self v

private theorem resembles_self (c : CommandId) (a : Answer) : Resembles c a a := by
  cases a with
  | value v => exact .inl (same_self v)
  | error e => rfl
  | crash => rfl

theorem entry_cases {o o' : Option Value} (h : SameEntry o o') :
    o = o' ∨ (∃ m m' : BMap, m.Perm m' ∧ o = some (.map m) ∧ o' = some (.map m')) ∨
      ∃ m m' : BSet, m.Perm m' ∧ o = some (.set m) ∧ o' = some (.set m') := by
  cases o with
  | none =>
    cases o' with
    | none => exact .inl rfl
    | some w => cases h
  | some v =>
    cases o' with
    | none => cases h
    | some w =>
      cases v <;> cases w <;> simp_all [SameEntry, Same]

theorem entry_isSome {o o' : Option Value} (h : SameEntry o o') : o'.isSome = o.isSome := by
  rcases entry_cases h with rfl | ⟨_, _, _, rfl, rfl⟩ | ⟨_, _, _, rfl, rfl⟩ <;> rfl

theorem entry_kind {o o' : Option Value} (h : SameEntry o o') : o'.map Value.kind = o.map Value.kind := by
  rcases entry_cases h with rfl | ⟨_, _, _, rfl, rfl⟩ | ⟨_, _, _, rfl, rfl⟩ <;> rfl

theorem sameStore_put {s s' : Store} (h : SameStore s s') (k : Bytes) {o o' : Option Value} (ho : SameEntry o o') :
    SameStore (s.put k o) (s'.put k o') := by
  intro x
  simp only [Store.put]
  split
  · exact ho
  · exact h x

private theorem effective_same {o o' : Option Value} (h : SameEntry o o') (kt : Option KeyType) (d : KeyType) :
    effectiveType kt o' d = effectiveType kt o d := by
  rcases entry_cases h with rfl | ⟨_, _, _, rfl, rfl⟩ | ⟨_, _, _, rfl, rfl⟩ <;> cases kt <;> rfl

private theorem addInteger_same {s s' : Store} (h : SameStore s s') (m : Mode) (k : Bytes) (n : Int) (c : CommandId) :
    Resembles c (addInteger m k n s).1 (addInteger m k n s').1 ∧ SameStore (addInteger m k n s).2 (addInteger m k n s').2 := by
  simp only [addInteger]
  split
  · exact ⟨rfl, h⟩
  · rcases entry_cases (h k) with e | ⟨a, b, hp, e, e'⟩ | ⟨a, b, hp, e, e'⟩
    · rw [← e]
      split
      · split
        · exact ⟨resembles_self _ _, sameStore_put h k (entry_self _)⟩
        · exact ⟨rfl, h⟩
      · exact ⟨rfl, h⟩
    · simp only [e, e', Option.getD_some]; exact ⟨rfl, h⟩
    · simp only [e, e', Option.getD_some]; exact ⟨rfl, h⟩

private theorem addFloat_same {s s' : Store} (h : SameStore s s') (m : Mode) (f : F64 → F64) (k : Bytes) (c : CommandId) :
    Resembles c (addFloat m f k s).1 (addFloat m f k s').1 ∧ SameStore (addFloat m f k s).2 (addFloat m f k s').2 := by
  simp only [addFloat]
  split
  · exact ⟨rfl, h⟩
  · rcases entry_cases (h k) with e | ⟨a, b, hp, e, e'⟩ | ⟨a, b, hp, e, e'⟩
    · rw [← e]
      split
      · exact ⟨resembles_self _ _, sameStore_put h k (entry_self _)⟩
      · exact ⟨rfl, h⟩
      · exact ⟨rfl, sameStore_put h k (entry_self _)⟩
    · simp only [e, e']; exact ⟨rfl, h⟩
    · simp only [e, e']; exact ⟨rfl, h⟩

/-- One command. -/
private theorem execute_same {env env' : Env} (hm : env'.mode = env.mode) (hf : env'.fadd = env.fadd) {s s' : Store} (h : SameStore s s')
    (ctrs : Metric → Option Nat) (c : CommandId) (kt : Option KeyType) (args : List Bytes) :
    Resembles c (execute env ctrs c kt args s).1 (execute env' ctrs c kt args s').1 ∧
      SameStore (execute env ctrs c kt args s).2 (execute env' ctrs c kt args s').2 := by
  have same : ∀ a, Resembles c a a ∧ SameStore s s' := fun a => ⟨resembles_self c a, h⟩
  cases c with
  | append =>
    cases args with
    | nil => exact same _
    | cons k items =>
      simp only [execute, effective_same (h k), hm]
      split
      · exact same _
      · split
        · exact same _
        · rcases entry_cases (h k) with e | ⟨a, b, hp, e, e'⟩ | ⟨a, b, hp, e, e'⟩
          · rw [← e]
            split
            · exact same _
            · split
              · exact ⟨resembles_self _ _, sameStore_put h k (entry_self _)⟩
              · exact same _
          · simp only [e, e', Option.getD_some, appended, Value.kind]
            split <;> exact same _
          · simp only [e, e', Option.getD_some, appended, Value.kind]
            split <;> exact same _
  | increment =>
    cases args with
    | nil => exact same _
    | cons k items =>
      simp only [execute, hm, hf]
      split
      · exact addFloat_same h _ _ _ _
      · exact addInteger_same h _ _ _ _
  | decrement =>
    cases args with
    | nil => exact same _
    | cons k items =>
      simp only [execute, hm, hf]
      split
      · exact addFloat_same h _ _ _ _
      · exact addInteger_same h _ _ _ _
  | incrementBy =>
    match args with
    | [] => exact same _
    | [_] => exact same _
    | k :: a :: _ =>
      simp only [execute, hm]
      split
      · exact addInteger_same h _ _ _ _
      · exact same _
  | decrementBy =>
    match args with
    | [] => exact same _
    | [_] => exact same _
    | k :: a :: _ =>
      simp only [execute, hm]
      split
      · split
        · exact same _
        · exact addInteger_same h _ _ _ _
      · exact same _
  | delete =>
    cases args with
    | nil => exact same _
    | cons k _ =>
      simp only [execute, ← Option.not_isSome, entry_isSome (h k)]
      split
      · exact same _
      · split
        · exact same _
        · exact ⟨resembles_self _ _, sameStore_put h k trivial⟩
  | echo => cases args <;> exact same _
  | «exists» =>
    have : ∀ args, Resembles .exists (execute env ctrs .exists kt args s).1 (execute env' ctrs .exists kt args s').1 ∧
      SameStore (execute env ctrs .exists kt args s).2 (execute env' ctrs .exists kt args s').2 := by
      intro args
      simp only [execute, entry_isSome (h _)]
      split
      · exact same _
      · split <;> exact same _
    exact this args
  | is =>
    simp only [execute, entry_kind (h _)]
    cases kt with
    | none => exact same _
    | some t => dsimp only; split <;> exact same _
  | get =>
    cases args with
    | nil => exact same _
    | cons k _ =>
      simp only [execute, hm]
      split
      · exact same _
      · rcases entry_cases (h k) with e | ⟨a, b, hp, e, e'⟩ | ⟨a, b, hp, e, e'⟩
        · rw [← e]
          split
          · exact same _
          · split <;> exact same _
        · by_cases hk : kt = none ∨ kt = some .map
          · simp only [e, e', Value.kind, hk, if_true]; exact ⟨.inl hp, h⟩
          · simp only [e, e', Value.kind, hk, if_false]; exact same _
        · by_cases hk : kt = none ∨ kt = some .set
          · simp only [e, e', Value.kind, hk, if_true]; exact ⟨.inl hp, h⟩
          · simp only [e, e', Value.kind, hk, if_false]; exact same _
  | keys =>
    cases args with
    | nil => exact same _
    | cons k _ =>
      simp only [execute, effective_same (h k), hm]
      split
      · exact same _
      · split
        · exact same _
        · rcases entry_cases (h k) with e | ⟨a, b, hp, e, e'⟩ | ⟨a, b, hp, e, e'⟩
          · rw [← e]
            split
            · exact same _
            · exact ⟨.inr ⟨rfl, _, _, rfl, rfl, ((env.mapOrd_perm _).trans (env'.mapOrd_perm _).symm).map _⟩, h⟩
            · exact same _
          · simp only [e, e']
            exact ⟨.inr ⟨rfl, _, _, rfl, rfl, (((env.mapOrd_perm _).trans hp).trans (env'.mapOrd_perm _).symm).map _⟩, h⟩
          · simp only [e, e']
            exact same _
  | length =>
    cases args with
    | nil => exact same _
    | cons k _ =>
      simp only [execute, effective_same (h k), hm]
      split
      · exact same _
      · split
        · exact same _
        · rcases entry_cases (h k) with e | ⟨a, b, hp, e, e'⟩ | ⟨a, b, hp, e, e'⟩
          · rw [← e]
            split
            · exact same _
            · split
              · exact same _
              · split <;> exact same _
          · simp only [e, e', Value.kind, size, hp.length_eq]
            split <;> exact same _
          · simp only [e, e', Value.kind, size, hp.length_eq]
            split <;> exact same _
  | rename =>
    match args with
    | [] => exact same _
    | [_] => exact same _
    | a :: b :: _ =>
      simp only [execute, ← Option.not_isSome, entry_isSome (h _)]
      split
      · exact same _
      · split
        · exact same _
        · split
          · exact same _
          · exact ⟨resembles_self _ _, sameStore_put (sameStore_put (o := none) (o' := none) h a trivial) b (h a)⟩
  | set =>
    match args with
    | [] => exact same _
    | [_] => exact same _
    | k :: a :: items =>
      simp only [execute, effective_same (h k), hm]
      split
      · exact same _
      · split
        · exact ⟨rfl, sameStore_put h k trivial⟩
        · exact ⟨resembles_self _ _, sameStore_put h k (entry_self _)⟩
  | type =>
    cases args with
    | nil => exact same _
    | cons k _ =>
      simp only [execute]
      split
      · exact same _
      · rcases entry_cases (h k) with e | ⟨a, b, hp, e, e'⟩ | ⟨a, b, hp, e, e'⟩
        · rw [← e]
          split <;> exact same _
        · simp only [e, e']; exact same _
        · simp only [e, e']; exact same _
  | stats =>
    have : ∀ args, Resembles .stats (execute env ctrs .stats kt args s).1 (execute env' ctrs .stats kt args s').1 ∧
      SameStore (execute env ctrs .stats kt args s).2 (execute env' ctrs .stats kt args s').2 := by
      intro args
      simp only [execute]
      split <;> exact same _
    exact this args

private theorem tally_same {c : CommandId} {a b : Answer} (h : Resembles c a b) (ctrs : Metric → Option Nat) : tally ctrs b = tally ctrs a := by
  cases a <;> cases b <;> first | rfl | cases h

private theorem flatMap_perm_length {α β : Type} (f : α → List β) {l l' : List α} (h : l.Perm l') : (l.flatMap f).length = (l'.flatMap f).length :=
  (h.flatMap_right f).length_eq

private theorem deliverable_same {c : CommandId} {m : Mode} {a b : Answer} (h : Resembles c a b) (hd : Deliverable m a) : Deliverable m b := by
  cases a with
  | value v =>
    cases b with
    | value w =>
      rcases h with h | ⟨_, l, l', rfl, rfl, hp⟩
      · rcases entry_cases (o := some v) (o' := some w) h with e | ⟨a, b, hp, e, e'⟩ | ⟨a, b, hp, e, e'⟩
        · cases e; exact hd
        · cases e; cases e'
          refine ⟨?_, fun _ l hl => by cases hl⟩
          have := hd.1
          simp only [body, payload, List.length_cons, List.length_append, beBytes_length, flatMap_perm_length _ hp] at this ⊢
          exact this
        · cases e; cases e'
          refine ⟨?_, fun _ l hl => by cases hl⟩
          have := hd.1
          simp only [body, payload, List.length_cons, List.length_append, beBytes_length, flatMap_perm_length _ hp] at this ⊢
          exact this
      · refine ⟨?_, fun hm x hx => ?_⟩
        · have := hd.1
          simp only [body, payload, List.length_cons, List.length_append, beBytes_length, flatMap_perm_length _ hp] at this ⊢
          exact this
        · cases hx
          have := hd.2 hm l rfl
          rwa [hp.length_eq] at this
    | error e => cases h
    | crash => cases h
  | error e => cases h; trivial
  | crash => cases h; trivial

private theorem performAll_same {env env' : Env} (hm : env'.mode = env.mode) (hf : env'.fadd = env.fadd) (cs : List Call) {db db' : Db}
    (hc : db'.ctrs = db.ctrs) (h : SameStore db.keys db'.keys) :
    Resemble cs (performAll env cs db).1 (performAll env' cs db').1 ∧ SameStore (performAll env cs db).2.keys (performAll env' cs db').2.keys ∧
      (performAll env' cs db').2.ctrs = (performAll env cs db).2.ctrs := by
  induction cs generalizing db db' with
  | nil => exact ⟨.nil, h, hc⟩
  | cons c cs ih =>
    have e := execute_same hm hf h db.ctrs c.cmd c.kt c.args
    have := ih (db := (perform env c db).2) (db' := (perform env' c db').2)
      (by simp only [perform, hc]; exact tally_same e.1 _) (by simp only [perform, hc]; exact e.2)
    exact ⟨.cons (by simp only [perform, hc]; exact e.1) this.1, this.2⟩

private theorem resemble_deliverable {m : Mode} {cs : List Call} {as bs : List Answer} (h : Resemble cs as bs) (hd : ∀ a ∈ as, Deliverable m a) :
    ∀ b ∈ bs, Deliverable m b := by
  induction h with
  | nil => simp
  | cons h _ ih =>
    simp only [List.mem_cons, forall_eq_or_imp] at hd ⊢
    exact ⟨deliverable_same h hd.1, ih hd.2⟩

/-- **C194.** Two databases that hold the same up to the order in sets and maps are served the same requests, by programs that list sets and
maps each in its own order. Then, as long as the answers of the first fit into responses, the answers are the same up to the order in sets,
maps and listed keys, each in the order of its own program, and the databases hold the same again. -/
theorem C194_order {env env' : Env} (hm : env'.mode = env.mode) (hf : env'.fadd = env.fadd) {h : List (Request × Bytes)} {cs : List Call}
    (hs : Sees h cs) {db db' : Db} (hc : db'.ctrs = db.ctrs) (hr : Roomy h.length db.ctrs) (hk : SameStore db.keys db'.keys)
    (hd : ∀ a ∈ (performAll env cs db).1, Deliverable env.mode a) :
    ∃ as bs, Resemble cs as bs ∧ (serveAll env h db).1 = List.zipWith (fun rb a => delivered env rb.2 a) h as ∧
      (serveAll env' h db').1 = List.zipWith (fun rb b => delivered env' rb.2 b) h bs ∧
      SameStore (serveAll env h db).2.keys (serveAll env' h db').2.keys ∧ (serveAll env' h db').2.ctrs = (serveAll env h db).2.ctrs := by
  have e := performAll_same hm hf cs hc hk
  have h1 := C48_history env h cs db hs hr hd
  have h2 := C48_history env' h cs db' hs (by rw [hc]; exact hr) (by rw [hm]; exact resemble_deliverable e.1 hd)
  rw [h1, h2]
  exact ⟨_, _, e.1, rfl, rfl, e.2⟩

/-- **C194, exactly.** What can be found out of a database, in any number of requests, is what it holds up to the order in sets and maps:
two databases hold the same up to order if and only if no history of requests is answered differently, but for order. -/
theorem C194_exactly {env : Env} {db db' : Db} (hc : db'.ctrs = db.ctrs) (hr : Roomy 2 db.ctrs) (hf : Reached db.keys) (hf' : Reached db'.keys)
    (hl : ∀ k v, db.keys k = some v ∨ db'.keys k = some v → Legible env.mode v)
    (hj : ∃ j : Bytes, j ≠ [] ∧ ¬ unusable env.mode j ∧ j.length + 5 < 2 ^ 32 ∧ db.keys j = none ∧ db'.keys j = none) :
    SameStore db.keys db'.keys ↔
      ∀ h cs, Sees h cs → (∀ c ∈ cs, Buildable c) → (∀ a ∈ (performAll env cs db).1, Deliverable env.mode a) →
        Resemble cs (performAll env cs db).1 (performAll env cs db').1 := by
  constructor
  · intro hk h cs _ _ _
    exact (performAll_same rfl rfl cs hc hk).1
  · intro hall k
    apply Classical.byContradiction
    intro hne
    by_cases hk : k = []
    · rw [hk, hf.keys, hf'.keys] at hne
      exact hne trivial
    · obtain ⟨j, h1, h2, h3, h4, h5⟩ := hj
      obtain ⟨h, cs, hs, hb, _, hn, hd⟩ := C193_beyond_order hr (by rw [hc]; exact hr) hk (hl k) hne h1 h2 h3 h4 h5
      exact hn (hall h cs hs hb hd)

/-! ## Concrete cases -/

/-- A program that lists sets and maps the other way round. -/
private def otherwise : Env :=
  { sampleEnv .debug with mapOrd := id, mapOrd_perm := fun _ => .refl _, setOrd := id, setOrd_perm := fun _ => .refl _ }

/-- A set kept in two orders, and the keys of a map. -/
example : ∃ as bs, Resemble [⟨.get, none, [[115]]⟩, ⟨.keys, none, [[109]]⟩] as bs ∧
    (serveAll (sampleEnv .debug) [(call .get none [[115]], []), (call .keys none [[109]], [])]
      (sampleDb [([115], .set [[1], [2]]), ([109], .map [([1], [3]), ([2], [3])])])).1 =
      List.zipWith (fun rb a => delivered (sampleEnv .debug) rb.2 a) [(call .get none [[115]], []), (call .keys none [[109]], [])] as ∧
    (serveAll otherwise [(call .get none [[115]], []), (call .keys none [[109]], [])]
      (sampleDb [([115], .set [[2], [1]]), ([109], .map [([1], [3]), ([2], [3])])])).1 =
      List.zipWith (fun rb b => delivered otherwise rb.2 b) [(call .get none [[115]], []), (call .keys none [[109]], [])] bs := by
  obtain ⟨as, bs, h1, h2, h3, _⟩ := C194_order (env := sampleEnv .debug) (env' := otherwise) rfl rfl
    (h := [(call .get none [[115]], []), (call .keys none [[109]], [])])
    (.cons (c := ⟨.get, none, [[115]]⟩) (call_views _ _ _ (by decide) (by decide) (by decide))
      (.cons (c := ⟨.keys, none, [[109]]⟩) (call_views _ _ _ (by decide) (by decide) (by decide)) .nil))
    (db := sampleDb [([115], .set [[1], [2]]), ([109], .map [([1], [3]), ([2], [3])])])
    (db' := sampleDb [([115], .set [[2], [1]]), ([109], .map [([1], [3]), ([2], [3])])]) rfl (sampleDb_roomy _ _ (by decide))
    (by
      intro k
      by_cases h : k = [115]
      · subst h
        exact (List.Perm.swap [2] [1] [] : ([[1], [2]] : List Bytes).Perm [[2], [1]])
      · have e : (sampleDb [([115], .set [[1], [2]]), ([109], .map [([1], [3]), ([2], [3])])]).keys k =
          (sampleDb [([115], .set [[2], [1]]), ([109], .map [([1], [3]), ([2], [3])])]).keys k := by
          simp only [sampleDb, List.lookup, beq_false_of_ne h]
        rw [e]
        exact entry_self _)
    (by
      intro a ha
      rw [show (performAll (sampleEnv .debug) [⟨.get, none, [[115]]⟩, ⟨.keys, none, [[109]]⟩]
        (sampleDb [([115], .set [[1], [2]]), ([109], .map [([1], [3]), ([2], [3])])])).1 =
          [.value (.set [[1], [2]]), .value (.list [[2], [1]])] from by decide +kernel] at ha
      simp only [List.mem_cons, List.not_mem_nil, or_false] at ha
      rcases ha with rfl | rfl
      · exact ⟨by decide +kernel, by intro _ l h; cases h⟩
      · exact ⟨by decide +kernel, by rintro _ l h; cases h; decide⟩)
  exact ⟨as, bs, h1, h2, h3⟩

/-- The two sets cannot be told apart, a set and a larger one can. -/
example : SameStore (sampleDb [([115], .set [[1], [2]])]).keys (sampleDb [([115], .set [[2], [1]])]).keys ∧
    ¬ SameStore (sampleDb [([115], .set [[1], [2]])]).keys (sampleDb [([115], .set [[2], [1], [3]])]).keys := by
  constructor
  · intro k
    by_cases h : k = [115]
    · subst h
      exact (List.Perm.swap [2] [1] [] : ([[1], [2]] : List Bytes).Perm [[2], [1]])
    · have : ∀ v, (sampleDb [([115], v)]).keys k = none := fun v => by simp only [sampleDb, List.lookup, beq_false_of_ne h]
      rw [this, this]; trivial
  · intro h
    have := h [115]
    exact absurd (List.Perm.length_eq (this : ([[1], [2]] : List Bytes).Perm [[2], [1], [3]])) (by decide)

end Hop
