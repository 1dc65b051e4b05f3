import Verif.Props.Repeat
import Verif.Lemmas.MapSet
import Verif.Lemmas.BuilderValue
import Verif.Props.Local

/-!
# Which values can come to be stored (C192)
-/

namespace Hop

open Prog Spec

/-- The values there can be in a store that began empty: items of lists and sets, and the keys and values in maps, are not
empty; sets are not empty and have at most 254 members, maps at most 127 entries, neither with a repetition. -/
def Spec.Storable : Value → Prop
  | .list l => ∀ x ∈ l, x ≠ []
  | .set s => s ≠ [] ∧ s.Nodup ∧ s.length ≤ 254 ∧ ∀ x ∈ s, x ≠ []
  | .map m => (m.map Prod.fst).Nodup ∧ m.length ≤ 127 ∧ ∀ e ∈ m, e.1 ≠ [] ∧ e.2 ≠ []
  | _ => True

/-- A call of at most 255 arguments, none of them empty. -/
def Spec.Buildable (c : Call) : Prop := c.args.length ≤ 255 ∧ ∀ a ∈ c.args, a ≠ []

/-- Everything stored is as described. -/
private def Holds (s : Store) : Prop := ∀ k v, s k = some v → Storable v

private theorem Holds.put {s : Store} (h : Holds s) (k : Bytes) {o : Option Value} (ho : ∀ v, o = some v → Storable v) : Holds (s.put k o) := by
  intro k' v hv
  by_cases hk : k' = k
  · rw [hk, put_apply_self] at hv; exact ho v hv
  · rw [put_apply_ne _ _ hk] at hv; exact h k' v hv

private theorem Holds.addInteger {s : Store} (h : Holds s) (m : Mode) (k : Bytes) (n : Int) : Holds (addInteger m k n s).2 := by
  simp only [Spec.addInteger]
  split
  · exact h
  · split
    · split
      · exact h.put k (by rintro _ ⟨⟩; trivial)
      · exact h
    · exact h

private theorem Holds.addFloat {s : Store} (h : Holds s) (m : Mode) (k : Bytes) (f : F64 → F64) : Holds (addFloat m f k s).2 := by
  simp only [Spec.addFloat]
  split
  · exact h
  · split
    · exact h.put k (by rintro _ ⟨⟩; trivial)
    · exact h
    · exact h.put k (by rintro _ ⟨⟩; trivial)

private theorem insert_length (m : BMap) (k v : Bytes) : (BMap.insert m k v).length ≤ m.length + 1 := by
  induction m with
  | nil => simp [BMap.insert]
  | cons e m ih =>
    simp only [BMap.insert]
    split <;> simp only [List.length_cons] <;> omega

private theorem insert_mem (m : BMap) (k v : Bytes) : ∀ e ∈ BMap.insert m k v, e = (k, v) ∨ e ∈ m := by
  induction m with
  | nil => simp [BMap.insert]
  | cons e' m ih =>
    intro e he
    simp only [BMap.insert] at he
    split at he
    · rcases List.mem_cons.mp he with h | h
      · exact .inl h
      · exact .inr (List.mem_cons_of_mem _ h)
    · rcases List.mem_cons.mp he with h | h
      · exact .inr (h ▸ List.mem_cons_self ..)
      · exact (ih e h).imp id (List.mem_cons_of_mem _)

private theorem convMapAux_storable (items : List Bytes) (m : BMap) (hi : ∀ x ∈ items, x ≠ []) (hm : ∀ e ∈ m, e.1 ≠ [] ∧ e.2 ≠ []) :
    (convMapAux m items).length ≤ m.length + items.length / 2 ∧ ∀ e ∈ convMapAux m items, e.1 ≠ [] ∧ e.2 ≠ [] := by
  induction m, items using convMapAux.induct with
  | case1 m k v rest ih =>
    rw [convMapAux]
    obtain ⟨h1, h2⟩ := ih (fun x hx => hi x (by simp [hx])) (by
      intro e he
      rcases insert_mem m k v e he with rfl | he
      · exact ⟨hi _ (by simp), hi _ (by simp)⟩
      · exact hm e he)
    have := insert_length m k v
    refine ⟨?_, h2⟩
    simp only [List.length_cons]
    omega
  | case2 m args hn => rw [convMapAux]; exact ⟨by omega, hm⟩; exact hn

private theorem insertAll_length (items : List Bytes) (s : BSet) : (items.foldl BSet.insert s).length ≤ s.length + items.length := by
  induction items generalizing s with
  | nil => simp
  | cons x items ih =>
    refine Nat.le_trans (ih _) ?_
    simp only [BSet.insert, List.length_cons]
    split <;> simp <;> omega

private theorem parseValue_storable {t : KeyType} {items : List Bytes} {v : Value} (h0 : items ≠ []) (hl : items.length ≤ 254)
    (hi : ∀ x ∈ items, x ≠ []) (h : parseValue t items = some v) : Storable v := by
  cases t with
  | list => simp only [parseValue, Option.some.injEq] at h; subst h; exact hi
  | map =>
    simp only [parseValue, Option.some.injEq] at h
    subst h
    obtain ⟨h1, h2⟩ := convMapAux_storable items [] hi (by simp)
    exact ⟨convMapAux_nodup _ _ (by simp), by simp only [convMap]; simp only [List.length_nil] at h1; omega, h2⟩
  | set =>
    simp only [parseValue, Option.some.injEq] at h
    subst h
    refine ⟨?_, foldl_insert_nodup _ _ (by simp), ?_, fun x hx => ?_⟩
    · obtain ⟨x, hx⟩ := List.exists_mem_of_ne_nil _ h0
      exact List.ne_nil_of_mem ((foldl_insert_mem items [] x).mpr (.inr hx))
    · have := insertAll_length items []
      simp only [convSet]
      simp only [List.length_nil] at this
      omega
    · rcases (foldl_insert_mem items [] x).mp hx with h | h
      · simp at h
      · exact hi x h
  | _ =>
    cases items with
    | nil => exact absurd rfl h0
    | cons a items =>
      simp only [parseValue, Option.map_eq_some_iff, Option.ite_none_right_eq_some, Option.some.injEq] at h
      first
        | (subst h; trivial)
        | (obtain ⟨_, -, rfl⟩ := h; trivial)
        | (obtain ⟨-, rfl⟩ := h; trivial)

/-- One call leaves everything as described. -/
private theorem Holds.execute {env : Env} {ctrs : Metric → Option Nat} {c : CommandId} {kt : Option KeyType} {args : List Bytes} {s : Store}
    (h : Holds s) (hl : args.length ≤ 255) (ha : ∀ a ∈ args, a ≠ []) : Holds (execute env ctrs c kt args s).2 := by
  cases c with
  | append =>
    cases args with
    | nil => exact h
    | cons k items =>
      simp only [Spec.execute]
      split
      · exact h
      · rename_i ht
        split
        · exact h
        · split
          · exact h
          · split
            · rename_i v hv
              refine h.put k ?_
              rintro _ ⟨⟩
              have h0 : Storable ((s k).getD (.default (effectiveType kt (s k) .bytes))) := by
                cases hk : s k with
                | some w => exact h k w hk
                | none =>
                  simp only [hk, Option.getD_none] at ht ⊢
                  revert ht
                  generalize effectiveType kt none .bytes = t
                  cases t <;> simp [Value.default, Storable]
              generalize (s k).getD (.default (effectiveType kt (s k) .bytes)) = w at h0 hv
              cases w <;> simp only [appended, Option.some.injEq, reduceCtorEq] at hv <;> subst hv <;> try trivial
              intro x hx
              rcases List.mem_append.mp hx with hx | hx
              · exact h0 x hx
              · exact ha x (List.mem_cons_of_mem _ hx)
            · exact h
  | increment =>
    cases args with
    | nil => exact h
    | cons k items => simp only [Spec.execute]; split <;> first | exact h.addFloat _ _ _ | exact h.addInteger _ _ _
  | decrement =>
    cases args with
    | nil => exact h
    | cons k items => simp only [Spec.execute]; split <;> first | exact h.addFloat _ _ _ | exact h.addInteger _ _ _
  | incrementBy =>
    match args with
    | [] => exact h
    | [_] => exact h
    | k :: a :: items => simp only [Spec.execute]; split <;> first | exact h.addInteger _ _ _ | exact h
  | decrementBy =>
    match args with
    | [] => exact h
    | [_] => exact h
    | k :: a :: items =>
      simp only [Spec.execute]
      split
      · split
        · exact h
        · exact h.addInteger _ _ _
      · exact h
  | delete =>
    cases args with
    | nil => exact h
    | cons k items =>
      simp only [Spec.execute]
      split
      · exact h
      · split
        · exact h
        · exact h.put k (by simp)
  | rename =>
    match args with
    | [] => exact h
    | [_] => exact h
    | a :: b :: items =>
      simp only [Spec.execute]
      split
      · exact h
      · split
        · exact h
        · split
          · exact h
          · exact (h.put a (by simp)).put b fun v hv => h a v hv
  | set =>
    match args, hl, ha with
    | [], _, _ => exact h
    | [_], _, _ => exact h
    | k :: a :: items, hl, ha =>
      simp only [Spec.execute]
      split
      · exact h
      · rename_i v hv
        split
        · exact h.put k (by simp)
        · refine h.put k ?_
          rintro _ ⟨⟩
          exact parseValue_storable (by simp) (by simp at hl ⊢; omega) (fun x hx => ha x (List.mem_cons_of_mem _ hx)) hv
  | _ => rw [execute_reads _ _ _ (by decide)]; exact h

private theorem serveAll_holds {env : Env} {h : List (Request × Bytes)} {cs : List Call} (hs : Sees h cs) (hb : ∀ c ∈ cs, Buildable c)
    (db adb : Db) (hk : db.keys = adb.keys) (hh : Holds db.keys)
    (hd : env.mode = .release ∨ ∀ a ∈ (performAll env cs adb).1, Deliverable env.mode a) : Holds (serveAll env h db).2.keys := by
  induction hs generalizing db adb with
  | nil => exact hh
  | @cons r resp c rs cs hv _ ih =>
    have h1 := keys_once hv resp db adb.ctrs (by
      rcases hd with h | h
      · exact .inl h
      · refine .inr (.inr ?_)
        rw [hk]
        exact h _ (List.mem_cons_self ..))
    have h2 : ((dispatch env r resp).run db).2.keys = (perform env c adb).2.keys := by
      rw [h1, hk]
      simp only [perform]
      by_cases hst : c.cmd = .stats
      · rw [hst, execute_reads _ _ _ (by decide), execute_reads _ _ _ (by decide)]
      · rw [execute_ctrs env _ adb.ctrs hst]
    refine ih (fun c hc => hb c (List.mem_cons_of_mem _ hc)) _ (perform env c adb).2 h2 ?_ ?_
    · rw [h1]
      exact hh.execute (hb c (List.mem_cons_self ..)).1 (hb c (List.mem_cons_self ..)).2
    · exact hd.imp id fun h a ha => h a (List.mem_cons_of_mem _ ha)

/-- **C192, nothing else.** Whatever requests without empty arguments are sent to a store that began empty: every
value in it is as described. (In a debug build: if the answers fit into responses.) -/
theorem C192_only {env : Env} {h : List (Request × Bytes)} {cs : List Call} (hs : Sees h cs) (hb : ∀ c ∈ cs, Buildable c)
    (hd : env.mode = .release ∨ ∀ a ∈ (performAll env cs (sampleDb [])).1, Deliverable env.mode a) (k : Bytes) (v : Value)
    (hk : (serveAll env h (sampleDb [])).2.keys k = some v) : Storable v :=
  serveAll_holds hs hb (sampleDb []) (sampleDb []) rfl (fun _ _ h => by cases h) hd k v hk

/-! ## Every such value can be stored -/

/-- The stores a list of calls leads to. -/
private def stores (env : Env) (cs : List Call) (s : Store) : Store := cs.foldl (fun s c => (execute env (fun _ => none) c.cmd c.kt c.args s).2) s

private def sent (cs : List Call) : List (Request × Bytes) := cs.map fun c => (call c.cmd c.kt c.args, [])

/-- Calls that can be made without minding the size of their answers. -/
private def Fine (env : Env) (c : Call) : Prop :=
  Buildable c ∧ c.cmd ≠ .stats ∧ (c.cmd ≠ .set ∨ env.mode = .release ∨ ∀ s, Deliverable env.mode (execute env (fun _ => none) c.cmd c.kt c.args s).1)

private theorem Fine.views {env : Env} {c : Call} (h : Fine env c) : Views (call c.cmd c.kt c.args) c.cmd c.kt c.args :=
  call_views _ _ _ (.inl h.2.1) h.1.1 h.1.2

private theorem sent_sees {env : Env} {cs : List Call} (h : ∀ c ∈ cs, Fine env c) : Sees (sent cs) cs := by
  induction cs with
  | nil => exact .nil
  | cons c cs ih => exact .cons (h c (List.mem_cons_self ..)).views (ih fun c hc => h c (List.mem_cons_of_mem _ hc))

private theorem sent_stores {env : Env} {cs : List Call} (h : ∀ c ∈ cs, Fine env c) (db : Db) :
    (serveAll env (sent cs) db).2.keys = stores env cs db.keys := by
  induction cs generalizing db with
  | nil => rfl
  | cons c cs ih =>
    have hc := h c (List.mem_cons_self ..)
    refine (ih (fun c hc => h c (List.mem_cons_of_mem _ hc)) _).trans ?_
    rw [keys_once hc.views [] db (fun _ => none) (by
      rcases hc.2.2 with h | h | h
      · exact .inr (.inl h)
      · exact .inl h
      · exact .inr (.inr (h _)))]
    rfl

private def nothing : Store := fun _ => none

/-- Calls that store `v` under `k`. -/
private def storing (k : Bytes) : Value → List Call
  | .bytes b => [⟨.append, some .bytes, k :: if b = [] then [] else [b]⟩]
  | .string t => [⟨.append, some .string, k :: if t = [] then [] else [strBytes t]⟩]
  | .list l => ⟨.append, some .list, [k]⟩ :: l.map fun x => ⟨.append, some .list, [k, x]⟩
  | .boolean b => [⟨.set, some .boolean, [k, [if b then 1 else 0]]⟩]
  | .integer i => [⟨.set, some .integer, [k, i64Bytes i]⟩]
  | .float f => [⟨.set, some .float, [k, f.toBytes]⟩]
  | .map m => [⟨.set, some .map, k :: if m = [] then [[1]] else Builder.flattenPairs m⟩]
  | .set s => [⟨.set, some .set, k :: s⟩]

theorem set_stores {env : Env} {t : KeyType} {k : Bytes} {items : List Bytes} {v : Value} (hu : ¬ unusable env.mode k) (h0 : items ≠ [])
    (hp : parseValue t items = some v) (s : Store) :
    execute env (fun _ => none) .set (some t) (k :: items) s = (.value v, s.put k (some v)) := by
  cases items with
  | nil => exact absurd rfl h0
  | cons a items =>
    simp only [execute, effectiveType]
    rw [hp]
    simp only [if_neg hu]

theorem append_stores {env : Env} {t : KeyType} {k : Bytes} {items : List Bytes} {v w : Value} (hu : ¬ unusable env.mode k)
    (ht : t = .bytes ∨ t = .list ∨ t = .string) {s : Store} (h0 : (s k).getD (.default t) = w) (hw : w.kind = t) (hp : appended w items = some v) :
    (execute env (fun _ => none) .append (some t) (k :: items) s).2 = s.put k (some v) := by
  simp only [execute]
  split
  · rename_i h
    rcases ht with h' | h' | h'
    · exact absurd h' h.1
    · exact absurd h' h.2.1
    · exact absurd h' h.2.2
  · split
    · rename_i h
      exact absurd ((congrArg Value.kind h0).trans hw) h
    · rw [show appended ((s k).getD (.default (effectiveType (some t) (s k) .bytes))) items = some v from by rw [← hp, ← h0]; rfl]

private theorem flattenPairs_mem {m : BMap} (h : ∀ e ∈ m, e.1 ≠ [] ∧ e.2 ≠ []) : ∀ x ∈ Builder.flattenPairs m, x ≠ [] := by
  induction m with
  | nil => simp [Builder.flattenPairs]
  | cons e m ih =>
    obtain ⟨a, b⟩ := e
    intro x hx
    simp only [Builder.flattenPairs, List.mem_cons] at hx
    rcases hx with rfl | rfl | hx
    · exact (h _ (List.mem_cons_self ..)).1
    · exact (h _ (List.mem_cons_self ..)).2
    · exact ih (fun e he => h e (List.mem_cons_of_mem _ he)) x hx

private theorem list_stores {env : Env} {k : Bytes} (hu : ¬ unusable env.mode k) (l acc : List Bytes) (s : Store) :
    stores env (l.map fun x => ⟨.append, some .list, [k, x]⟩) (s.put k (some (.list acc))) = s.put k (some (.list (acc ++ l))) := by
  induction l generalizing acc with
  | nil => simp [stores]
  | cons x l ih =>
    simp only [List.map_cons, stores, List.foldl_cons] at ih ⊢
    rw [append_stores (w := .list acc) (v := .list (acc ++ [x])) hu (.inr (.inl rfl)) (by rw [put_apply_self]; rfl) rfl rfl, put_put, ih]
    simp

private theorem storing_stores {env : Env} {k : Bytes} (hu : ¬ unusable env.mode k) {v : Value} (hv : Storable v) {s0 : Store} (h0 : s0 k = none) :
    stores env (storing k v) s0 = s0.put k (some v) := by
  cases v with
  | bytes b =>
    simp only [storing, stores, List.foldl_cons, List.foldl_nil]
    refine append_stores (w := .bytes []) hu (.inl rfl) (by rw [h0]; rfl) rfl ?_
    by_cases h : b = []
    · simp [h, appended]
    · simp [h, appended]
  | string t =>
    simp only [storing, stores, List.foldl_cons, List.foldl_nil]
    refine append_stores (w := .string []) hu (.inr (.inr rfl)) (by rw [h0]; rfl) rfl ?_
    by_cases h : t = []
    · simp [h, appended]
    · simp [h, appended, fromUtf8_strBytes]
  | list l =>
    simp only [storing, stores, List.foldl_cons]
    rw [append_stores (w := .list []) (v := .list []) hu (.inr (.inl rfl)) (by rw [h0]; rfl) rfl rfl]
    have := list_stores (env := env) hu l [] s0
    simp only [stores, List.nil_append] at this
    exact this
  | boolean b =>
    simp only [storing, stores, List.foldl_cons, List.foldl_nil]
    rw [set_stores (v := .boolean b) hu (by simp) (by cases b <;> rfl)]
  | integer i =>
    simp only [storing, stores, List.foldl_cons, List.foldl_nil]
    have hl : (i64Bytes i).length = 8 := beBytes_length _ _
    rw [set_stores (v := .integer i) hu (by simp) (by
      simp only [parseValue, hl, Nat.le_refl, if_true]; rw [List.take_of_length_le (by omega), i64OfBytes_i64Bytes])]
  | float f =>
    simp only [storing, stores, List.foldl_cons, List.foldl_nil]
    have hl : f.toBytes.length = 8 := beBytes_length _ _
    rw [set_stores (v := .float f) hu (by simp) (by
      simp only [parseValue, hl, Nat.le_refl, if_true]; rw [List.take_of_length_le (by omega), F64.ofBytes_toBytes])]
  | map m =>
    simp only [storing, stores, List.foldl_cons, List.foldl_nil]
    by_cases h : m = []
    · subst h
      rw [if_pos rfl, set_stores (v := .map []) hu (by simp) rfl]
    · rw [if_neg h, set_stores (v := .map m) hu]
      · intro h'
        have := flattenPairs_length m
        rw [h'] at this
        exact h (List.length_eq_zero_iff.mp (by simp at this; omega))
      · simp only [parseValue]; rw [convMap_flattenPairs m hv.1]
  | set s =>
    simp only [storing, stores, List.foldl_cons, List.foldl_nil]
    rw [set_stores (v := .set s) hu hv.1 (by simp only [parseValue]; rw [convSet_of_nodup s hv.2.1])]

/-- Maps and sets are stored by Set, whose answer, in a debug build, has to fit into a response. -/
def Spec.Answerable (m : Mode) (v : Value) : Prop := m = .release ∨ (v.kind = .map ∨ v.kind = .set → Deliverable m (.value v))

private theorem storing_fine {env : Env} {k : Bytes} (hk : k ≠ []) (hu : ¬ unusable env.mode k) {v : Value} (hv : Storable v)
    (hd : Answerable env.mode v) : ∀ c ∈ storing k v, Fine env c := by
  have hset : ∀ (t : KeyType) (items : List Bytes), items ≠ [] → parseValue t items = some v → (∀ x ∈ items, x ≠ []) → items.length ≤ 254 →
      (env.mode = .release ∨ Deliverable env.mode (.value v)) → Fine env ⟨.set, some t, k :: items⟩ := by
    intro t items h0 hp hi hl hd
    refine ⟨⟨by simp only [List.length_cons]; omega, ?_⟩, nofun, .inr ?_⟩
    · intro a ha
      rcases List.mem_cons.mp ha with rfl | ha
      · exact hk
      · exact hi a ha
    · refine hd.imp id fun hd s => ?_
      simp only
      rw [set_stores hu h0 hp]
      exact hd
  have happ : ∀ (t : KeyType) (items : List Bytes), (∀ x ∈ items, x ≠ []) → items.length ≤ 254 → Fine env ⟨.append, some t, k :: items⟩ := by
    intro t items hi hl
    refine ⟨⟨by simp only [List.length_cons]; omega, ?_⟩, nofun, .inl nofun⟩
    intro a ha
    rcases List.mem_cons.mp ha with rfl | ha
    · exact hk
    · exact hi a ha
  cases v with
  | bytes b =>
    intro c hc
    cases List.mem_singleton.mp hc
    refine happ _ _ ?_ ?_ <;> split <;> simp_all
  | string t =>
    intro c hc
    cases List.mem_singleton.mp hc
    refine happ _ _ ?_ ?_
    · split
      · simp
      · rename_i h
        intro x hx
        cases List.mem_singleton.mp hx
        intro h'
        have := fromUtf8_strBytes t
        rw [h', fromUtf8_nil] at this
        cases this
        exact h rfl
    · split <;> simp
  | list l =>
    intro c hc
    rcases List.mem_cons.mp hc with rfl | hc
    · exact happ _ [] (by simp) (by simp)
    · obtain ⟨x, hx, rfl⟩ := List.mem_map.mp hc
      exact happ _ [x] (by intro y hy; cases List.mem_singleton.mp hy; exact hv x hx) (by simp)
  | boolean b =>
    intro c hc
    cases List.mem_singleton.mp hc
    exact hset _ _ (by simp) (by cases b <;> rfl) (by simp) (by simp) (.inr ⟨by simp [body, payload], by intro _ l h; cases h⟩)
  | integer i =>
    intro c hc
    cases List.mem_singleton.mp hc
    have hl : (i64Bytes i).length = 8 := beBytes_length _ _
    exact hset _ _ (by simp) (by
      simp only [parseValue, hl, Nat.le_refl, if_true]; rw [List.take_of_length_le (by omega), i64OfBytes_i64Bytes]) (by
      intro x hx; cases List.mem_singleton.mp hx; intro h; rw [h] at hl; cases hl) (by simp)
      (.inr ⟨by simp [body, payload, beBytes_length], by intro _ l h; cases h⟩)
  | float f =>
    intro c hc
    cases List.mem_singleton.mp hc
    have hl : f.toBytes.length = 8 := beBytes_length _ _
    exact hset _ _ (by simp) (by
      simp only [parseValue, hl, Nat.le_refl, if_true]; rw [List.take_of_length_le (by omega), F64.ofBytes_toBytes]) (by
      intro x hx; cases List.mem_singleton.mp hx; intro h; rw [h] at hl; cases hl) (by simp)
      (.inr ⟨by simp [body, payload, beBytes_length], by intro _ l h; cases h⟩)
  | map m =>
    intro c hc
    cases List.mem_singleton.mp hc
    by_cases h : m = []
    · subst h
      rw [if_pos rfl]
      exact hset _ _ (by simp) rfl (by simp) (by simp) (hd.imp id fun h => h (.inl rfl))
    · rw [if_neg h]
      have hl := flattenPairs_length m
      have := hv.2.1
      refine hset _ _ ?_ (by simp only [parseValue]; rw [convMap_flattenPairs m hv.1]) (flattenPairs_mem hv.2.2) (by omega)
        (hd.imp id fun h => h (.inl rfl))
      intro h'
      rw [h'] at hl
      exact h (List.length_eq_zero_iff.mp (by simp at hl; omega))
  | set s =>
    intro c hc
    cases List.mem_singleton.mp hc
    exact hset _ _ hv.1 (by simp only [parseValue]; rw [convSet_of_nodup s hv.2.1]) hv.2.2.2 hv.2.2.1 (hd.imp id fun h => h (.inr rfl))

/-- **C192, everything.** Every such value can be stored under every key, internal ones included, by requests without empty
arguments. -/
theorem C192_all {env : Env} {v : Value} (hv : Storable v) (hd : Answerable env.mode v) (k : Bytes) (hk : k ≠ []) :
    ∃ h cs, Sees h cs ∧ (∀ c ∈ cs, Buildable c) ∧ (serveAll env h (sampleDb [])).2.keys k = some v := by
  by_cases hu : unusable env.mode k
  · have hu' : ¬ unusable env.mode [1] := by
      rintro (h | h)
      · revert h; decide
      · exact absurd h.2 (by simp)
    have hne : [1] ≠ k := by rintro rfl; exact hu' hu
    have hf : ∀ c ∈ storing [1] v ++ [⟨.rename, none, [[1], k]⟩], Fine env c := by
      intro c hc
      rcases List.mem_append.mp hc with hc | hc
      · exact storing_fine (by simp) hu' hv hd c hc
      · cases List.mem_singleton.mp hc
        exact ⟨⟨by simp, by simp [hk]⟩, nofun, .inl nofun⟩
    refine ⟨sent _, _, sent_sees hf, fun c hc => (hf c hc).1, ?_⟩
    rw [sent_stores hf]
    have h1 := storing_stores (env := env) hu' hv (s0 := nothing) rfl
    unfold stores at h1 ⊢
    rw [List.foldl_append, show (sampleDb []).keys = nothing from rfl, h1]
    simp only [List.foldl_cons, List.foldl_nil, execute]
    rw [put_apply_self, put_apply_ne _ _ hne.symm]
    simp [nothing, put_apply_self]
  · have hf := storing_fine hk hu hv hd
    refine ⟨sent _, _, sent_sees hf, fun c hc => (hf c hc).1, ?_⟩
    rw [sent_stores hf, show (sampleDb []).keys = nothing from rfl, storing_stores hu hv rfl, put_apply_self]

/-- **C192.** In a release build: the values there can be, under any key that is not empty, are exactly these. -/
theorem C192_exactly {env : Env} (hm : env.mode = .release) (k : Bytes) (hk : k ≠ []) (v : Value) :
    (∃ h cs, Sees h cs ∧ (∀ c ∈ cs, Buildable c) ∧ (serveAll env h (sampleDb [])).2.keys k = some v) ↔ Storable v :=
  ⟨fun ⟨_, _, hs, hb, h⟩ => C192_only hs hb (.inl hm) k v h, fun h => C192_all h (.inl hm) k hk⟩

/-! ## Whole stores -/

/-- The stores there can be: finitely many keys, none of them empty, with values as described. -/
structure Spec.Reached (s : Store) : Prop where
  finite : ∃ l : List Bytes, ∀ k, k ∉ l → s k = none
  keys : s [] = none
  values : ∀ k v, s k = some v → Storable v

private theorem serveAll_support {env : Env} {h : List (Request × Bytes)} {cs : List Call} (hs : Sees h cs) (hb : ∀ c ∈ cs, Buildable c) (db : Db) :
    (∃ l : List Bytes, ∀ k, k ∉ l → (serveAll env h db).2.keys k = db.keys k) ∧ (serveAll env h db).2.keys [] = db.keys [] := by
  induction hs generalizing db with
  | nil => exact ⟨⟨[], fun _ _ => rfl⟩, rfl⟩
  | @cons r resp c rs cs hv _ ih =>
    obtain ⟨⟨l, h1⟩, h2⟩ := ih (fun c hc => hb c (List.mem_cons_of_mem _ hc)) ((dispatch env r resp).run db).2
    have hw : ∀ k, k ∉ c.args → ((dispatch env r resp).run db).2.keys k = db.keys k := fun k hk =>
      (bystander_writes (env := env) (K := (· ∉ c.args)) hv (fun k hk => .inr
        ⟨fun h => hk (List.mem_of_getElem? h), fun _ h => hk (List.mem_of_getElem? h)⟩) resp).run db k (not_not_intro hk)
    refine ⟨⟨l ++ c.args, fun k hk => ?_⟩, ?_⟩
    · rw [List.mem_append, not_or] at hk
      exact (h1 k hk.1).trans (hw k hk.2)
    · exact h2.trans (hw [] fun h => (hb c (List.mem_cons_self ..)).2 [] h rfl)

/-- **C192, no other stores.** -/
theorem C192_only_stores {env : Env} {h : List (Request × Bytes)} {cs : List Call} (hs : Sees h cs) (hb : ∀ c ∈ cs, Buildable c)
    (hd : env.mode = .release ∨ ∀ a ∈ (performAll env cs (sampleDb [])).1, Deliverable env.mode a) :
    Reached (serveAll env h (sampleDb [])).2.keys := by
  obtain ⟨⟨l, h1⟩, h2⟩ := serveAll_support (env := env) hs hb (sampleDb [])
  exact ⟨⟨l, h1⟩, h2, C192_only hs hb hd⟩

/-- Storing under a key in use for nothing, then renaming. -/
private theorem stores_renamed {env : Env} {j k : Bytes} (hu : ¬ unusable env.mode j) {v : Value} (hv : Storable v) {s : Store} (hj : s j = none)
    (hk : s k = none) (hne : j ≠ k) : stores env (storing j v ++ [⟨.rename, none, [j, k]⟩]) s = s.put k (some v) := by
  have h1 := storing_stores (env := env) hu hv hj
  unfold stores at h1 ⊢
  rw [List.foldl_append, h1]
  simp only [List.foldl_cons, List.foldl_nil, execute]
  rw [put_apply_self, put_apply_ne _ _ hne.symm, hk]
  simp only [Option.isSome_none, Option.isNone_some, Bool.false_eq_true, if_false, put_put]
  congr 1
  funext x
  by_cases hx : x = j
  · rw [hx, put_apply_self, hj]
  · rw [put_apply_ne _ _ hx]

/-- A store with only the given keys. -/
private def only (s : Store) (l : List Bytes) : Store := fun k => if k ∈ l then s k else none

private theorem builds {env : Env} {s : Store} (hr : Reached s) (hd : ∀ k v, s k = some v → Answerable env.mode v) {j : Bytes}
    (hu : ¬ unusable env.mode j) (hj0 : j ≠ []) : ∀ l : List Bytes, j ∉ l → ∃ cs, (∀ c ∈ cs, Fine env c) ∧ stores env cs nothing = only s l
  | [], _ => ⟨[], by simp, by funext k; simp [stores, nothing, only]⟩
  | k :: l, hj => by
    obtain ⟨cs, h1, h2⟩ := builds hr hd hu hj0 l fun h => hj (List.mem_cons_of_mem _ h)
    have same : k ∈ l ∨ s k = none → only s (k :: l) = only s l := by
      intro h
      funext x
      simp only [only, List.mem_cons]
      by_cases hx : x = k
      · subst hx
        rcases h with h | h <;> simp [h]
      · simp [hx]
    by_cases hkl : k ∈ l
    · exact ⟨cs, h1, by rw [h2, same (.inl hkl)]⟩
    · cases hv : s k with
      | none => exact ⟨cs, h1, by rw [h2, same (.inr hv)]⟩
      | some v =>
        have hne : j ≠ k := fun h => hj (h ▸ List.mem_cons_self ..)
        refine ⟨cs ++ (storing j v ++ [⟨.rename, none, [j, k]⟩]), ?_, ?_⟩
        · intro c hc
          rcases List.mem_append.mp hc with hc | hc
          · exact h1 c hc
          · rcases List.mem_append.mp hc with hc | hc
            · exact storing_fine hj0 hu (hr.values k v hv) (hd k v hv) c hc
            · cases List.mem_singleton.mp hc
              refine ⟨⟨by simp, ?_⟩, nofun, .inl nofun⟩
              have hk0 : k ≠ [] := by rintro rfl; rw [hr.keys] at hv; cases hv
              simp [hj0, hk0]
        · have h3 := stores_renamed (env := env) (s := only s l) hu (hr.values k v hv) (if_neg fun h => hj (List.mem_cons_of_mem _ h))
            (if_neg hkl) hne
          rw [show stores env (cs ++ _) nothing = stores env _ (stores env cs nothing) from List.foldl_append .., h2, h3]
          funext x
          by_cases hx : x = k
          · rw [hx, put_apply_self]; simp [only, hv]
          · rw [put_apply_ne _ _ hx]; simp [only, hx]

theorem unlike (l : List Bytes) : ∃ n, ∀ k ∈ l, k.length < n := by
  induction l with
  | nil => exact ⟨0, by simp⟩
  | cons k l ih =>
    obtain ⟨n, h⟩ := ih
    refine ⟨n + k.length + 1, fun x hx => ?_⟩
    rcases List.mem_cons.mp hx with rfl | hx
    · omega
    · have := h x hx; omega

/-- **C192, all of these stores.** Every store of finitely many such values can be built up from nothing, by requests without empty
arguments. -/
theorem C192_rebuild {env : Env} {s : Store} (hr : Reached s) (hd : ∀ k v, s k = some v → Answerable env.mode v) :
    ∃ h cs, Sees h cs ∧ (∀ c ∈ cs, Buildable c) ∧ (serveAll env h (sampleDb [])).2.keys = s := by
  obtain ⟨l, hl⟩ := hr.finite
  obtain ⟨n, hn⟩ := unlike l
  have hj : ¬ unusable env.mode (1 :: List.replicate n 1) := by
    rintro (h | h)
    · have := congrArg List.head? h
      rw [show (List.head? (ascii "__hop__:")) = some 95 from by decide] at this
      simp at this
    · exact absurd h.2 (by simp)
  obtain ⟨cs, h1, h2⟩ := builds (env := env) hr hd hj (by simp) l fun h => absurd (hn _ h) (by simp)
  refine ⟨sent cs, cs, sent_sees h1, fun c hc => (h1 c hc).1, ?_⟩
  rw [sent_stores h1, show (sampleDb []).keys = nothing from rfl, h2]
  funext k
  simp only [only]
  split
  · rfl
  · rename_i h; exact (hl k h).symm

/-- **C192, stores.** In a release build the stores that can be reached from the empty one are exactly these. -/
theorem C192_stores {env : Env} (hm : env.mode = .release) (s : Store) :
    (∃ h cs, Sees h cs ∧ (∀ c ∈ cs, Buildable c) ∧ (serveAll env h (sampleDb [])).2.keys = s) ↔ Reached s :=
  ⟨fun ⟨_, _, hs, hb, h⟩ => h ▸ C192_only_stores hs hb (.inl hm), fun h => C192_rebuild h fun _ _ _ => .inl hm⟩

/-! ## From any store to any other (C196) -/

/-- Deleting keys one after the other. -/
private def deleting (l : List Bytes) : List Call := l.map fun k => ⟨.delete, none, [k]⟩

private theorem deleting_stores (env : Env) (l : List Bytes) (s : Store) :
    stores env (deleting l) s = fun k => if k ∈ l then none else s k := by
  induction l generalizing s with
  | nil => funext k; simp [deleting, stores]
  | cons a l ih =>
    have h : (execute env (fun _ => none) .delete none [a] s).2 = s.put a none := by
      simp only [execute]
      cases ha : s a with
      | some v => simp
      | none => simp [← ha, put_same]
    show stores env (deleting l) (execute env (fun _ => none) .delete none [a] s).2 = _
    rw [h, ih]
    funext k
    simp only [Store.put, List.mem_cons]
    by_cases h1 : k = a <;> by_cases h2 : k ∈ l <;> simp [h1, h2]

/-- **C196.** From every store of finitely many keys, none of them empty, one comes to every store of C192 by requests without empty
arguments: there are no dead ends, and nothing that cannot be made undone. -/
theorem C196_anywhere {env : Env} {s : Store} (hr : Reached s) (hd : ∀ k v, s k = some v → Answerable env.mode v) {db : Db}
    (hf : ∃ l : List Bytes, ∀ k, k ∉ l → db.keys k = none) (h0 : db.keys [] = none) :
    ∃ h cs, Sees h cs ∧ (∀ c ∈ cs, Buildable c) ∧ (serveAll env h db).2.keys = s := by
  obtain ⟨l, hl⟩ := hr.finite
  obtain ⟨n, hn⟩ := unlike l
  have hj : ¬ unusable env.mode (1 :: List.replicate n 1) := by
    rintro (h | h)
    · have := congrArg List.head? h
      rw [show (List.head? (ascii "__hop__:")) = some 95 from by decide] at this
      simp at this
    · exact absurd h.2 (by simp)
  obtain ⟨cs, h1, h2⟩ := builds (env := env) hr hd hj (by simp) l fun h => absurd (hn _ h) (by simp)
  obtain ⟨ks, hks⟩ := hf
  have hdel : ∀ c ∈ deleting (ks.filter (· ≠ [])), Fine env c := by
    intro c hc
    obtain ⟨k, hk, rfl⟩ := List.mem_map.mp hc
    refine ⟨⟨by simp, ?_⟩, nofun, .inl nofun⟩
    simpa using (List.mem_filter.mp hk).2
  have hall : ∀ c ∈ deleting (ks.filter (· ≠ [])) ++ cs, Fine env c := by
    intro c hc
    rcases List.mem_append.mp hc with hc | hc
    · exact hdel c hc
    · exact h1 c hc
  have clear : stores env (deleting (ks.filter (· ≠ []))) db.keys = nothing := by
    rw [deleting_stores]
    funext k
    simp only [nothing, List.mem_filter]
    split
    · rfl
    · rename_i h
      by_cases hk : k = []
      · rw [hk, h0]
      · exact hks k fun hm => h ⟨hm, by simpa using hk⟩
  refine ⟨sent _, _, sent_sees hall, fun c hc => (hall c hc).1, ?_⟩
  rw [sent_stores hall]
  rw [show stores env (deleting _ ++ cs) db.keys = stores env cs (stores env (deleting _) db.keys) from List.foldl_append .., clear, h2]
  funext k
  simp only [only]
  split
  · rfl
  · rename_i h; exact (hl k h).symm

private theorem serveAll_after (env : Env) (h h' : List (Request × Bytes)) (db : Db) :
    (serveAll env (h ++ h') db).2 = (serveAll env h' (serveAll env h db).2).2 := by
  induction h generalizing db with
  | nil => rfl
  | cons r h ih => exact ih _

/-- **C196, undone.** Whatever requests have been served, there are further ones after which the keys hold what they held before. -/
theorem C196_undo {env : Env} {db : Db} (hr : Reached db.keys) (hd : ∀ k v, db.keys k = some v → Answerable env.mode v)
    {h : List (Request × Bytes)} {cs : List Call} (hs : Sees h cs) (hb : ∀ c ∈ cs, Buildable c) :
    ∃ h' cs', Sees h' cs' ∧ (∀ c ∈ cs', Buildable c) ∧ (serveAll env (h ++ h') db).2.keys = db.keys := by
  obtain ⟨⟨l, h1⟩, h2⟩ := serveAll_support (env := env) hs hb db
  obtain ⟨l', hl'⟩ := hr.finite
  obtain ⟨h', cs', a, b, c⟩ := C196_anywhere (env := env) hr hd (db := (serveAll env h db).2)
    ⟨l ++ l', fun k hk => by
      rw [List.mem_append, not_or] at hk
      rw [h1 k hk.1, hl' k hk.2]⟩ (by rw [h2, hr.keys])
  exact ⟨h', cs', a, b, by rw [serveAll_after, c]⟩

/-! ## Concrete cases -/

/-- A key that was renamed and appended to. -/
example : Storable (.list [[1], [2], [3]]) :=
  C192_only (env := sampleEnv .release) (k := [108]) (cs := [⟨.set, some .list, [[107], [1], [2]]⟩, ⟨.rename, none, [[107], [108]]⟩, ⟨.append, none, [[108], [3]]⟩])
    (.cons (resp := []) (call_views .set (some .list) [[107], [1], [2]] (by decide) (by decide) (by decide))
      (.cons (resp := []) (call_views .rename none [[107], [108]] (by decide) (by decide) (by decide))
        (.cons (resp := []) (call_views .append none [[108], [3]] (by decide) (by decide) (by decide)) .nil)))
    (by intro c hc; simp only [List.mem_cons, List.not_mem_nil, or_false] at hc; rcases hc with rfl | rfl | rfl <;> exact ⟨by decide, by decide⟩)
    (.inl rfl) _ (by decide +kernel)

/-- No empty set, no set of 255 members and no list with an empty item. -/
example : ¬ Storable (.set []) ∧ ¬ Storable (.set ((List.range 255).map fun n => [UInt8.ofNat n])) ∧ ¬ Storable (.list [[1], []]) := by
  refine ⟨fun h => h.1 rfl, fun h => absurd h.2.2.1 (by simp), fun h => h [] (by simp) rfl⟩

/-- A list of a thousand items can be stored in a debug build, even under an internal key. -/
example : ∃ h cs, Sees h cs ∧ (∀ c ∈ cs, Buildable c) ∧
    (serveAll (sampleEnv .debug) h (sampleDb [])).2.keys (ascii "__hop__:a") = some (.list (List.replicate 1000 [7])) :=
  C192_all (v := .list (List.replicate 1000 [7])) (fun x hx => by rw [(List.mem_replicate.mp hx).2]; simp) (.inr (by rintro (h | h) <;> cases h)) _
    (by decide)

/-- An empty map can be stored, an empty set cannot. -/
example : (∃ h cs, Sees h cs ∧ (∀ c ∈ cs, Buildable c) ∧ (serveAll (sampleEnv .release) h (sampleDb [])).2.keys [107] = some (.map [])) ∧
    ¬ ∃ h cs, Sees h cs ∧ (∀ c ∈ cs, Buildable c) ∧ (serveAll (sampleEnv .release) h (sampleDb [])).2.keys [107] = some (.set []) := by
  rw [C192_exactly rfl [107] (by simp), C192_exactly rfl [107] (by simp)]
  exact ⟨⟨by simp, by simp, by simp⟩, fun h => h.1 rfl⟩

/-- A store with a set, a counter and an internal key. -/
example : ∃ h cs, Sees h cs ∧ (∀ c ∈ cs, Buildable c) ∧ (serveAll (sampleEnv .debug) h (sampleDb [])).2.keys =
    (sampleDb [([107], .set [[1], [2]]), ([108], .integer 5), (ascii "__hop__:a", .boolean true)]).keys := by
  have hv : ∀ k v, (sampleDb [([107], .set [[1], [2]]), ([108], .integer 5), (ascii "__hop__:a", .boolean true)]).keys k = some v →
      v = .set [[1], [2]] ∨ v = .integer 5 ∨ v = .boolean true := by
    intro k v h
    simp only [sampleDb, List.lookup] at h
    repeat' split at h
    all_goals simp_all
  refine C192_rebuild ⟨⟨[[107], [108], ascii "__hop__:a"], fun k hk => ?_⟩, by decide, fun k v h => ?_⟩ fun k v h => ?_
  · simp only [List.mem_cons, List.not_mem_nil, or_false, not_or] at hk
    simp only [sampleDb, List.lookup]
    rw [beq_false_of_ne hk.1, beq_false_of_ne hk.2.1, beq_false_of_ne hk.2.2]
  · rcases hv k v h with rfl | rfl | rfl
    · exact ⟨by simp, by decide, by decide, by decide⟩
    · trivial
    · trivial
  · rcases hv k v h with rfl | rfl | rfl
    · exact .inr fun _ => ⟨by decide +kernel, by intro _ l h; cases h⟩
    · exact .inr (by rintro (h | h) <;> cases h)
    · exact .inr (by rintro (h | h) <;> cases h)

/-- No store with infinitely many keys. -/
example : ¬ ∃ h cs, Sees h cs ∧ (∀ c ∈ cs, Buildable c) ∧ (serveAll (sampleEnv .release) h (sampleDb [])).2.keys = fun k =>
    if k = [] then none else some (.integer 0) := by
  rw [C192_stores rfl]
  rintro ⟨⟨l, h⟩, -, -⟩
  obtain ⟨n, hn⟩ := unlike l
  have := h (1 :: List.replicate n 1) fun hm => absurd (hn _ hm) (by simp)
  simp at this

/-- After three requests. -/
example : Reached (serveAll (sampleEnv .release) [(call .set (some .list) [[107], [1], [2]], []), (call .rename none [[107], [108]], [])]
    (sampleDb [])).2.keys :=
  C192_only_stores (cs := [⟨.set, some .list, [[107], [1], [2]]⟩, ⟨.rename, none, [[107], [108]]⟩])
    (.cons (call_views _ _ _ (by decide) (by decide) (by decide)) (.cons (call_views _ _ _ (by decide) (by decide) (by decide)) .nil))
    (by intro c hc; simp only [List.mem_cons, List.not_mem_nil, or_false] at hc; rcases hc with rfl | rfl <;> exact ⟨by decide, by decide⟩)
    (.inl rfl)

/-- An integer that was overwritten comes back. -/
example : ∃ h' cs', Sees h' cs' ∧ (∀ c ∈ cs', Buildable c) ∧
    (serveAll (sampleEnv .debug) ([(call .set (some .bytes) [[107], [1]], [])] ++ h') (sampleDb [([107], .integer 5)])).2.keys =
      (sampleDb [([107], .integer 5)]).keys := by
  have hv : ∀ k v, (sampleDb [([107], .integer 5)]).keys k = some v → v = .integer 5 := by
    intro k v h
    simp only [sampleDb, List.lookup] at h
    split at h <;> simp_all
  refine C196_undo (cs := [⟨.set, some .bytes, [[107], [1]]⟩]) ⟨⟨[[107]], fun k hk => ?_⟩, by decide, fun k v h => ?_⟩ (fun k v h => ?_)
    (.cons (call_views _ _ _ (by decide) (by decide) (by decide)) .nil) ?_
  · simp only [sampleDb, List.lookup]
    rw [beq_false_of_ne (by simpa using hk)]
  · cases hv k v h; trivial
  · cases hv k v h
    exact .inr (by rintro (h | h) <;> cases h)
  · intro c hc
    cases List.mem_singleton.mp hc
    exact ⟨by decide, by decide⟩

end Hop
