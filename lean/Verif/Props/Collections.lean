import Verif.Model.Collections
import Verif.Spec.Collections
import Verif.Props.ClientSet
import Verif.Lemmas.MapSet

/-! # C143: collections given to `set` -/

namespace Hop

open Spec Prog

/-! ## Collecting -/

theorem collectMap_aux (entries : List (Bytes × Bytes)) : ∀ m : BMap, (m.map Prod.fst).Nodup →
    ((entries.foldl (fun (m : BMap) e => BMap.insert m e.1 e.2) m).map Prod.fst).Nodup ∧
    (∀ x, List.lookup x (entries.foldl (fun (m : BMap) e => BMap.insert m e.1 e.2) m) = (entries.reverse.lookup x).or (List.lookup x m)) ∧
    (∀ x, x ∈ (entries.foldl (fun (m : BMap) e => BMap.insert m e.1 e.2) m).map Prod.fst ↔ x ∈ entries.map Prod.fst ∨ x ∈ m.map Prod.fst) := by
  induction entries with
  | nil => intro m h; simp [h]
  | cons e entries ih =>
    intro m h
    obtain ⟨h1, h2, h3⟩ := ih _ (insert_nodup m e.1 e.2 h)
    refine ⟨h1, fun x => ?_, fun x => ?_⟩
    · rw [List.foldl_cons, h2, lookup_insert, List.reverse_cons, List.lookup_append]
      cases hr : entries.reverse.lookup x with
      | some v => simp
      | none =>
        by_cases hx : x = e.1
        · simp [hx, List.lookup]
        · have : (x == e.1) = false := by simpa using hx
          simp [List.lookup, hx, this]
    · rw [List.foldl_cons, h3, insert_keys_mem]
      simp only [List.map_cons, List.mem_cons]
      constructor
      · rintro (h | h | h)
        · exact .inl (.inr h)
        · exact .inl (.inl h)
        · exact .inr h
      · rintro ((h | h) | h)
        · exact .inr (.inl h)
        · exact .inl h
        · exact .inr (.inr h)

theorem collectMap_nodup (entries : List (Bytes × Bytes)) : ((Client.collectMap entries).map Prod.fst).Nodup :=
  (collectMap_aux entries [] (by simp)).1

theorem collectMap_lookup (entries : List (Bytes × Bytes)) (x : Bytes) :
    List.lookup x (Client.collectMap entries) = entries.reverse.lookup x := by
  have := (collectMap_aux entries [] (by simp)).2.1 x
  simpa [Client.collectMap] using this

theorem collectMap_mem (entries : List (Bytes × Bytes)) (x : Bytes) :
    x ∈ (Client.collectMap entries).map Prod.fst ↔ x ∈ entries.map Prod.fst := by
  have := (collectMap_aux entries [] (by simp)).2.2 x
  simpa [Client.collectMap] using this

theorem sum_insert (f : Bytes × Bytes → Nat) (m : BMap) (k v : Bytes) :
    ((m.insert k v).map f).sum ≤ (m.map f).sum + f (k, v) := by
  induction m with
  | nil => simp [BMap.insert]
  | cons e m ih =>
    simp only [BMap.insert]
    split
    · simp; omega
    · have : f (e.1, e.2) = f e := rfl
      simp only [List.map_cons, List.sum_cons]; omega

theorem collectMap_sum (f : Bytes × Bytes → Nat) (entries : List (Bytes × Bytes)) :
    ((Client.collectMap entries).map f).sum ≤ (entries.map f).sum := by
  have : ∀ (entries : List (Bytes × Bytes)) (m : BMap),
      ((entries.foldl (fun (m : BMap) e => BMap.insert m e.1 e.2) m).map f).sum ≤ (m.map f).sum + (entries.map f).sum := by
    intro entries
    induction entries with
    | nil => simp
    | cons e es ih =>
      intro m
      have h1 := ih (m.insert e.1 e.2)
      have h2 := sum_insert f m e.1 e.2
      simp only [List.foldl_cons, List.map_cons, List.sum_cons]
      have : f (e.1, e.2) = f e := rfl
      omega
  simpa [Client.collectMap] using this entries []

theorem collectSet_sum (f : Bytes → Nat) (items : List Bytes) :
    ((Client.collectSet items).map f).sum ≤ (items.map f).sum := by
  have : ∀ (items : List Bytes) (s : BSet), ((items.foldl BSet.insert s).map f).sum ≤ (s.map f).sum + (items.map f).sum := by
    intro items
    induction items with
    | nil => simp
    | cons e es ih =>
      intro s
      have h1 := ih (s.insert e)
      have h2 : ((BSet.insert s e).map f).sum ≤ (s.map f).sum + f e := by
        simp only [BSet.insert]
        split <;> simp
      simp only [List.foldl_cons, List.map_cons, List.sum_cons]
      omega
  simpa [Client.collectSet] using this items []

theorem nodup_subset_length {α} [DecidableEq α] : ∀ (l l' : List α), l.Nodup → (∀ x ∈ l, x ∈ l') → l.length ≤ l'.length
  | [], _, _, _ => by simp
  | a :: l, l', hd, hs => by
    rw [List.nodup_cons] at hd
    have ha := hs a (by simp)
    have h1 := nodup_subset_length l (l'.erase a) hd.2 fun x hx =>
      (List.mem_erase_of_ne (by rintro rfl; exact hd.1 hx)).mpr (hs x (by simp [hx]))
    rw [List.length_erase_of_mem ha] at h1
    have := List.length_pos_of_mem ha
    simp only [List.length_cons]; omega

theorem map_lookup_of_mem {m : BMap} (hd : (m.map Prod.fst).Nodup) {x v : Bytes} (h : (x, v) ∈ m) : List.lookup x m = some v := by
  induction m with
  | nil => simp at h
  | cons e m ih =>
    simp only [List.map_cons, List.nodup_cons] at hd
    simp only [List.mem_cons] at h
    rcases h with rfl | h
    · simp [List.lookup]
    · have hne : x ≠ e.1 := by rintro rfl; exact hd.1 (List.mem_map.mpr ⟨_, h, rfl⟩)
      have : (x == e.1) = false := by simpa using hne
      obtain ⟨a, b⟩ := e
      simp only [List.lookup, this]
      exact ih hd.2 h

theorem map_mem_of_lookup {m : BMap} {x v : Bytes} (h : List.lookup x m = some v) : (x, v) ∈ m := by
  induction m with
  | nil => simp at h
  | cons e m ih =>
    obtain ⟨a, b⟩ := e
    simp only [List.lookup] at h
    split at h
    · rename_i hx
      simp only [Option.some.injEq] at h
      subst h
      have : x = a := by simpa using hx
      simp [this]
    · simp [ih h]

theorem nodup_perm {α} [DecidableEq α] : ∀ (l l' : List α), l.Nodup → l'.Nodup → (∀ x, x ∈ l ↔ x ∈ l') → l.Perm l'
  | [], l', _, _, h => by
    cases l' with
    | nil => exact .refl _
    | cons a l' => exact absurd ((h a).mpr (by simp)) (by simp)
  | a :: l, l', hd, hd', h => by
    rw [List.nodup_cons] at hd
    have ha := (h a).mp (by simp)
    have h1 := nodup_perm l (l'.erase a) hd.2 (hd'.erase a) fun x => by
      rw [hd'.mem_erase_iff]
      constructor
      · exact fun hx => ⟨by rintro rfl; exact hd.1 hx, (h x).mp (by simp [hx])⟩
      · rintro ⟨h1, h2⟩
        have := (h x).mpr h2
        simp only [List.mem_cons] at this
        exact this.resolve_left h1
    exact (h1.cons a).trans (List.perm_cons_erase ha).symm

theorem nodup_of_keys {m : BMap} (h : (m.map Prod.fst).Nodup) : List.Nodup m := by
  induction m with
  | nil => simp
  | cons e m ih =>
    simp only [List.map_cons, List.nodup_cons] at h ⊢
    exact ⟨fun he => h.1 (List.mem_map.mpr ⟨_, he, rfl⟩), ih h.2⟩

/-- Maps without repeated keys are the same if every key has the same value in them. -/
theorem map_perm_iff {m m' : BMap} (h : (m.map Prod.fst).Nodup) (h' : (m'.map Prod.fst).Nodup) :
    m.Perm m' ↔ ∀ x, List.lookup x m = List.lookup x m' := by
  have key : ∀ {a b : BMap}, (a.map Prod.fst).Nodup → (b.map Prod.fst).Nodup → (∀ x, List.lookup x a = List.lookup x b) →
      ∀ e ∈ a, e ∈ b := fun ha hb hl e he => map_mem_of_lookup (by rw [← hl]; exact map_lookup_of_mem ha he)
  constructor
  · intro hp x
    cases hx : List.lookup x m with
    | some v => exact (map_lookup_of_mem h' (hp.mem_iff.mp (map_mem_of_lookup hx))).symm
    | none =>
      cases hy : List.lookup x m' with
      | none => rfl
      | some v =>
        have := map_lookup_of_mem h (hp.mem_iff.mpr (map_mem_of_lookup hy))
        rw [hx] at this; cases this
  · intro hl
    exact nodup_perm _ _ (nodup_of_keys h) (nodup_of_keys h') fun e =>
      ⟨key h h' hl e, key h' h (fun x => (hl x).symm) e⟩

/-! ## C143 -/

theorem mapGiven_iff (entries : List (Bytes × Bytes)) (hw : 3 + (entries.map fun e => 5 + e.1.length + e.2.length).sum < 2 ^ 32) :
    Carried (.map (Client.collectMap entries)) ↔ MapGiven entries := by
  have hs := collectMap_sum (fun e => 5 + e.1.length + e.2.length) entries
  have hm : ∀ e ∈ entries, ∃ e' ∈ Client.collectMap entries, e'.1 = e.1 := fun e he =>
    List.mem_map.mp ((collectMap_mem entries e.1).mpr (List.mem_map.mpr ⟨e, he, rfl⟩))
  have hm' : ∀ e ∈ Client.collectMap entries, ∃ e' ∈ entries, e'.1 = e.1 := fun e he =>
    List.mem_map.mp ((collectMap_mem entries e.1).mp (List.mem_map.mpr ⟨e, he, rfl⟩))
  constructor
  · rintro ⟨h1, h2, h3, -⟩
    refine ⟨by rintro rfl; exact h1 rfl, ⟨(Client.collectMap entries).map Prod.fst, by simpa using h2, fun e he => ?_⟩, fun e he => ?_⟩
    · exact (collectMap_mem entries e.1).mpr (List.mem_map.mpr ⟨e, he, rfl⟩)
    · obtain ⟨e', he', hx⟩ := hm e he
      rw [← hx]; exact h3 e' he'
  · rintro ⟨h1, ⟨ks, h2, h3⟩, h4⟩
    refine ⟨?_, ?_, fun e he => ?_, by omega⟩
    · intro h0
      cases entries with
      | nil => exact h1 rfl
      | cons e es =>
        obtain ⟨e', he', -⟩ := hm e (by simp)
        rw [h0] at he'; simp at he'
    · have := nodup_subset_length _ ks (collectMap_nodup entries) fun x hx => by
        obtain ⟨e, he, rfl⟩ := List.mem_map.mp ((collectMap_mem entries x).mp hx)
        exact h3 e he
      rw [List.length_map] at this
      omega
    · obtain ⟨e', he', hx⟩ := hm' e he
      rw [← hx]; exact h4 e' he'

/-- C143. `set(key).map(entries)` resolves to the map that has, for every key among the entries, the last value it is
given with, exactly if the condition holds; repetitions do not count. -/
theorem C143_map_iff (env : Env) (k : Bytes) (entries : List (Bytes × Bytes)) (db : Db) (hk : k ≠ []) (hr : ¬ reserved k)
    (hw : 3 + (entries.map fun e => 5 + e.1.length + e.2.length).sum < 2 ^ 32) (hc : Roomy 2 db.ctrs) :
    (∃ m db', (Client.setMap env k entries).run db = (.ok (.ok (.map m)), db') ∧ (m.map Prod.fst).Nodup ∧
      ∀ x, List.lookup x m = entries.reverse.lookup x) ↔ MapGiven entries := by
  rw [← mapGiven_iff entries hw]
  have hwf : WF (.map (Client.collectMap entries)) := collectMap_nodup entries
  constructor
  · rintro ⟨m, db', hrun, hd, hl⟩
    have hs := collectMap_sum (fun e => 5 + e.1.length + e.2.length) entries
    refine (C64_set_resolves_iff env k _ db hk hr hwf (by simp only [weight]; omega) hc).mp ?_
    simp only [Client.setMap, Client.setTyped, Client.typed] at hrun
    obtain ⟨u, db1, h1, h2⟩ := run_bind_ok_inv hrun
    have hu : u = .map m ∧ db1 = db' := by
      split at h2
      · simpa [Client.ret, Prog.run] using h2
      · simp [Client.panic, Prog.run] at h2
    obtain ⟨rfl, rfl⟩ := hu
    refine ⟨.map m, db1, ?_, (map_perm_iff hd (collectMap_nodup entries)).mpr fun x => by rw [hl, collectMap_lookup]⟩
    rw [Api.start, run_wrap, h1]
  · intro hv
    obtain ⟨w, db', h1, h2, -⟩ := C66_set env k _ db hk hr hwf hv hc
    cases w <;> simp only [Same, reduceCtorEq] at h2
    rename_i m
    have hd : (m.map Prod.fst).Nodup := ((h2.map Prod.fst).nodup_iff).mpr (collectMap_nodup entries)
    exact ⟨m, db', h1, hd, fun x => by rw [(map_perm_iff hd (collectMap_nodup entries)).mp h2, collectMap_lookup]⟩

/-- C143. Then that map is stored, no other key changes, and `get(key).map()` resolves to it. -/
theorem C143_map_stored (env : Env) (k : Bytes) (entries : List (Bytes × Bytes)) (db : Db) (hk : k ≠ []) (hr : ¬ reserved k)
    (hw : 3 + (entries.map fun e => 5 + e.1.length + e.2.length).sum < 2 ^ 32) (hc : Roomy 2 db.ctrs) (h : MapGiven entries) :
    ∃ r db1 m db2 m', (Client.setMap env k entries).run db = (.ok r, db1) ∧ (∀ k', k' ≠ k → db1.keys k' = db.keys k') ∧
      db1.keys k = some (.map m) ∧ (∀ x, List.lookup x m = entries.reverse.lookup x) ∧
      (Client.getTyped env .map k).run db1 = (.ok (.ok (.map m')), db2) ∧ db2.keys = db1.keys ∧
      (m'.map Prod.fst).Nodup ∧ ∀ x, List.lookup x m' = entries.reverse.lookup x := by
  have hwf : WF (.map (Client.collectMap entries)) := collectMap_nodup entries
  obtain ⟨w, db1, w', db2, h1, h2, ⟨u, h3, h4⟩, h5, h6, h7, h8⟩ :=
    C42_set_get_partial env k _ db hk hr hwf ((mapGiven_iff entries hw).mpr h) hc
  have e1 := typed_ok (t := .map) h1
  have e2 := typed_ok (t := .map) h6
  cases w <;> simp only [Same, reduceCtorEq] at h2
  cases w' <;> simp only [Same, reduceCtorEq] at h7
  cases u <;> simp only [Same, reduceCtorEq] at h4
  rename_i w w' u
  have hd' : (w'.map Prod.fst).Nodup := ((h7.map Prod.fst).nodup_iff).mpr (collectMap_nodup entries)
  have hu : (u.map Prod.fst).Nodup := ((h4.map Prod.fst).nodup_iff).mpr (collectMap_nodup entries)
  exact ⟨_, db1, u, db2, w', e1, h5, h3, fun x => by rw [(map_perm_iff hu (collectMap_nodup entries)).mp h4, collectMap_lookup],
    e2, h8, hd', fun x => by rw [(map_perm_iff hd' (collectMap_nodup entries)).mp h7, collectMap_lookup]⟩

theorem collectSet_mem (items : List Bytes) (x : Bytes) : x ∈ Client.collectSet items ↔ x ∈ items := by
  have := foldl_insert_mem items [] x
  simpa [Client.collectSet] using this

theorem collectSet_nodup (items : List Bytes) : (Client.collectSet items).Nodup := foldl_insert_nodup items [] (by simp)

theorem setGiven_iff (items : List Bytes) (hw : 3 + (items.map fun i => 2 + i.length).sum < 2 ^ 32) :
    Carried (.set (Client.collectSet items)) ↔ SetGiven items := by
  have hs := collectSet_sum (fun i => 2 + i.length) items
  constructor
  · rintro ⟨h1, h2, h3, -⟩
    exact ⟨by rintro rfl; exact h1 rfl, ⟨Client.collectSet items, h2, fun i hi => (collectSet_mem items i).mpr hi⟩,
      fun i hi => h3 i ((collectSet_mem items i).mpr hi)⟩
  · rintro ⟨h1, ⟨ks, h2, h3⟩, h4⟩
    refine ⟨?_, ?_, fun i hi => h4 i ((collectSet_mem items i).mp hi), by omega⟩
    · intro h0
      cases items with
      | nil => exact h1 rfl
      | cons e es =>
        have := (collectSet_mem (e :: es) e).mpr (by simp)
        rw [h0] at this; simp at this
    · have := nodup_subset_length _ ks (collectSet_nodup items) fun x hx => h3 x ((collectSet_mem items x).mp hx)
      omega

/-- C143. `set(key).set(items)` resolves to the items, each once, exactly if the condition holds. -/
theorem C143_set_iff (env : Env) (k : Bytes) (items : List Bytes) (db : Db) (hk : k ≠ []) (hr : ¬ reserved k)
    (hw : 3 + (items.map fun i => 2 + i.length).sum < 2 ^ 32) (hc : Roomy 2 db.ctrs) :
    (∃ l db', (Client.setSet env k items).run db = (.ok (.ok l), db') ∧ l.Nodup ∧ ∀ x, x ∈ l ↔ x ∈ items) ↔
      SetGiven items := by
  rw [← setGiven_iff items hw]
  have hwf : WF (.set (Client.collectSet items)) := collectSet_nodup items
  constructor
  · rintro ⟨l, db', hrun, hd, hl⟩
    have hs := collectSet_sum (fun i => 2 + i.length) items
    refine (C64_set_resolves_iff env k _ db hk hr hwf (by simp only [weight]; omega) hc).mp ?_
    simp only [Client.setSet] at hrun
    obtain ⟨u, db1, h1, h2⟩ := run_bind_ok_inv hrun
    cases u <;> simp only [Client.panic, Prog.run, Prod.mk.injEq, reduceCtorEq, false_and] at h2
    rename_i s
    simp only [Client.ret, Prog.run, Prod.mk.injEq, Outcome.ok.injEq, Except.ok.injEq] at h2
    obtain ⟨rfl, rfl⟩ := h2
    have hp := env.setOrd_perm s
    refine ⟨.set s, db1, ?_, nodup_perm _ _ (hp.nodup_iff.mp hd) (collectSet_nodup items) fun x => ?_⟩
    · rw [Api.start, run_wrap, h1]
    · rw [← hp.mem_iff, hl, collectSet_mem]
  · intro hv
    obtain ⟨w, db1, -, -, h1, h2, -⟩ := C42_set_get_partial env k _ db hk hr hwf hv hc
    cases w <;> simp only [Same, reduceCtorEq] at h2
    rename_i s
    rw [Api.start, run_wrap] at h1
    have hp := env.setOrd_perm s
    refine ⟨env.setOrd s, db1, ?_, hp.nodup_iff.mpr (h2.nodup_iff.mpr (collectSet_nodup items)), fun x => ?_⟩
    · generalize hx : (Client.set env k (.set (Client.collectSet items))).run db = x at h1
      obtain ⟨o, d⟩ := x
      rcases o with ⟨_ | w⟩ | _ | _ | _ <;>
        simp only [Prod.mk.injEq, Outcome.ok.injEq, Except.ok.injEq, Got.value.injEq, reduceCtorEq, false_and] at h1
      obtain ⟨rfl, rfl⟩ := h1
      rw [Client.setSet, run_bind_ok _ _ _ hx]
      rfl
    · rw [hp.mem_iff, h2.mem_iff, collectSet_mem]

/-- C143. Then those items are stored, no other key changes, and `get(key).set()` resolves to them. -/
theorem C143_set_stored (env : Env) (k : Bytes) (items : List Bytes) (db : Db) (hk : k ≠ []) (hr : ¬ reserved k)
    (hw : 3 + (items.map fun i => 2 + i.length).sum < 2 ^ 32) (hc : Roomy 2 db.ctrs) (h : SetGiven items) :
    ∃ r db1 s db2 s', (Client.setSet env k items).run db = (.ok r, db1) ∧ (∀ k', k' ≠ k → db1.keys k' = db.keys k') ∧
      db1.keys k = some (.set s) ∧ (∀ x, x ∈ s ↔ x ∈ items) ∧
      (Client.getTyped env .set k).run db1 = (.ok (.ok (.set s')), db2) ∧ db2.keys = db1.keys ∧
      s'.Nodup ∧ ∀ x, x ∈ s' ↔ x ∈ items := by
  have hwf : WF (.set (Client.collectSet items)) := collectSet_nodup items
  obtain ⟨w, db1, w', db2, h1, h2, ⟨u, h3, h4⟩, h5, h6, h7, h8⟩ :=
    C42_set_get_partial env k _ db hk hr hwf ((setGiven_iff items hw).mpr h) hc
  have e2 := typed_ok (t := .set) h6
  cases w <;> simp only [Same, reduceCtorEq] at h2
  cases w' <;> simp only [Same, reduceCtorEq] at h7
  cases u <;> simp only [Same, reduceCtorEq] at h4
  rename_i w w' u
  rw [Api.start, run_wrap] at h1
  generalize hx : (Client.set env k (.set (Client.collectSet items))).run db = x at h1
  obtain ⟨o, d⟩ := x
  rcases o with ⟨_ | o⟩ | _ | _ | _ <;>
    simp only [Prod.mk.injEq, Outcome.ok.injEq, Except.ok.injEq, Got.value.injEq, reduceCtorEq, false_and] at h1
  obtain ⟨rfl, rfl⟩ := h1
  refine ⟨.ok (env.setOrd w), d, u, db2, w', ?_, h5, h3, fun x => by rw [h4.mem_iff, collectSet_mem], e2, h8,
    h7.nodup_iff.mpr (collectSet_nodup items), fun x => by rw [h7.mem_iff, collectSet_mem]⟩
  rw [Client.setSet, run_bind_ok _ _ _ hx]
  rfl

/-- Beside C143: three entries, two with the same key; three items, two of them the same. -/
example : MapGiven [([1], [2]), ([3], []), ([1], [4])] ∧ SetGiven [[1], [2], [1]] ∧
    ((Client.setMap (sampleEnv .debug) [107] [([1], [2]), ([3], []), ([1], [4])]).run (sampleDb [])).1 =
      .ok (.ok (.map [([1], [4]), ([3], [])])) ∧
    ((Client.setSet (sampleEnv .debug) [107] [[1], [2], [1]]).run (sampleDb [])).1 = .ok (.ok [[2], [1]]) := by
  refine ⟨⟨by simp, ⟨[[1], [3]], by decide, by decide⟩, by decide⟩, ⟨by simp, ⟨[[1], [2]], by decide, by decide⟩, by decide⟩,
    by decide +kernel, by decide +kernel⟩

/-! ## Further concrete cases -/

example : ∃ m db', (Client.setMap (sampleEnv .debug) [107] [([1], [2]), ([3], []), ([1], [4])]).run (sampleDb []) = (.ok (.ok (.map m)), db') ∧
    List.lookup [1] m = some [4] := by
  obtain ⟨m, db', h1, -, h3⟩ := (C143_map_iff (sampleEnv .debug) [107] [([1], [2]), ([3], []), ([1], [4])] (sampleDb []) (by decide) (by decide)
    (by decide) (by intro m; simp [sampleDb])).mpr ⟨by simp, ⟨[[1], [3]], by decide, by decide⟩, by decide⟩
  exact ⟨m, db', h1, (h3 [1]).trans rfl⟩

example : ∃ r db1 m, (Client.setMap (sampleEnv .debug) [107] [([1], [2]), ([3], []), ([1], [4])]).run (sampleDb []) = (.ok r, db1) ∧
    db1.keys [107] = some (.map m) ∧ List.lookup [1] m = some [4] := by
  obtain ⟨r, db1, m, db2, m', h1, -, h2, h3, -⟩ := C143_map_stored (sampleEnv .debug) [107] [([1], [2]), ([3], []), ([1], [4])] (sampleDb []) (by decide)
    (by decide) (by decide) (by intro m; simp [sampleDb]) ⟨by simp, ⟨[[1], [3]], by decide, by decide⟩, by decide⟩
  exact ⟨r, db1, m, h1, h2, (h3 [1]).trans rfl⟩

example : ∃ l db', (Client.setSet (sampleEnv .debug) [107] [[1], [2], [1]]).run (sampleDb []) = (.ok (.ok l), db') ∧ l.Nodup ∧ [2] ∈ l := by
  obtain ⟨l, db', h1, h2, h3⟩ := (C143_set_iff (sampleEnv .debug) [107] [[1], [2], [1]] (sampleDb []) (by decide) (by decide)
    (by decide) (by intro m; simp [sampleDb])).mpr ⟨by simp, ⟨[[1], [2]], by decide, by decide⟩, by decide⟩
  exact ⟨l, db', h1, h2, (h3 [2]).mpr (by decide)⟩

example : ∃ r db1 s, (Client.setSet (sampleEnv .debug) [107] [[1], [2], [1]]).run (sampleDb []) = (.ok r, db1) ∧ db1.keys [107] = some (.set s) ∧ [2] ∈ s := by
  obtain ⟨r, db1, s, db2, s', h1, -, h2, h3, -⟩ := C143_set_stored (sampleEnv .debug) [107] [[1], [2], [1]] (sampleDb []) (by decide)
    (by decide) (by decide) (by intro m; simp [sampleDb]) ⟨by simp, ⟨[[1], [2]], by decide, by decide⟩, by decide⟩
  exact ⟨r, db1, s, h1, h2, (h3 [2]).mpr (by decide)⟩

end Hop
