import Verif.Lemmas.Local

/-! # What agents see of one key that the others leave alone -/

namespace Hop

open Spec Prog

variable {α β : Type}

/-- Values of a key while things are done one after the other. -/
theorem acted_values {k : Bytes} {act : α → Prog β} {P : α → Prop} {V : Nat → Value → Prop}
    {T : α → Value → Outcome DispatchError β → Value → Prop} (hP1 : ∀ x, P x → Counts (act x))
    (hstep : ∀ x n db v, P x → Roomy 1 db.ctrs → db.keys k = some v → V (n + 1) v →
      ∃ w, ((act x).run db).2.keys k = some w ∧ V n w ∧ T x v ((act x).run db).1 w)
    (l : List α) (hP : ∀ x ∈ l, P x) (n : Nat) (hn : l.length ≤ n) (db : Db) (v : Value)
    (hk : db.keys k = some v) (hV : V n v) (hc : Roomy n db.ctrs) :
    ∃ vals : Nat → Value, (∀ m, m ≤ l.length → (actAll act (l.take m) db).2.keys k = some (vals m)) ∧
      ∀ (m : Nat) x o, l[m]? = some x → (actAll act l db).1[m]? = some o → T x (vals m) o (vals (m + 1)) := by
  induction l generalizing n db v with
  | nil => exact ⟨fun _ => v, fun m hm => by simpa [actAll] using hk, fun m x o hx => by simp at hx⟩
  | cons y l ih =>
    obtain ⟨n, rfl⟩ : ∃ n', n = n' + 1 := ⟨n - 1, by simp only [List.length_cons] at hn; omega⟩
    obtain ⟨w, h1, h2, h3⟩ := hstep y n db v (hP _ (by simp)) (Roomy.mono hc (by omega)) hk hV
    obtain ⟨vals, g1, g2⟩ := ih (fun x hx => hP x (by simp [hx])) n (by simpa using hn) _ w h1 h2 ((hP1 _ (hP _ (by simp))).run_roomy db n hc)
    refine ⟨fun m => match m with | 0 => v | m + 1 => vals m, fun m hm => ?_, fun m x o hx ho => ?_⟩
    · match m with
      | 0 => simpa [actAll] using hk
      | m + 1 =>
        simp only [List.take_succ_cons, actAll]
        exact g1 m (by simpa using hm)
    · match m with
      | 0 =>
        simp only [List.getElem?_cons_zero, Option.some.injEq, actAll] at hx ho
        subst hx ho
        have : vals 0 = w := by
          have := g1 0 (by omega)
          simp only [List.take_zero, actAll] at this
          exact Option.some.inj (this.symm.trans h1)
        simp only [this]
        exact h3
      | m + 1 =>
        simp only [List.getElem?_cons_succ, actAll] at hx ho
        exact g2 m x o hx ho

theorem ledger_sorted (mine : α → Bool) (c : Agent α β) (got : List (Outcome DispatchError β)) :
    (ledger mine c got).Pairwise (fun e e' => e.1.1 < e'.1.1) := by
  have key : ∀ (j : Nat) (b : (Nat × α) × Outcome DispatchError β), (match c (got.take j), got[j]? with
      | some x, some o => if mine x then some ((j, x), o) else none
      | _, _ => none) = some b → b.1.1 = j := by
    intro j b h
    cases h1 : c (got.take j) with
    | none => rw [h1] at h; cases h
    | some y =>
      cases h2 : got[j]? with
      | none => rw [h1, h2] at h; cases h
      | some o' =>
        rw [h1, h2] at h
        simp only at h
        split at h
        · cases h; rfl
        · cases h
  unfold ledger
  rw [List.pairwise_filterMap]
  refine List.Pairwise.imp ?_ List.pairwise_lt_range
  intro a a' hlt b hb b' hb'
  rw [key a b hb, key a' b' hb']
  exact hlt

theorem actAll_length (act : α → Prog β) (l : List α) (db : Db) : (actAll act l db).1.length = l.length := by
  induction l generalizing db with
  | nil => rfl
  | cons x l ih => simp [actAll, ih]

/-- The entries of a book without who did them. -/
def doings (b : List (Nat × Nat × α)) : List α := b.map fun e => e.2.2

/-- The entries of a book with outcomes. -/
def noted (b : List (Nat × Nat × α)) (outs : List (Outcome DispatchError β)) : List (Nat × (Nat × α) × Outcome DispatchError β) :=
  List.zipWith (fun e o => (e.1, e.2, o)) b outs

/-- What the agent did when it had received `j` outcomes, and what came of it. -/
def Agent.AtTurn (c : Agent α β) (got : List (Outcome DispatchError β)) (j : Nat) (x : α) (o : Outcome DispatchError β) : Prop :=
  c (got.take j) = some x ∧ got[j]? = some o

theorem ledger_mem' {mine : α → Bool} {c : Agent α β} {got : List (Outcome DispatchError β)} {j : Nat} {x : α} {o : Outcome DispatchError β} :
    ((j, x), o) ∈ ledger mine c got ↔ c.AtTurn got j x o ∧ mine x = true := by
  rw [ledger_mem, Agent.AtTurn, and_assoc]

theorem noted_getElem {b : List (Nat × Nat × α)} {outs : List (Outcome DispatchError β)} {p : Nat}
    {e : Nat × (Nat × α) × Outcome DispatchError β} :
    (noted b outs)[p]? = some e ↔ b[p]? = some (e.1, e.2.1) ∧ outs[p]? = some e.2.2 := by
  obtain ⟨i, y, o⟩ := e
  simp only [noted, List.getElem?_zipWith]
  cases b[p]? <;> cases outs[p]? <;> simp
  rename_i a o'
  obtain ⟨i', y'⟩ := a
  simp [and_assoc]

theorem mem_chosen {α} {i : Nat} {l : List (Nat × α)} {a : α} : a ∈ chosen i l ↔ (i, a) ∈ l := by
  simp only [chosen, List.mem_filterMap]
  constructor
  · rintro ⟨⟨i', a'⟩, h1, h2⟩
    simp only at h2
    split at h2
    · cases h2; subst_vars; exact h1
    · cases h2
  · intro h
    exact ⟨_, h, by simp⟩

/-- What agents see of a key that the others leave alone: `T` relates a marked doing, the value before it, its outcome and
the value after it, and `R` orders the values. -/
theorem agents_shown {k : Bytes} {act : α → Prog β} {cs : List (Agent α β × Nat)} {Inv : Store → Prop} (mine : α → Bool)
    (hsing : ∀ c ∈ cs, ∀ x, Agent.Picks c.1 x → mine x = true →
      Single Inv (fun p => ∃ r, Ends r p) 1 (act x) ∧ Touches (· = k) (act x))
    (hoth : ∀ c ∈ cs, ∀ x, Agent.Picks c.1 x → mine x = false → Writes (fun k' => ¬ k' = k) (act x))
    (hcnt : ∀ c ∈ cs, ∀ x, Agent.Picks c.1 x → Counts (act x)) (hagree : ∀ s s', s k = s' k → Inv s → Inv s')
    (db : Db) (v0 : Value) (hk : db.keys k = some v0) (hinv : Inv db.keys) (hc : Roomy (cs.map (·.2)).sum db.ctrs)
    {V : Nat → Value → Prop} {T : α → Value → Outcome DispatchError β → Value → Prop}
    {R : Value → Value → Prop} (hrefl : ∀ v, R v v) (htrans : ∀ u v w, R u v → R v w → R u w)
    (hV : V (cs.map (·.2)).sum v0)
    (hstep : ∀ x n db v, (∃ c ∈ cs, Agent.Picks c.1 x) → mine x = true → Roomy 1 db.ctrs → db.keys k = some v → V (n + 1) v →
      ∃ w, ((act x).run db).2.keys k = some w ∧ V n w ∧ T x v ((act x).run db).1 w)
    (hT : ∀ x v o w, T x v o w → R v w) :
    ∃ (got : List Nat → Nat → List (Outcome DispatchError β)) (stored : List Nat → Value)
      (pre post : List Nat → Nat → Nat → Value),
      (∀ s s' i, got s i <+: got (s ++ s') i) ∧ ∀ s,
      (∀ (i : Nat) c t, cs[i]? = some c → ((Agents.pool act cs db).exec s).threads[i]? = some t → Agent.Amid act c.1 c.2 (got s i) t) ∧
      ((Agents.pool act cs db).exec s).db.keys k = some (stored s) ∧ R v0 (stored s) ∧
      ∀ (i : Nat) c (j : Nat) x o, cs[i]? = some c → Agent.AtTurn c.1 (got s i) j x o → mine x = true →
        T x (pre s i j) o (post s i j) ∧ R v0 (pre s i j) ∧ R (post s i j) (stored s) ∧
        (∀ s1 s2, s = s1 ++ s2 → (got s1 i).length < j → R (stored s1) (pre s i j)) ∧
        ∀ (i' : Nat) c' (j' : Nat) x' o', cs[i']? = some c' → Agent.AtTurn c'.1 (got s i') j' x' o' → mine x' = true →
          (i = i' → j < j' → R (post s i j) (pre s i' j')) ∧
          ((i, j) ≠ (i', j') → R (post s i j) (pre s i' j') ∨ R (post s i' j') (pre s i j)) := by
  obtain ⟨book, got, h1, h2, h3⟩ := agents_book (act := act) (cs := cs) (Inv := Inv) (· = k) mine hsing hoth hcnt
    (fun s s' h => hagree s s' (h k rfl)) db hinv hc
  have hserve : ∀ s, ∃ vals : Nat → Value,
      (∀ m, m ≤ (book s).length → (actAll act ((doings (book s)).take m) db).2.keys k = some (vals m)) ∧
      ∀ (m : Nat) x o, (doings (book s))[m]? = some x → (actAll act (doings (book s)) db).1[m]? = some o →
        T x (vals m) o (vals (m + 1)) := by
    intro s
    obtain ⟨-, hlen, hmem, -⟩ := h3 s
    have := acted_values (k := k) (act := act) (P := fun x => (∃ c ∈ cs, Agent.Picks c.1 x) ∧ mine x = true) (V := V) (T := T)
      (fun x hx => by obtain ⟨⟨c, hc, hx⟩, -⟩ := hx; exact hcnt c hc x hx)
      (fun x n db v hx => hstep x n db v hx.1 hx.2) (doings (book s))
      (fun x hx => by
        simp only [doings, List.mem_map] at hx
        obtain ⟨e, he, rfl⟩ := hx
        obtain ⟨-, c, a, b, d⟩ := hmem e he
        exact ⟨⟨c, a, b⟩, d⟩) (cs.map (·.2)).sum (by simpa [doings] using hlen) db v0 hk hV hc
    simpa only [doings, List.length_map] using this
  obtain ⟨vals, hvals⟩ := Classical.axiomOfChoice hserve
  have hcount : ∀ s, (actAll act (doings (book s)) db).1.length = (book s).length := by
    intro s; rw [actAll_length]; simp [doings]
  have hone : ∀ s m, m < (book s).length → ∃ e o, (book s)[m]? = some e ∧ (actAll act (doings (book s)) db).1[m]? = some o ∧
      T e.2.2 (vals s m) o (vals s (m + 1)) := by
    intro s m hm
    refine ⟨_, _, List.getElem?_eq_getElem hm, List.getElem?_eq_getElem (by rw [hcount]; exact hm), ?_⟩
    refine (hvals s).2 m _ _ ?_ (List.getElem?_eq_getElem (by rw [hcount]; exact hm))
    simp [doings, List.getElem?_map, List.getElem?_eq_getElem hm]
  have hmono : ∀ s m d, m + d ≤ (book s).length → R (vals s m) (vals s (m + d)) := by
    intro s m d
    induction d with
    | zero => intro _; exact hrefl _
    | succ d ih =>
      intro h
      obtain ⟨e, o, -, -, ht⟩ := hone s (m + d) (by omega)
      exact htrans _ _ _ (ih (by omega)) (hT _ _ _ _ ht)
  have hle : ∀ s m m', m ≤ m' → m' ≤ (book s).length → R (vals s m) (vals s m') := by
    intro s m m' h h'
    have := hmono s m (m' - m) (by omega)
    rwa [show m + (m' - m) = m' by omega] at this
  have hprefix : ∀ s1 s2 m, m ≤ (book s1).length → vals s1 m = vals (s1 ++ s2) m := by
    intro s1 s2 m hm
    have hp := h1 s1 s2
    have hm' := (hp.length_le)
    have e1 := (hvals s1).1 m hm
    have e2 := (hvals (s1 ++ s2)).1 m (by omega)
    have : (doings (book s1)).take m = (doings (book (s1 ++ s2))).take m := by
      obtain ⟨more, hmore⟩ := hp
      rw [← hmore]
      simp only [doings, List.map_append]
      rw [List.take_append_of_le_length (by simpa using hm)]
    rw [this] at e1
    exact Option.some.inj (e1.symm.trans e2)
  have hthreads : ∀ s (i : Nat) c, cs[i]? = some c → ∃ t, ((Agents.pool act cs db).exec s).threads[i]? = some t := by
    intro s i c hi
    have : i < ((Agents.pool act cs db).exec s).threads.length := by
      rw [Pool.exec_length]; simpa [Agents.pool] using (List.getElem?_eq_some_iff.mp hi).1
    exact ⟨_, List.getElem?_eq_getElem this⟩
  have hsorted : ∀ s, (noted (book s) (actAll act (doings (book s)) db).1).Pairwise
      (fun e e' => e.1 = e'.1 → e.2.1.1 < e'.2.1.1) := by
    intro s
    have hch : ∀ i, (chosen i (noted (book s) (actAll act (doings (book s)) db).1)).Pairwise (fun e e' => e.1.1 < e'.1.1) := by
      intro i
      by_cases hi : i < cs.length
      · obtain ⟨t, ht⟩ := hthreads s i _ (List.getElem?_eq_getElem hi)
        obtain ⟨-, h | ⟨-, x, o, -, -, h⟩⟩ := (h3 s).2.2.2 i _ t (List.getElem?_eq_getElem hi) ht
        · change chosen i (noted _ (actAll act (doings _) db).1) = _ at h
          rw [h]; exact ledger_sorted _ _ _
        · change chosen i (noted _ (actAll act (doings _) db).1) = _ at h
          rw [h]
          refine List.pairwise_append.mpr ⟨ledger_sorted _ _ _, by simp, ?_⟩
          rintro ⟨⟨j, y⟩, o1⟩ ha b hb
          simp only [List.mem_singleton] at hb
          subst hb
          exact (List.getElem?_eq_some_iff.mp (ledger_mem'.mp ha).1.2).1
      · have : chosen i (noted (book s) (actAll act (doings (book s)) db).1) = [] := by
          rw [List.eq_nil_iff_forall_not_mem]
          intro a ha
          obtain ⟨p, hp⟩ := List.mem_iff_getElem?.mp (mem_chosen.mp ha)
          exact hi ((h3 s).2.2.1 _ (List.mem_of_getElem? (noted_getElem.mp hp).1)).1
        rw [this]; exact .nil
    have hp : ∀ i, (noted (book s) (actAll act (doings (book s)) db).1).Pairwise
        (fun e e' => e.1 = i → e'.1 = i → e.2.1.1 < e'.2.1.1) := by
      intro i
      have := hch i
      unfold chosen at this
      rw [List.pairwise_filterMap] at this
      refine this.imp ?_
      intro e e' h he he'
      exact h e.2 (by simp [he]) e'.2 (by simp [he'])
    rw [List.pairwise_iff_getElem]
    intro a b ha hb hab heq
    exact List.pairwise_iff_getElem.mp (hp _) a b ha hb hab rfl heq.symm
  have hpos : ∀ y : List Nat × Nat × Nat, ∃ p : Nat, ∀ c x o, cs[y.2.1]? = some c → Agent.AtTurn c.1 (got y.1 y.2.1) y.2.2 x o →
      mine x = true → (book y.1)[p]? = some (y.2.1, y.2.2, x) ∧ (actAll act (doings (book y.1)) db).1[p]? = some o := by
    rintro ⟨s, i, j⟩
    simp only
    by_cases h : ∃ c x o, cs[i]? = some c ∧ Agent.AtTurn c.1 (got s i) j x o ∧ mine x = true
    · obtain ⟨c, x, o, hi, ha, hm⟩ := h
      obtain ⟨t, ht⟩ := hthreads s i c hi
      have hin : ((j, x), o) ∈ chosen i (noted (book s) (actAll act (doings (book s)) db).1) := by
        have := ledger_mem'.mpr ⟨ha, hm⟩
        obtain ⟨-, h | ⟨-, x, o, -, -, h⟩⟩ := (h3 s).2.2.2 i _ t hi ht
        · change chosen i (noted _ (actAll act (doings _) db).1) = _ at h
          rw [h]; exact this
        · change chosen i (noted _ (actAll act (doings _) db).1) = _ at h
          rw [h]; exact List.mem_append_left _ this
      obtain ⟨p, hp⟩ := List.mem_iff_getElem?.mp (mem_chosen.mp hin)
      refine ⟨p, fun c' x' o' hi' ha' hm' => ?_⟩
      rw [hi] at hi'
      cases hi'
      have e1 := ha.1.symm.trans ha'.1
      have e2 := ha.2.symm.trans ha'.2
      cases e1
      cases e2
      exact noted_getElem.mp hp
    · exact ⟨0, fun c x o a b d => absurd ⟨c, x, o, a, b, d⟩ h⟩
  obtain ⟨at', hat⟩ := Classical.axiomOfChoice hpos
  obtain ⟨pos, hpos'⟩ : ∃ pos : List Nat → Nat → Nat → Nat, ∀ s i j c x o, cs[i]? = some c → Agent.AtTurn c.1 (got s i) j x o →
      mine x = true → (book s)[pos s i j]? = some (i, j, x) ∧ (actAll act (doings (book s)) db).1[pos s i j]? = some o :=
    ⟨fun s i j => at' (s, i, j), fun s i j => hat (s, i, j)⟩
  refine ⟨got, fun s => vals s (book s).length, fun s i j => vals s (pos s i j), fun s i j => vals s (pos s i j + 1), h2, fun s => ?_⟩
  have hv0 : vals s 0 = v0 := by
    have := (hvals s).1 0 (by omega)
    simp only [List.take_zero, actAll] at this
    exact Option.some.inj (this.symm.trans hk)
  refine ⟨fun i c t hi ht => ((h3 s).2.2.2 i c t hi ht).1, ?_, ?_, fun i c j x o hi ha hm => ?_⟩
  · rw [(h3 s).1 k rfl]
    have := (hvals s).1 (book s).length (Nat.le_refl _)
    rwa [List.take_of_length_le (by simp [doings])] at this
  · have := hle s 0 (book s).length (by omega) (Nat.le_refl _)
    rwa [hv0] at this
  · obtain ⟨p1, p2⟩ := hpos' s i j c x o hi ha hm
    have plt : pos s i j < (book s).length := (List.getElem?_eq_some_iff.mp p1).1
    have porder : ∀ i' c' j' x' o', cs[i']? = some c' → Agent.AtTurn c'.1 (got s i') j' x' o' → mine x' = true →
        pos s i' j' < (book s).length ∧ ((i, j) ≠ (i', j') → pos s i j ≠ pos s i' j') ∧ (i = i' → j < j' → pos s i j < pos s i' j') := by
      intro i' c' j' x' o' hi' ha' hm'
      obtain ⟨q1, q2⟩ := hpos' s i' j' c' x' o' hi' ha' hm'
      refine ⟨(List.getElem?_eq_some_iff.mp q1).1, ?_, ?_⟩
      · intro hne heq
        rw [← heq, p1] at q1
        simp only [Option.some.injEq, Prod.mk.injEq] at q1
        exact hne (by rw [q1.1, q1.2.1])
      · intro hii hjj
        rcases Nat.lt_trichotomy (pos s i j) (pos s i' j') with h | h | h
        · exact h
        · rw [← h, p1] at q1
          simp only [Option.some.injEq, Prod.mk.injEq] at q1
          omega
        · have w1 : (noted (book s) (actAll act (doings (book s)) db).1)[pos s i j]? = some (i, (j, x), o) :=
            noted_getElem.mpr ⟨p1, p2⟩
          have w2 : (noted (book s) (actAll act (doings (book s)) db).1)[pos s i' j']? = some (i', (j', x'), o') :=
            noted_getElem.mpr ⟨q1, q2⟩
          obtain ⟨l1, e1⟩ := List.getElem?_eq_some_iff.mp w1
          obtain ⟨l2, e2⟩ := List.getElem?_eq_some_iff.mp w2
          have := List.pairwise_iff_getElem.mp (hsorted s) _ _ l2 l1 h
          rw [e1, e2] at this
          have := this hii.symm
          simp only at this
          omega
    refine ⟨?_, ?_, hle s _ _ (by omega) (Nat.le_refl _), ?_, ?_⟩
    · refine (hvals s).2 _ x o ?_ p2
      show (doings (book s))[pos s i j]? = _
      simp [doings, List.getElem?_map, p1]
    · have := hle s 0 (pos s i j) (by omega) (by omega)
      rwa [hv0] at this
    · rintro s1 s2 rfl hlt
      show R (vals s1 (book s1).length) _
      rw [hprefix s1 s2 _ (Nat.le_refl _)]
      refine hle _ _ _ ?_ (by omega)
      rcases Nat.lt_or_ge (pos (s1 ++ s2) i j) (book s1).length with hp | hp
      · exfalso
        have hb : (book s1)[pos (s1 ++ s2) i j]? = some (i, j, x) := by
          obtain ⟨more, hmore⟩ := h1 s1 s2
          rw [← hmore, List.getElem?_append_left hp] at p1
          exact p1
        have hw := (noted_getElem (e := (i, (j, x), (actAll act (doings (book s1)) db).1[pos (s1 ++ s2) i j]'(by rw [hcount]; exact hp)))).mpr
          ⟨hb, List.getElem?_eq_getElem (by rw [hcount]; exact hp)⟩
        have hin := mem_chosen.mpr (List.mem_of_getElem? hw)
        obtain ⟨t, ht⟩ := hthreads s1 i c hi
        obtain ⟨-, h | ⟨-, y, o', -, -, h⟩⟩ := (h3 s1).2.2.2 i _ t hi ht
        · change chosen i (noted _ (actAll act (doings _) db).1) = _ at h
          rw [h] at hin
          have := (List.getElem?_eq_some_iff.mp (ledger_mem'.mp hin).1.2).1
          omega
        · change chosen i (noted _ (actAll act (doings _) db).1) = _ at h
          rw [h, List.mem_append] at hin
          rcases hin with hin | hin
          · have := (List.getElem?_eq_some_iff.mp (ledger_mem'.mp hin).1.2).1
            omega
          · simp only [List.mem_singleton, Prod.mk.injEq] at hin
            omega
      · exact hp
    · intro i' c' j' x' o' hi' ha' hm'
      obtain ⟨b1, b2, b3⟩ := porder i' c' j' x' o' hi' ha' hm'
      refine ⟨fun e1 e2 => hle s _ _ (b3 e1 e2) (by omega), fun hne => ?_⟩
      have := b2 hne
      rcases Nat.lt_or_ge (pos s i j) (pos s i' j') with h | h
      · exact .inl (hle s _ _ h (by omega))
      · exact .inr (hle s _ _ (by omega) (by omega))

end Hop
