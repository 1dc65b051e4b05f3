import Verif.Lemmas.Agents

/-! # Agents some of whose doings take effect at one moment, while the others leave the keys in question alone -/

namespace Hop

open Spec Prog

variable {α β : Type}

/-- A chain of choices along all schedules. -/
theorem growing_along {σ : Type} {J : List Nat → σ → Prop} {R : σ → σ → Prop} (hr : ∀ a, R a a)
    (ht : ∀ a b c, R a b → R b c → R a c) (h0 : ∃ a, J [] a) (hstep : ∀ s a i, J s a → ∃ b, R a b ∧ J (s ++ [i]) b) :
    ∃ f : List Nat → σ, (∀ s s', R (f s) (f (s ++ s'))) ∧ ∀ s, J s (f s) := by
  let g : (s : List Nat) → { a : σ // J s.reverse a } := fun s =>
    List.rec (motive := fun s => { a : σ // J s.reverse a }) ⟨h0.choose, h0.choose_spec⟩
      (fun i s ih => ⟨(hstep s.reverse ih.1 i ih.2).choose, by
        rw [List.reverse_cons]; exact (hstep s.reverse ih.1 i ih.2).choose_spec.2⟩) s
  have hg : ∀ i s, R (g s).1 (g (i :: s)).1 := fun i s => (hstep s.reverse (g s).1 i (g s).2).choose_spec.1
  refine ⟨fun s => (g s.reverse).1, fun s s' => ?_, fun s => ?_⟩
  · induction s' using snoc_induction with
    | h0 => rw [List.append_nil]; exact hr _
    | h1 s' i ih =>
      refine ht _ _ _ ih ?_
      have e : (s ++ (s' ++ [i])).reverse = i :: (s ++ s').reverse := by simp
      show R (g (s ++ s').reverse).1 (g (s ++ (s' ++ [i])).reverse).1
      rw [e]; exact hg _ _
  · have := (g s.reverse).2
    simpa using this

/-! ## The book -/

/-- What is in a book, one after the other, each doing `F`. An entry says who, after how many outcomes, and what. -/
def recital (F : α → Store → Outcome DispatchError β × Store) :
    List (Nat × Nat × α) → Store → List (Nat × (Nat × α) × Outcome DispatchError β) × Store
  | [], s => ([], s)
  | e :: l, s => ((e.1, e.2, (F e.2.2 s).1) :: (recital F l (F e.2.2 s).2).1, (recital F l (F e.2.2 s).2).2)

theorem recital_append (F : α → Store → Outcome DispatchError β × Store) (l l' : List (Nat × Nat × α)) (s : Store) :
    recital F (l ++ l') s = ((recital F l s).1 ++ (recital F l' (recital F l s).2).1, (recital F l' (recital F l s).2).2) := by
  induction l generalizing s with
  | nil => rfl
  | cons e l ih => simp only [List.cons_append, recital, ih]

theorem recital_fst (F : α → Store → Outcome DispatchError β × Store) (l : List (Nat × Nat × α)) (s : Store) :
    (recital F l s).1.map Prod.fst = l.map Prod.fst := by
  induction l generalizing s with
  | nil => rfl
  | cons e l ih => simp only [recital, List.map_cons, ih]

theorem recital_mem_fst {F : α → Store → Outcome DispatchError β × Store} {l : List (Nat × Nat × α)} {s : Store} {i : Nat}
    (h : ∀ e ∈ l, e.1 = i) : ∀ e ∈ (recital F l s).1, e.1 = i := by
  intro x hx
  have hx' : x.1 ∈ (recital F l s).1.map Prod.fst := List.mem_map_of_mem hx
  rw [recital_fst] at hx'
  simp only [List.mem_map] at hx'
  obtain ⟨y, hy, hyx⟩ := hx'
  rw [← hyx]; exact h y hy

/-- The marked doings among those whose outcomes are known, with their places and outcomes. -/
def ledger (mine : α → Bool) (c : Agent α β) (got : List (Outcome DispatchError β)) :
    List ((Nat × α) × Outcome DispatchError β) :=
  (List.range got.length).filterMap fun j =>
    match c (got.take j), got[j]? with
    | some x, some o => if mine x then some ((j, x), o) else none
    | _, _ => none

theorem filterMap_agree {γ δ : Type} {f g : γ → Option δ} (l : List γ) (h : ∀ a ∈ l, f a = g a) : l.filterMap f = l.filterMap g := by
  induction l with
  | nil => rfl
  | cons a l ih => simp only [List.filterMap_cons, h a (by simp), ih fun b hb => h b (by simp [hb])]

theorem ledger_nil (mine : α → Bool) (c : Agent α β) : ledger mine c [] = [] := rfl

theorem ledger_snoc (mine : α → Bool) {c : Agent α β} {got : List (Outcome DispatchError β)} {x : α} (h : c got = some x)
    (o : Outcome DispatchError β) :
    ledger mine c (got ++ [o]) = ledger mine c got ++ if mine x then [((got.length, x), o)] else [] := by
  simp only [ledger, List.length_append, List.length_singleton, List.range_succ, List.filterMap_append]
  congr 1
  · refine filterMap_agree _ fun j hj => ?_
    rw [List.mem_range] at hj
    rw [List.take_append_of_le_length (by omega), List.getElem?_append_left hj]
  · simp only [List.filterMap_cons, List.filterMap_nil]
    rw [List.take_append_of_le_length (Nat.le_refl _), List.take_length, h]
    simp only [List.getElem?_append_right (Nat.le_refl _), Nat.sub_self, List.getElem?_cons_zero]
    cases mine x <;> simp

section
variable (act : α → Prog β) (Inv : Store → Prop) (F : α → Store → Outcome DispatchError β × Store) (K : Bytes → Prop)
  (mine : α → Bool)

/-- Where an agent is, and the marked doing of its that has taken effect but whose outcome it does not know yet. -/
inductive Placed (c : Agent α β) (n : Nat) (got : List (Outcome DispatchError β)) :
    Prog (List (Outcome DispatchError β)) → List ((Nat × α) × Outcome DispatchError β) → Prop
  | idle : (got.length = n ∨ got.length < n ∧ c got = none) → Placed c n got (.done (.ok got)) []
  | before {x : α} {p : Prog β} {k : Nat} : got.length < n → c got = some x → mine x = true →
    LeadsTo (act x) p → live p = true → Shot Inv (F x) k p → Touches K p →
    Placed c n got (p.andThen fun o => Agent.prog act c (n - got.length - 1) (got ++ [o])) []
  | after {x : α} {p : Prog β} {o : Outcome DispatchError β} : got.length < n → c got = some x → mine x = true →
    LeadsTo (act x) p → live p = true → Ends o p →
    Placed c n got (p.andThen fun o => Agent.prog act c (n - got.length - 1) (got ++ [o])) [((got.length, x), o)]
  | other {x : α} {p : Prog β} : got.length < n → c got = some x → mine x = false →
    LeadsTo (act x) p → live p = true → Writes (fun k => ¬ K k) p →
    Placed c n got (p.andThen fun o => Agent.prog act c (n - got.length - 1) (got ++ [o])) []

/-- What is known of the doings. -/
structure Doings (cs : List (Agent α β × Nat)) : Prop where
  marked : ∀ c ∈ cs, ∀ x, Agent.Picks c.1 x → mine x = true → (∃ k, Shot Inv (F x) k (act x)) ∧ Touches K (act x)
  other : ∀ c ∈ cs, ∀ x, Agent.Picks c.1 x → mine x = false → Writes (fun k => ¬ K k) (act x)
  counts : ∀ c ∈ cs, ∀ x, Agent.Picks c.1 x → Counts (act x)
  inv : ∀ s s', (∀ k, K k → s k = s' k) → Inv s → Inv s'

/-- The agents after some schedule, explained by the book. -/
structure Booked (cs : List (Agent α β × Nat)) (db : Db) (l : List (Nat × Nat × α))
    (gots : List (List (Outcome DispatchError β))) (p : Pool (List (Outcome DispatchError β))) : Prop where
  keys : ∀ k, K k → p.db.keys k = (recital F l db.keys).2 k
  inv : Inv p.db.keys
  threads : p.threads.length = cs.length
  length : gots.length = cs.length
  mem : ∀ e ∈ l, e.1 < cs.length
  room : ∀ m, (p.db.ctrs m).getD 0 ≤ (db.ctrs m).getD 0 + (gots.map List.length).sum
  few : ∀ (i : Nat) c got, cs[i]? = some c → gots[i]? = some got → got.length ≤ c.2
  stand : ∀ (i : Nat) c t got, cs[i]? = some c → p.threads[i]? = some t → gots[i]? = some got → ∃ pend,
    Placed act Inv F K mine c.1 c.2 got t pend ∧ chosen i (recital F l db.keys).1 = ledger mine c.1 got ++ pend

end

theorem Ends.unique {p : Prog β} {o o' : Outcome DispatchError β} (h : Ends o p) (h' : Ends o' p) : o = o' := by
  cases p with
  | done r => exact h.symm.trans h'
  | onKey => exact absurd h id
  | onCtr m upd next =>
    have e := (h none (by simp)).symm.trans (h' none (by simp))
    simpa using e

/-- What takes effect at one moment and looks only at `K` does the same to stores that agree on `K`. -/
theorem Shot.agree {Inv : Store → Prop} {F : Store → Outcome DispatchError β × Store} {K : Bytes → Prop} {n : Nat} {p : Prog β}
    (h : Shot Inv F n p) (ht : Touches K p) {s s' : Store} (hs : Inv s) (hs' : Inv s') (ha : ∀ k, K k → s k = s' k) :
    (F s).1 = (F s').1 ∧ ∀ k, K k → (F s).2 k = (F s').2 k := by
  induction h with
  | quiet h1 h2 => rw [h2 s hs, h2 s' hs']; exact ⟨rfl, ha⟩
  | @fire n k upd next h =>
    obtain ⟨-, h2, h3⟩ := h s hs
    obtain ⟨-, h5, h6⟩ := h s' hs'
    have e := ha k ht.1
    rw [e] at h3
    refine ⟨h3.unique h6, fun k' hk' => ?_⟩
    rw [h2, h5, e]
    simp only [Store.put]
    split
    · rfl
    · exact ha k' hk'
  | @look n k upd next q h _ ih => exact ih (by rw [← (h s hs).2]; exact ht.2 _)

theorem Touches.step {K : Bytes → Prop} {p : Prog β} (h : Touches K p) (db : Db) : Touches K (p.step db).1 := by
  cases p with
  | done r => trivial
  | onKey k upd next => exact h.2 _
  | onCtr m upd next => exact h _

/-- An agent that has received the outcomes `got` goes on: marked doings that take no operation at all are put in the book
at once. -/
theorem settle_down {act : α → Prog β} {Inv : Store → Prop} {F : α → Store → Outcome DispatchError β × Store} {K : Bytes → Prop}
    {mine : α → Bool} {cs : List (Agent α β × Nat)} (hD : Doings act Inv F K mine cs) {c : Agent α β} {n : Nat}
    (hc : (c, n) ∈ cs) {i : Nat} {s0 : Store} (m : Nat)
    (got : List (Outcome DispatchError β)) (hm : got.length + m = n) (l : List (Nat × Nat × α)) (hi : Inv (recital F l s0).2)
    (ho : chosen i (recital F l s0).1 = ledger mine c got) :
    ∃ ext got', (∀ e ∈ ext, e.1 = i) ∧ (recital F (l ++ ext) s0).2 = (recital F l s0).2 ∧ got <+: got' ∧
      got'.length ≤ n ∧ ∃ pend,
      Placed act Inv F K mine c n got' (Agent.prog act c m got) pend ∧
      chosen i (recital F (l ++ ext) s0).1 = ledger mine c got' ++ pend := by
  induction m generalizing got l with
  | zero =>
    refine ⟨[], got, by simp, by simp, List.prefix_refl _, by omega, [], ?_, by simpa using ho⟩
    simp only [Agent.prog]
    exact .idle (.inl (by omega))
  | succ m ih =>
    cases hx : c got with
    | none =>
      refine ⟨[], got, by simp, by simp, List.prefix_refl _, by omega, [], ?_, by simpa using ho⟩
      simp only [Agent.prog, hx]
      exact .idle (.inr ⟨by omega, hx⟩)
    | some x =>
      have hiss : Agent.Picks c x := ⟨got, hx⟩
      have hrest : m = n - got.length - 1 := by omega
      cases hl : live (act x) with
      | true =>
        refine ⟨[], got, by simp, by simp, List.prefix_refl _, by omega, [], ?_, by simpa using ho⟩
        simp only [Agent.prog, hx]
        rw [hrest]
        cases hmi : mine x with
        | true =>
          obtain ⟨⟨k, hs⟩, ht⟩ := hD.marked (c, n) hc x hiss hmi
          exact .before (by omega) hx hmi .here hl hs ht
        | false => exact .other (by omega) hx hmi .here hl (hD.other (c, n) hc x hiss hmi)
      | false =>
        cases hd : act x with
        | onKey => rw [hd] at hl; simp [live] at hl
        | onCtr => rw [hd] at hl; simp [live] at hl
        | done o =>
          cases hmi : mine x with
          | false =>
            obtain ⟨ext, got', h1, h2, h3, h4, pend, h5, h6⟩ := ih (got ++ [o]) (by simp; omega) l hi
              (by rw [ledger_snoc mine hx, hmi, ho]; simp)
            refine ⟨ext, got', h1, h2, (List.prefix_append _ _).trans h3, h4, pend, ?_, h6⟩
            simp only [Agent.prog, hx, hd, Prog.andThen]
            exact h5
          | true =>
            obtain ⟨⟨k, hs⟩, -⟩ := hD.marked (c, n) hc x hiss hmi
            rw [hd] at hs
            cases hs with
            | @quiet _ _ o' he hF' =>
              simp only [Ends] at he
              subst he
              have hFs := hF' _ hi
              have hsn : recital F (l ++ [(i, got.length, x)]) s0 =
                  ((recital F l s0).1 ++ [(i, (got.length, x), o)], (recital F l s0).2) := by
                rw [recital_append]
                simp only [recital, hFs]
              obtain ⟨ext, got', h1, h2, h3, h4, pend, h5, h6⟩ := ih (got ++ [o]) (by simp; omega) (l ++ [(i, got.length, x)])
                (by rw [hsn]; exact hi)
                (by rw [hsn, ledger_snoc mine hx, hmi]; simp [chosen_append, chosen_one, ho])
              refine ⟨(i, got.length, x) :: ext, got', ?_, ?_, (List.prefix_append _ _).trans h3, h4, pend, ?_, ?_⟩
              · intro e he
                simp only [List.mem_cons] at he
                rcases he with rfl | he
                · rfl
                · exact h1 e he
              · rw [List.append_cons, h2, hsn]
              · simp only [Agent.prog, hx, hd, Prog.andThen]
                exact h5
              · rw [List.append_cons]; exact h6

section
variable {act : α → Prog β} {Inv : Store → Prop} {F : α → Store → Outcome DispatchError β × Store} {K : Bytes → Prop}
  {mine : α → Bool} {cs : List (Agent α β × Nat)} {db : Db} {l : List (Nat × Nat × α)}
  {gots : List (List (Outcome DispatchError β))} {p : Pool (List (Outcome DispatchError β))}

/-- Agent `i` has made a step. -/
theorem Booked.update (h : Booked act Inv F K mine cs db l gots p) {i : Nat} {c : Agent α β × Nat}
    {t : Prog (List (Outcome DispatchError β))} {got : List (Outcome DispatchError β)} (hc : cs[i]? = some c)
    (ht : p.threads[i]? = some t) (hg : gots[i]? = some got) (ext : List (Nat × Nat × α)) (hext : ∀ e ∈ ext, e.1 = i)
    (got' : List (Outcome DispatchError β)) (hgot : got'.length ≤ c.2)
    (hk : ∀ k, K k → (t.step p.db).2.keys k = (recital F (l ++ ext) db.keys).2 k) (hinv : Inv (t.step p.db).2.keys)
    (hctr : ∀ m, ((t.step p.db).2.ctrs m).getD 0 + got.length ≤ (p.db.ctrs m).getD 0 + got'.length)
    {pend : List ((Nat × α) × Outcome DispatchError β)}
    (hst : Placed act Inv F K mine c.1 c.2 got' (t.step p.db).1 pend)
    (hch : chosen i (recital F (l ++ ext) db.keys).1 = ledger mine c.1 got' ++ pend) :
    Booked act Inv F K mine cs db (l ++ ext) (gots.set i got') (p.stepAt i) := by
  have hi : i < cs.length := (List.getElem?_eq_some_iff.mp hc).1
  have hi1 : i < p.threads.length := by rw [h.threads]; exact hi
  have hi2 : i < gots.length := by rw [h.length]; exact hi
  rw [Pool.stepAt_some ht]
  refine ⟨hk, hinv, by simp [h.threads], by simp [h.length], ?_, ?_, ?_, ?_⟩
  · intro e he
    simp only [List.mem_append] at he
    rcases he with he | he
    · exact h.mem e he
    · rw [hext e he]; exact hi
  · intro m
    have h1 := h.room m
    have h2 := hctr m
    have h3 := marks_set (gots.map List.length) i got.length got'.length (by simp [hg])
    rw [List.map_set]
    simp only at h1 h2 h3 ⊢
    omega
  · intro j c' got'' hj hgj
    by_cases e : i = j
    · subst e
      rw [List.getElem?_set_self hi2] at hgj
      rw [hc] at hj
      simp only [Option.some.injEq] at hj hgj
      subst hj; subst hgj
      exact hgot
    · rw [List.getElem?_set_ne e] at hgj
      exact h.few j c' got'' hj hgj
  · intro j c' t' got'' hj htj hgj
    by_cases e : i = j
    · subst e
      rw [List.getElem?_set_self hi2] at hgj
      rw [List.getElem?_set_self hi1] at htj
      rw [hc] at hj
      simp only [Option.some.injEq] at hj hgj htj
      subst hj; subst hgj; subst htj
      exact ⟨pend, hst, hch⟩
    · rw [List.getElem?_set_ne e] at hgj htj
      obtain ⟨pend', h1, h2⟩ := h.stand j c' t' got'' hj htj hgj
      refine ⟨pend', h1, ?_⟩
      rw [recital_append, chosen_append, chosen_others (j := i) (fun e' => e e'.symm) (recital_mem_fst hext), List.append_nil]
      exact h2

/-- The outcomes known so far only grow. -/
def Extends (l : List (Nat × Nat × α)) (gots : List (List (Outcome DispatchError β))) (l' : List (Nat × Nat × α))
    (gots' : List (List (Outcome DispatchError β))) : Prop :=
  l <+: l' ∧ ∀ (i : Nat) got, gots[i]? = some got → ∃ got', gots'[i]? = some got' ∧ got <+: got'

theorem Extends.refl (l : List (Nat × Nat × α)) (gots : List (List (Outcome DispatchError β))) : Extends l gots l gots :=
  ⟨List.prefix_refl _, fun _ got h => ⟨got, h, List.prefix_refl _⟩⟩

theorem Extends.trans {l1 l2 l3 : List (Nat × Nat × α)} {g1 g2 g3 : List (List (Outcome DispatchError β))}
    (h : Extends l1 g1 l2 g2) (h' : Extends l2 g2 l3 g3) : Extends l1 g1 l3 g3 := by
  refine ⟨h.1.trans h'.1, fun i got hg => ?_⟩
  obtain ⟨got', h1, h2⟩ := h.2 i got hg
  obtain ⟨got'', h3, h4⟩ := h'.2 i got' h1
  exact ⟨got'', h3, h2.trans h4⟩

theorem Extends.set {l ext : List (Nat × Nat × α)} {gots : List (List (Outcome DispatchError β))} {i : Nat}
    {got got' : List (Outcome DispatchError β)} (hg : gots[i]? = some got) (h : got <+: got') :
    Extends l gots (l ++ ext) (gots.set i got') := by
  refine ⟨List.prefix_append _ _, fun j g hj => ?_⟩
  by_cases e : i = j
  · subst e
    rw [hg] at hj
    cases hj
    exact ⟨got', List.getElem?_set_self (List.getElem?_eq_some_iff.mp hg).1, h⟩
  · exact ⟨g, by rw [List.getElem?_set_ne e]; exact hj, List.prefix_refl _⟩

theorem Booked.step (h : Booked act Inv F K mine cs db l gots p) (hD : Doings act Inv F K mine cs)
    (hroom : Roomy (cs.map (·.2)).sum db.ctrs) (i : Nat) :
    ∃ l' gots', Extends l gots l' gots' ∧ Booked act Inv F K mine cs db l' gots' (p.stepAt i) := by
  cases ht : p.threads[i]? with
  | none => rw [Pool.stepAt_none ht]; exact ⟨l, gots, .refl _ _, h⟩
  | some t =>
    have hi : i < cs.length := by rw [← h.threads]; exact (List.getElem?_eq_some_iff.mp ht).1
    obtain ⟨c, hc⟩ : ∃ c, cs[i]? = some c := ⟨_, List.getElem?_eq_getElem hi⟩
    obtain ⟨got, hg⟩ : ∃ got, gots[i]? = some got := ⟨_, List.getElem?_eq_getElem (by rw [h.length]; exact hi)⟩
    obtain ⟨pend, hst, hch⟩ := h.stand i c t got hc ht hg
    have hmem : c ∈ cs := List.mem_of_getElem? hc
    have hroom1 : got.length < c.2 → ∀ m, ((p.db.ctrs m).getD 0) + 1 < 2 ^ 64 := by
      intro hlt m
      have h1 := h.room m
      have h2 := hroom m
      have h3 : (gots.map List.length).sum + 1 ≤ (cs.map (·.2)).sum := by
        have h4 := marks_set (gots.map List.length) i got.length (got.length + 1) (by simp [hg])
        have h5 : ((gots.map List.length).set i (got.length + 1)).sum ≤ (cs.map (·.2)).sum := by
          apply sum_le_sum
          · simp [h.length]
          · intro j a b ha hb
            by_cases e : i = j
            · subst e
              rw [List.getElem?_set_self (by simp [h.length]; exact hi)] at ha
              simp only [List.getElem?_map, hc, Option.map_some, Option.some.injEq] at ha hb
              omega
            · rw [List.getElem?_set_ne e] at ha
              simp only [List.getElem?_map, Option.map_eq_some_iff] at ha hb
              obtain ⟨g, hg', rfl⟩ := ha
              obtain ⟨c', hc', rfl⟩ := hb
              exact h.few j c' g hc' hg'
        omega
      omega
    have hinv' : Inv (recital F l db.keys).2 := hD.inv _ _ h.keys h.inv
    -- the outcome is there and the agent goes on
    have finish : ∀ (ext0 : List (Nat × Nat × α)) (x : α) (o : Outcome DispatchError β), got.length < c.2 → c.1 got = some x →
        (∀ e ∈ ext0, e.1 = i) →
        (t.step p.db).1 = Agent.prog act c.1 (c.2 - got.length - 1) (got ++ [o]) →
        (∀ k, K k → (t.step p.db).2.keys k = (recital F (l ++ ext0) db.keys).2 k) → Inv (t.step p.db).2.keys →
        (∀ m, ((t.step p.db).2.ctrs m).getD 0 ≤ (p.db.ctrs m).getD 0 + 1) →
        chosen i (recital F (l ++ ext0) db.keys).1 = ledger mine c.1 (got ++ [o]) →
        ∃ l' gots', Extends l gots l' gots' ∧ Booked act Inv F K mine cs db l' gots' (p.stepAt i) := by
      intro ext0 x o hlt hx h0 h1 h2 h3 h4 h5
      obtain ⟨ext, got', g1, g2, g3, g4, pend', g5, g6⟩ := settle_down (n := c.2) (c := c.1) hD hmem (i := i) (s0 := db.keys)
        (c.2 - got.length - 1) (got ++ [o]) (by simp; omega) (l ++ ext0) (hD.inv _ _ h2 h3) h5
      rw [List.append_assoc] at g2 g6
      have hlen := g3.length_le
      simp only [List.length_append, List.length_singleton] at hlen
      refine ⟨l ++ (ext0 ++ ext), gots.set i got', Extends.set hg ((List.prefix_append _ _).trans g3),
        h.update hc ht hg (ext0 ++ ext) ?_ got' g4 (by rw [g2]; exact h2) h3 ?_ (by rw [h1]; exact g5) g6⟩
      · intro e he
        simp only [List.mem_append] at he
        rcases he with he | he
        · exact h0 e he
        · exact g1 e he
      · intro m
        have := h4 m
        omega
    -- a marked doing takes effect
    have hone : ∀ x, mine x = true → c.1 got = some x → chosen i (recital F l db.keys).1 = ledger mine c.1 got →
        chosen i (recital F (l ++ [(i, got.length, x)]) db.keys).1 =
          ledger mine c.1 (got ++ [(F x (recital F l db.keys).2).1]) ∧
        chosen i (recital F (l ++ [(i, got.length, x)]) db.keys).1 =
          ledger mine c.1 got ++ [((got.length, x), (F x (recital F l db.keys).2).1)] ∧
        (recital F (l ++ [(i, got.length, x)]) db.keys).2 = (F x (recital F l db.keys).2).2 := by
      intro x hmi hx ho
      rw [recital_append, ledger_snoc mine hx, hmi]
      simp only [recital]
      simp [chosen_append, chosen_one, ho]
    have hctrs : ∀ {q : Prog β} {m : Metric} {upd : Option Nat → Option Nat} {next : Option Nat → Prog β} {x : α},
        q = .onCtr m upd next → LeadsTo (act x) q → c.1 got = some x → ∀ m',
        (((p.db.setCtr m (upd (p.db.ctrs m))).ctrs m').getD 0) ≤ (p.db.ctrs m').getD 0 + 1 := by
      intro q m upd next x hq hlead hx m'
      have hcn := leads_counts hlead (hD.counts c hmem x ⟨_, hx⟩)
      subst hq
      simp only [Db.setCtr]
      split
      · rename_i e
        subst e
        rcases hcn (p.db.ctrs m') with hx | hx
        · rw [hx.1]; omega
        · exact hx.1
      · omega
    cases hst with
    | idle hd =>
      rw [Pool.stepAt_done ht]
      exact ⟨l, gots, .refl _ _, h⟩
    | @after x q o hlt hx hmi hlead hlive he =>
      cases q with
      | done => simp [live] at hlive
      | onKey => exact absurd he id
      | onCtr m upd next =>
        have hn := he _ (hroom1 hlt m)
        refine finish [] x o hlt hx (by simp) ?_ (by rw [List.append_nil]; exact h.keys) h.inv ?_ ?_
        · simp only [Prog.andThen, Prog.step, hn]
        · exact fun m' => hctrs rfl hlead hx m'
        · rw [List.append_nil, hch, ledger_snoc mine hx, hmi]; rfl
    | @before x q k hlt hx hmi hlead hlive hs htch =>
      rw [List.append_nil] at hch
      obtain ⟨a1, a2, a3⟩ := hone x hmi hx hch
      obtain ⟨⟨kx, hsx⟩, htx⟩ := hD.marked c hmem x ⟨_, hx⟩ hmi
      obtain ⟨ag1, ag2⟩ := hsx.agree htx h.inv hinv' h.keys
      cases hs with
      | @quiet _ _ o he hFq =>
        cases q with
        | done => simp [live] at hlive
        | onKey => exact absurd he id
        | onCtr m upd next =>
          have hn := he _ (hroom1 hlt m)
          have hFs := hFq _ hinv'
          rw [hFs] at a1 a3
          refine finish [(i, got.length, x)] x o hlt hx (by simp) ?_ (by rw [a3]; exact h.keys) h.inv ?_ a1
          · simp only [Prog.andThen, Prog.step, hn]
          · exact fun m' => hctrs rfl hlead hx m'
      | @fire _ key upd next hFq =>
        obtain ⟨b1, b2, b3⟩ := hFq _ h.inv
        rw [← ag1] at a1 a2
        have hkeys : ∀ k, K k → (p.db.setKey key (upd (p.db.keys key))).keys k =
            (recital F (l ++ [(i, got.length, x)]) db.keys).2 k := by
          intro k hk
          rw [a3, ← ag2 k hk, b2]; rfl
        cases hl : live (next (p.db.keys key)) with
        | false =>
          cases hq : next (p.db.keys key) with
          | onKey => rw [hq] at hl; simp [live] at hl
          | onCtr => rw [hq] at hl; simp [live] at hl
          | done o =>
            rw [hq] at b3
            simp only [Ends] at b3
            rw [← b3] at a1
            refine finish [(i, got.length, x)] x o hlt hx (by simp) ?_ hkeys b1
              (fun m => by simp [Prog.andThen, Prog.step, Db.setKey]) a1
            simp only [Prog.andThen, Prog.step, hq]
        | true =>
          refine ⟨_, gots.set i got, Extends.set hg (List.prefix_refl _), h.update hc ht hg [(i, got.length, x)] (by simp) got (by omega)
            hkeys b1 (fun m => by simp [Prog.andThen, Prog.step, Db.setKey]) ?_ a2⟩
          simp only [Prog.andThen, Prog.step]
          exact .after hlt hx hmi (leads_step hlead p.db) hl b3
      | @look k' key upd next q' hFq hq' =>
        obtain ⟨b1, b2⟩ := hFq _ h.inv
        have hsame : (p.db.setKey key (upd (p.db.keys key))) = p.db := by
          rw [b1]; simp only [Db.setKey]; congr 1; exact put_same p.db.keys key
        cases hl : live q' with
        | true =>
          refine ⟨_, gots.set i got, Extends.set hg (List.prefix_refl _), h.update hc ht hg [] (by simp) got (by omega) ?_ ?_ ?_ (pend := []) ?_
            (by simpa using hch)⟩
          · simp only [Prog.andThen, Prog.step, hsame, List.append_nil]; exact h.keys
          · simp only [Prog.andThen, Prog.step, hsame]; exact h.inv
          · intro m; simp only [Prog.andThen, Prog.step, hsame]; omega
          · simp only [Prog.andThen, Prog.step, b2]
            have hld := leads_step hlead p.db
            have htc := htch.step p.db
            simp only [Prog.step, b2] at hld htc
            exact .before hlt hx hmi hld hl hq' htc
        | false =>
          cases q' with
          | onKey => simp [live] at hl
          | onCtr => simp [live] at hl
          | done o =>
            cases hq' with
            | @quiet _ _ o' he hF' =>
              simp only [Ends] at he
              subst he
              have hFs := hF' _ hinv'
              rw [hFs] at a1 a3
              refine finish [(i, got.length, x)] x o hlt hx (by simp) ?_ ?_ ?_ ?_ a1
              · simp only [Prog.andThen, Prog.step, b2]
              · simp only [Prog.andThen, Prog.step, hsame]; rw [a3]; exact h.keys
              · simp only [Prog.andThen, Prog.step, hsame]; exact h.inv
              · intro m; simp only [Prog.andThen, Prog.step, hsame]; omega
    | @other x q hlt hx hmi hlead hlive hw =>
      rw [List.append_nil] at hch
      obtain ⟨w1, w2⟩ := hw.step p.db
      have hkeys : ∀ k, K k → (q.step p.db).2.keys k = (recital F l db.keys).2 k := fun k hk => by
        rw [w2 k (fun hn => hn hk)]; exact h.keys k hk
      have hinv2 : Inv (q.step p.db).2.keys := hD.inv _ _ (fun k hk => (w2 k (fun hn => hn hk)).symm) h.inv
      have hstep := andThen_live_step hlive (fun o => Agent.prog act c.1 (c.2 - got.length - 1) (got ++ [o])) p.db
      have hcnt := leads_counts hlead (hD.counts c hmem x ⟨_, hx⟩)
      have hct : ∀ m, ((q.step p.db).2.ctrs m).getD 0 ≤ (p.db.ctrs m).getD 0 + (!live (q.step p.db).1).toNat := by
        intro m
        cases q with
        | done => simp [live] at hlive
        | onKey k upd next => simp only [Prog.step, Db.setKey]; omega
        | onCtr m' upd next =>
          simp only [Prog.step, Db.setCtr]
          rcases hcnt (p.db.ctrs m') with ⟨e1, -⟩ | ⟨e1, r, e2⟩
          · rw [e1]; split
            · rename_i e; subst e; omega
            · omega
          · rw [e2]
            simp only [live]
            split
            · rename_i e; subst e; simpa using e1
            · simp
      cases hl : live (q.step p.db).1 with
      | true =>
        refine ⟨_, gots.set i got, Extends.set hg (List.prefix_refl _), h.update hc ht hg [] (by simp) got (by omega) ?_ ?_ ?_ (pend := []) ?_
            (by simpa using hch)⟩
        · rw [hstep, List.append_nil]; exact hkeys
        · rw [hstep]; exact hinv2
        · intro m
          have := hct m
          rw [hl] at this
          rw [hstep]
          simp at this ⊢
          omega
        · rw [hstep]
          exact .other hlt hx hmi (leads_step hlead p.db) hl w1
      | false =>
        cases hq : (q.step p.db).1 with
        | onKey => rw [hq] at hl; simp [live] at hl
        | onCtr => rw [hq] at hl; simp [live] at hl
        | done o =>
          refine finish [] x o hlt hx (by simp) ?_ ?_ ?_ ?_ ?_
          · rw [hstep, hq]; rfl
          · rw [hstep, List.append_nil]; exact hkeys
          · rw [hstep]; exact hinv2
          · intro m
            have := hct m
            rw [hl] at this
            rw [hstep]
            simp at this ⊢
            omega
          · rw [List.append_nil, ledger_snoc mine hx, hmi, hch]; simp

theorem Booked.start (hinv : Inv db.keys) (hD : Doings act Inv F K mine cs) :
    ∃ l gots, Booked act Inv F K mine cs db l gots (Agents.pool act cs db) := by
  -- one agent after the other enters
  suffices h : ∀ m, m ≤ cs.length → ∃ (l : List (Nat × Nat × α)) (gots : List (List (Outcome DispatchError β))),
      gots.length = cs.length ∧ (∀ e ∈ l, e.1 < m) ∧ (recital F l db.keys).2 = db.keys ∧
      (∀ (i : Nat) c got, cs[i]? = some c → gots[i]? = some got → got.length ≤ c.2) ∧
      ∀ (i : Nat) c got, i < m → cs[i]? = some c → gots[i]? = some got → ∃ pend,
        Placed act Inv F K mine c.1 c.2 got (Agent.prog act c.1 c.2 []) pend ∧
        chosen i (recital F l db.keys).1 = ledger mine c.1 got ++ pend by
    obtain ⟨l, gots, h1, h2, h3, h4, h5⟩ := h cs.length (Nat.le_refl _)
    refine ⟨l, gots, fun k _ => by rw [h3]; rfl, hinv, by simp [Agents.pool], h1, h2, fun m => by simp only [Agents.pool]; omega, h4, ?_⟩
    intro i c t got hc ht hg
    simp only [Agents.pool, List.getElem?_map, hc, Option.map_some, Option.some.injEq] at ht
    subst ht
    exact h5 i c got (List.getElem?_eq_some_iff.mp hc).1 hc hg
  intro m
  induction m with
  | zero =>
    intro _
    refine ⟨[], List.replicate cs.length [], by simp, by simp, rfl, ?_, by simp⟩
    intro i c got _ hg
    rw [List.getElem?_replicate] at hg
    split at hg
    · cases hg; simp
    · cases hg
  | succ m ih =>
    intro hm
    obtain ⟨l, gots, h1, h2, h3, h4, h5⟩ := ih (by omega)
    obtain ⟨c, hc⟩ : ∃ c, cs[m]? = some c := ⟨_, List.getElem?_eq_getElem (by omega)⟩
    have hnone' : chosen m (recital F l db.keys).1 = [] := by
      simp only [chosen, List.filterMap_eq_nil_iff]
      intro e he
      have he' : e.1 ∈ (recital F l db.keys).1.map Prod.fst := List.mem_map_of_mem he
      rw [recital_fst, List.mem_map] at he'
      obtain ⟨y, hy, hye⟩ := he'
      rw [if_neg (by have := h2 y hy; omega)]
    obtain ⟨ext, got', g1, g2, g3, g4, pend, g5, g6⟩ := settle_down (c := c.1) (n := c.2) hD (List.mem_of_getElem? hc) (i := m)
      (s0 := db.keys) c.2 [] (by simp) l (by rw [h3]; exact hinv) hnone'
    refine ⟨l ++ ext, gots.set m got', by simp [h1], ?_, by rw [g2, h3], ?_, ?_⟩
    · intro e he
      simp only [List.mem_append] at he
      rcases he with he | he
      · have := h2 e he; omega
      · rw [g1 e he]; omega
    · intro i c' got hci hgi
      by_cases e : m = i
      · subst e
        rw [List.getElem?_set_self (by omega)] at hgi
        rw [hc] at hci
        cases hci; cases hgi
        exact g4
      · rw [List.getElem?_set_ne e] at hgi
        exact h4 i c' got hci hgi
    · intro i c' got him hci hgi
      by_cases e : m = i
      · subst e
        rw [List.getElem?_set_self (by omega)] at hgi
        rw [hc] at hci
        cases hci; cases hgi
        exact ⟨pend, g5, g6⟩
      · rw [List.getElem?_set_ne e] at hgi
        obtain ⟨pend', q1, q2⟩ := h5 i c' got (by omega) hci hgi
        refine ⟨pend', q1, ?_⟩
        rw [recital_append, chosen_append, chosen_others (j := m) (fun e' => e e'.symm) (recital_mem_fst g1), List.append_nil]
        exact q2

theorem ledger_mem {c : Agent α β} {got : List (Outcome DispatchError β)} {e : (Nat × α) × Outcome DispatchError β} :
    e ∈ ledger mine c got ↔ c (got.take e.1.1) = some e.1.2 ∧ got[e.1.1]? = some e.2 ∧ mine e.1.2 = true := by
  obtain ⟨⟨j, x⟩, o⟩ := e
  simp only [ledger, List.mem_filterMap, List.mem_range]
  constructor
  · rintro ⟨j', hj', h⟩
    split at h
    · rename_i x' o' h1 h2
      split at h
      · cases h; exact ⟨h1, h2, by assumption⟩
      · cases h
    · cases h
  · rintro ⟨h1, h2, h3⟩
    exact ⟨j, (List.getElem?_eq_some_iff.mp h2).1, by rw [h1, h2]; simp [h3]⟩

theorem Placed.amid {c : Agent α β} {n : Nat} {got : List (Outcome DispatchError β)} {t : Prog (List (Outcome DispatchError β))}
    {pend : List ((Nat × α) × Outcome DispatchError β)} (h : Placed act Inv F K mine c n got t pend) :
    Agent.Amid act c n got t ∧ (pend = [] ∨ (¬ Ended t) ∧ ∃ x o, c got = some x ∧ mine x = true ∧ got.length < n ∧
      pend = [((got.length, x), o)]) := by
  have hlive : ∀ {p : Prog β}, live p = true → ∀ o, p ≠ .done o := by
    intro p hp o e; subst e; simp [live] at hp
  cases h with
  | idle h => exact ⟨.inl ⟨rfl, h⟩, .inl rfl⟩
  | before h1 h2 h3 h4 h5 => exact ⟨.inr ⟨_, _, h1, h2, h4, hlive h5, rfl⟩, .inl rfl⟩
  | @after x p o h1 h2 h3 h4 h5 h6 =>
    refine ⟨.inr ⟨_, _, h1, h2, h4, hlive h5, rfl⟩, .inr ⟨?_, x, o, h2, h3, h1, rfl⟩⟩
    cases p with
    | done => simp [live] at h5
    | onKey => exact id
    | onCtr => exact id
  | other h1 h2 h3 h4 h5 => exact ⟨.inr ⟨_, _, h1, h2, h4, hlive h5, rfl⟩, .inl rfl⟩

theorem mem_recital {l : List (Nat × Nat × α)} {s : Store} {e : Nat × Nat × α} (h : e ∈ l) :
    ∃ o, (e.1, e.2, o) ∈ (recital F l s).1 := by
  induction l generalizing s with
  | nil => simp at h
  | cons e' l ih =>
    simp only [List.mem_cons] at h
    rcases h with rfl | h
    · exact ⟨_, by simp only [recital, List.mem_cons]; exact .inl rfl⟩
    · obtain ⟨o, ho⟩ := ih (s := (F e'.2.2 s).2) h
      exact ⟨o, by simp only [recital, List.mem_cons]; exact .inr ho⟩

theorem Booked.get (h : Booked act Inv F K mine cs db l gots p) {i : Nat} (hi : i < cs.length) :
    ∃ c t got pend, cs[i]? = some c ∧ p.threads[i]? = some t ∧ gots[i]? = some got ∧
      Placed act Inv F K mine c.1 c.2 got t pend ∧ chosen i (recital F l db.keys).1 = ledger mine c.1 got ++ pend := by
  have h1 : cs[i]? = some cs[i] := List.getElem?_eq_getElem hi
  have h2 : p.threads[i]? = some (p.threads[i]'(by rw [h.threads]; exact hi)) := List.getElem?_eq_getElem _
  have h3 : gots[i]? = some (gots[i]'(by rw [h.length]; exact hi)) := List.getElem?_eq_getElem _
  obtain ⟨pend, h4, h5⟩ := h.stand i _ _ _ h1 h2 h3
  exact ⟨_, _, _, pend, h1, h2, h3, h4, h5⟩

/-- What is in the book is marked, and somebody's choice. -/
theorem Booked.picked (h : Booked act Inv F K mine cs db l gots p) : ∀ e ∈ l, ∃ c ∈ cs, Agent.Picks c.1 e.2.2 ∧ mine e.2.2 = true := by
  intro e he
  obtain ⟨c, t, got, pend, hc, -, -, hp, hch⟩ := h.get (h.mem e he)
  refine ⟨c, List.mem_of_getElem? hc, ?_⟩
  obtain ⟨o, ho⟩ := mem_recital (F := F) (s := db.keys) he
  have hm : (e.2, o) ∈ chosen e.1 (recital F l db.keys).1 := by
    simp only [chosen, List.mem_filterMap]
    exact ⟨_, ho, by simp⟩
  rw [hch, List.mem_append] at hm
  rcases hm with hm | hm
  · obtain ⟨h1, -, h3⟩ := ledger_mem.mp hm
    exact ⟨⟨_, h1⟩, h3⟩
  · rcases hp.amid.2 with rfl | ⟨-, x, o', h1, h2, -, rfl⟩
    · simp at hm
    · simp only [List.mem_singleton, Prod.mk.injEq] at hm
      rw [hm.1]
      exact ⟨⟨_, h1⟩, h2⟩

theorem Booked.length_le (h : Booked act Inv F K mine cs db l gots p) : l.length ≤ (cs.map (·.2)).sum := by
  refine length_le_chosen l _ (fun e he => by simpa using h.mem e he) fun i n hi => ?_
  simp only [List.getElem?_map, Option.map_eq_some_iff] at hi
  obtain ⟨c', hci, rfl⟩ := hi
  obtain ⟨c, t, got, pend, hc, -, hg, hp, hch⟩ := h.get (List.getElem?_eq_some_iff.mp hci).1
  have hcc : c' = c := by rw [hc] at hci; exact (Option.some.inj hci).symm
  subst hcc
  rw [chosen_map_length i _ _ (recital_fst F l db.keys).symm, hch, List.length_append]
  have h1 : (ledger mine c'.1 got).length ≤ got.length := by
    have := List.length_filterMap_le (fun j => match c'.1 (got.take j), got[j]? with
      | some x, some o => if mine x then some ((j, x), o) else none
      | _, _ => none) (List.range got.length)
    rw [List.length_range] at this
    exact this
  have h2 := h.few i c' got hc hg
  rcases hp.amid.2 with rfl | ⟨-, x, o', -, -, h3, rfl⟩
  · simp; omega
  · simp; omega

/-- Reading the book is doing what is in it. -/
theorem recital_actAll {c0 : Metric → Option Nat} (hc0 : Roomy 1 c0) (l : List (Nat × Nat × α))
    (hs : ∀ e ∈ l, Single Inv (fun p => ∃ r, Ends r p) 1 (act e.2.2)) (hcnt : ∀ e ∈ l, Counts (act e.2.2)) (db : Db)
    (hi : Inv db.keys) (hc : Roomy l.length db.ctrs) :
    List.zipWith (fun e o => (e.1, e.2, o)) l (actAll act (l.map fun e => e.2.2) db).1 =
      (recital (fun x => meaning (act x) c0) l db.keys).1 ∧
    (actAll act (l.map fun e => e.2.2) db).2.keys = (recital (fun x => meaning (act x) c0) l db.keys).2 := by
  induction l generalizing db with
  | nil => exact ⟨rfl, rfl⟩
  | cons e l ih =>
    obtain ⟨j, m, x⟩ := e
    simp only [List.length_cons] at hc
    obtain ⟨h1, h2⟩ := (hs (j, m, x) (by simp)).meaning_ctrs (c := c0) (c' := db.ctrs) hc0
      (Roomy.mono hc (by omega)) db.keys hi
    have hr := (hcnt (j, m, x) (by simp)).run_roomy db l.length hc
    have e1 : (meaning (act x) db.ctrs db.keys) =
      (((act x).run db).1, ((act x).run db).2.keys) := rfl
    simp only at h1 h2
    rw [e1] at h1
    have := ih (fun e he => hs e (by simp [he])) (fun e he => hcnt e (by simp [he])) ((act x).run db).2 (by rw [h1] at h2; exact h2) hr
    simp only [List.map_cons, actAll, recital, List.zipWith_cons_cons, h1]
    exact ⟨by rw [this.1], this.2⟩

/-- Agents some of whose doings take effect at one moment and look only at the keys `K`, while the others leave these keys
alone: the former are in a book that only grows. -/
theorem agents_book {Inv : Store → Prop} (K : Bytes → Prop) (mine : α → Bool)
    (hsing : ∀ c ∈ cs, ∀ x, Agent.Picks c.1 x → mine x = true →
      Single Inv (fun p => ∃ r, Ends r p) 1 (act x) ∧ Touches K (act x))
    (hoth : ∀ c ∈ cs, ∀ x, Agent.Picks c.1 x → mine x = false → Writes (fun k => ¬ K k) (act x))
    (hcnt : ∀ c ∈ cs, ∀ x, Agent.Picks c.1 x → Counts (act x)) (hagree : ∀ s s', (∀ k, K k → s k = s' k) → Inv s → Inv s')
    (db : Db) (hinv : Inv db.keys) (hc : Roomy (cs.map (·.2)).sum db.ctrs) :
    ∃ (book : List Nat → List (Nat × Nat × α)) (got : List Nat → Nat → List (Outcome DispatchError β)),
      (∀ s s', book s <+: book (s ++ s')) ∧ (∀ s s' i, got s i <+: got (s ++ s') i) ∧ ∀ s,
      (∀ k, K k → ((Agents.pool act cs db).exec s).db.keys k = (actAll act ((book s).map fun e => e.2.2) db).2.keys k) ∧
      (book s).length ≤ (cs.map (·.2)).sum ∧
      (∀ e ∈ book s, e.1 < cs.length ∧ ∃ c ∈ cs, Agent.Picks c.1 e.2.2 ∧ mine e.2.2 = true) ∧
      ∀ (i : Nat) c t, cs[i]? = some c → ((Agents.pool act cs db).exec s).threads[i]? = some t →
        Agent.Amid act c.1 c.2 (got s i) t ∧
        (chosen i (List.zipWith (fun e o => (e.1, e.2, o)) (book s) (actAll act ((book s).map fun e => e.2.2) db).1) =
          ledger mine c.1 (got s i) ∨
        (¬ Ended t) ∧ ∃ x o, c.1 (got s i) = some x ∧ mine x = true ∧
          chosen i (List.zipWith (fun e o => (e.1, e.2, o)) (book s) (actAll act ((book s).map fun e => e.2.2) db).1) =
            ledger mine c.1 (got s i) ++ [(((got s i).length, x), o)]) := by
  let c0 : Metric → Option Nat := fun _ => none
  have hc0 : Roomy 1 c0 := fun m => by simp [c0]
  let F : α → Store → Outcome DispatchError β × Store := fun x => meaning (act x) c0
  have hD : Doings act Inv F K mine cs := ⟨fun c hc x hx hm => ⟨⟨1, (hsing c hc x hx hm).1.shot hc0⟩, (hsing c hc x hx hm).2⟩,
    hoth, hcnt, hagree⟩
  obtain ⟨f, h1, h2⟩ := growing_along (σ := List (Nat × Nat × α) × List (List (Outcome DispatchError β)))
    (J := fun s a => Booked act Inv F K mine cs db a.1 a.2 ((Agents.pool act cs db).exec s))
    (R := fun a b => Extends a.1 a.2 b.1 b.2) (fun a => .refl _ _) (fun _ _ _ => Extends.trans)
    (by obtain ⟨l, gots, h⟩ := Booked.start (act := act) (F := F) (K := K) (mine := mine) (cs := cs) (db := db) hinv hD
        exact ⟨(l, gots), h⟩)
    (by
      intro s a i h
      obtain ⟨l', gots', h1, h2⟩ := h.step hD hc i
      exact ⟨(l', gots'), h1, by rw [Pool.exec_snoc]; exact h2⟩)
  refine ⟨fun s => (f s).1, fun s i => ((f s).2[i]?).getD [], fun s s' => (h1 s s').1, fun s s' i => ?_, fun s => ?_⟩
  · cases hg : (f s).2[i]? with
    | none => simp only [hg, Option.getD_none]; exact List.nil_prefix
    | some got =>
      obtain ⟨got', h3, h4⟩ := (h1 s s').2 i got hg
      simp only [hg, h3, Option.getD_some]
      exact h4
  · have h := h2 s
    have hpick := h.picked
    obtain ⟨r1, r2⟩ := recital_actAll (act := act) (Inv := Inv) hc0 (f s).1
      (fun e he => by obtain ⟨c, hc, hx, hm⟩ := hpick e he; exact (hsing c hc _ hx hm).1)
      (fun e he => by obtain ⟨c, hc, hx, hm⟩ := hpick e he; exact hcnt c hc _ hx) db hinv (Roomy.mono hc h.length_le)
    refine ⟨fun k hk => by rw [r2]; exact h.keys k hk, h.length_le, fun e he => ⟨h.mem e he, hpick e he⟩, fun i c t hi ht => ?_⟩
    obtain ⟨c', t', got, pend, g1, g2, g3, g4, g5⟩ := h.get (List.getElem?_eq_some_iff.mp hi).1
    rw [hi] at g1
    rw [ht] at g2
    cases g1; cases g2
    simp only [g3, Option.getD_some]
    refine ⟨g4.amid.1, ?_⟩
    rw [r1, show (recital (fun x => meaning (act x) c0) (f s).1 db.keys) = recital F (f s).1 db.keys from rfl, g5]
    rcases g4.amid.2 with rfl | ⟨e1, x, o, e2, e3, -, rfl⟩
    · exact .inl (List.append_nil _)
    · exact .inr ⟨e1, x, o, e2, e3, rfl⟩

end

end Hop
