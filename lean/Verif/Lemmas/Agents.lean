import Verif.Spec.Linear
import Verif.Lemmas.Progress
import Verif.Lemmas.Calls

/-! # Agents that do many things one after the other, each of which takes effect at one moment -/

namespace Hop

open Spec Prog

variable {α β : Type}

/-- Someone who does things of type `α`, each depending on the outcomes so far. -/
abbrev Agent (α β : Type) := List (Outcome DispatchError β) → Option α

/-- The program of an agent that has received the outcomes `past` and does up to `n` more things. -/
def Agent.prog (act : α → Prog β) (c : Agent α β) : Nat → List (Outcome DispatchError β) → Prog (List (Outcome DispatchError β))
  | 0, past => .done (.ok past)
  | n + 1, past =>
    match c past with
    | none => .done (.ok past)
    | some x => (act x).andThen fun o => Agent.prog act c n (past ++ [o])

/-- Agents running concurrently. -/
def Agents.pool (act : α → Prog β) (cs : List (Agent α β × Nat)) (db : Db) : Pool (List (Outcome DispatchError β)) :=
  { threads := cs.map fun c => Agent.prog act c.1 c.2 [], db := db }

/-- The agent may do `x`. -/
def Agent.Picks (c : Agent α β) (x : α) : Prop := ∃ past, c past = some x

/-- Where an agent is. -/
def Agent.Amid (act : α → Prog β) (c : Agent α β) (n : Nat) (got : List (Outcome DispatchError β))
    (t : Prog (List (Outcome DispatchError β))) : Prop :=
  (t = .done (.ok got) ∧ (got.length = n ∨ got.length < n ∧ c got = none)) ∨
  ∃ x p, got.length < n ∧ c got = some x ∧ LeadsTo (act x) p ∧ (∀ o, p ≠ .done o) ∧
    t = p.andThen fun o => Agent.prog act c (n - got.length - 1) (got ++ [o])

/-- Things done one after the other. -/
def actAll (act : α → Prog β) : List α → Db → List (Outcome DispatchError β) × Db
  | [], db => ([], db)
  | x :: xs, db => (((act x).run db).1 :: (actAll act xs ((act x).run db).2).1, (actAll act xs ((act x).run db).2).2)

theorem Counts.run_roomy {p : Prog β} (h : Counts p) (db : Db) (n : Nat) (hc : Roomy (n + 1) db.ctrs) :
    Roomy n (p.run db).2.ctrs := by
  induction p generalizing db with
  | done r => exact Roomy.mono hc (by omega)
  | onKey k upd next ih => exact ih _ (h _) _ hc
  | onCtr m upd next ih =>
    simp only [Prog.run]
    rcases h (db.ctrs m) with ⟨h1, h2⟩ | ⟨h1, r, h2⟩
    · refine ih _ h2 _ ?_
      rw [h1]
      intro m'
      have := hc m'
      simp only [Db.setCtr]
      split
      · rename_i e; subst e; exact this
      · exact this
    · rw [h2]
      intro m'
      have := hc m'
      simp only [Prog.run, Db.setCtr]
      split
      · rename_i e; subst e; omega
      · omega

/-! ## Lists -/

theorem chosen_append {α} (i : Nat) (l l' : List (Nat × α)) : chosen i (l ++ l') = chosen i l ++ chosen i l' := by
  simp [chosen]

theorem chosen_one {α} (i j : Nat) (a : α) : chosen i [(j, a)] = if j = i then [a] else [] := by
  simp only [chosen, List.filterMap_cons, List.filterMap_nil]
  split <;> simp_all

theorem chosen_others {α} {i j : Nat} (h : i ≠ j) {l : List (Nat × α)} (hl : ∀ e ∈ l, e.1 = j) : chosen i l = [] := by
  simp only [chosen, List.filterMap_eq_nil_iff]
  intro e he
  rw [if_neg (by rw [hl e he]; exact fun e => h e.symm)]

/-- All that is chosen is what is there. -/
theorem length_le_chosen {α} (l : List (Nat × α)) (ns : List Nat) (h1 : ∀ e ∈ l, e.1 < ns.length)
    (h2 : ∀ (i n : Nat), ns[i]? = some n → (chosen i l).length ≤ n) : l.length ≤ ns.sum := by
  induction l generalizing ns with
  | nil => simp
  | cons e l ih =>
    obtain ⟨j, a⟩ := e
    have hj : j < ns.length := h1 (j, a) (by simp)
    have hget : ns[j]? = some ns[j] := List.getElem?_eq_getElem hj
    have hpos : (chosen j ((j, a) :: l)).length = (chosen j l).length + 1 := by simp [chosen]
    have hle := h2 j _ hget
    have := ih (ns.set j (ns[j] - 1)) (fun e he => by simpa using h1 e (by simp [he])) (fun i n hi => by
      by_cases hij : j = i
      · subst hij
        rw [List.getElem?_set_self hj] at hi
        simp only [Option.some.injEq] at hi
        omega
      · rw [List.getElem?_set_ne hij] at hi
        have := h2 i n hi
        simpa [chosen, hij] using this)
    have hs := marks_set ns j ns[j] (ns[j] - 1) hget
    simp only [List.length_cons]
    omega

theorem sum_le_sum (l l' : List Nat) (h : l.length = l'.length)
    (hle : ∀ (j a b : Nat), l[j]? = some a → l'[j]? = some b → a ≤ b) : l.sum ≤ l'.sum := by
  induction l generalizing l' with
  | nil => simp
  | cons a l ih =>
    cases l' with
    | nil => simp at h
    | cons b l' =>
      have h1 := hle 0 a b rfl rfl
      have h2 := ih l' (by simpa using h) (fun j a b ha hb => hle (j + 1) a b (by simpa using ha) (by simpa using hb))
      simp only [List.sum_cons]
      omega

/-! ## Serving a roll -/

/-- What is on a roll, one after the other, each doing `F`. -/
def recite (F : α → Store → Outcome DispatchError β × Store) :
    List (Nat × α) → Store → List (Nat × Outcome DispatchError β) × Store
  | [], s => ([], s)
  | e :: l, s => ((e.1, (F e.2 s).1) :: (recite F l (F e.2 s).2).1, (recite F l (F e.2 s).2).2)

theorem recite_append (F : α → Store → Outcome DispatchError β × Store) (l l' : List (Nat × α)) (s : Store) :
    recite F (l ++ l') s = ((recite F l s).1 ++ (recite F l' (recite F l s).2).1, (recite F l' (recite F l s).2).2) := by
  induction l generalizing s with
  | nil => rfl
  | cons e l ih => simp only [List.cons_append, recite, ih]

theorem recite_fst (F : α → Store → Outcome DispatchError β × Store) (l : List (Nat × α)) (s : Store) :
    (recite F l s).1.map Prod.fst = l.map Prod.fst := by
  induction l generalizing s with
  | nil => rfl
  | cons e l ih => simp only [recite, List.map_cons, ih]

theorem chosen_map_length {α β} (i : Nat) (l : List (Nat × α)) (l' : List (Nat × β)) (h : l.map Prod.fst = l'.map Prod.fst) :
    (chosen i l).length = (chosen i l').length := by
  induction l generalizing l' with
  | nil => simp at h; subst h; rfl
  | cons e l ih =>
    cases l' with
    | nil => simp at h
    | cons e' l' =>
      simp only [List.map_cons, List.cons.injEq] at h
      have := ih l' h.2
      simp only [chosen, List.filterMap_cons, h.1]
      simp only [chosen] at this
      by_cases h' : e'.1 = i <;> simp [h', this]

/-- Reciting is doing. -/
theorem recite_actAll {act : α → Prog β} {Inv : Store → Prop} {c0 : Metric → Option Nat} (hc0 : Roomy 1 c0) (l : List (Nat × α))
    (hs : ∀ e ∈ l, Single Inv (fun p => ∃ r, Ends r p) 1 (act e.2)) (hcnt : ∀ e ∈ l, Counts (act e.2)) (db : Db) (hi : Inv db.keys)
    (hc : Roomy l.length db.ctrs) :
    (l.map Prod.fst).zip (actAll act (l.map Prod.snd) db).1 =
      (recite (fun x => meaning (act x) c0) l db.keys).1 ∧
    (actAll act (l.map Prod.snd) db).2.keys = (recite (fun x => meaning (act x) c0) l db.keys).2 := by
  induction l generalizing db with
  | nil => exact ⟨rfl, rfl⟩
  | cons e l ih =>
    obtain ⟨j, x⟩ := e
    simp only [List.length_cons] at hc
    obtain ⟨h1, h2⟩ := (hs (j, x) (by simp)).meaning_ctrs (c := c0) (c' := db.ctrs) hc0
      (Roomy.mono hc (by omega)) db.keys hi
    have hr := (hcnt (j, x) (by simp)).run_roomy db l.length hc
    have e1 : (meaning (act x) db.ctrs db.keys) =
      (((act x).run db).1, ((act x).run db).2.keys) := rfl
    simp only at h1 h2
    rw [e1] at h1
    have := ih (fun e he => hs e (by simp [he])) (fun e he => hcnt e (by simp [he])) ((act x).run db).2 (by rw [h1] at h2; exact h2) hr
    simp only [List.map_cons, actAll, recite, List.zip_cons_cons, h1]
    exact ⟨by rw [this.1], this.2⟩

/-! ## Agent α βs -/

section
variable (act : α → Prog β) (Inv : Store → Prop) (F : α → Store → Outcome DispatchError β × Store)

/-- Where an agent is, and what it has done that has taken effect: `outs` are the outcomes of those. -/
inductive Standing (c : Agent α β) (n : Nat) (got : List (Outcome DispatchError β)) :
    Prog (List (Outcome DispatchError β)) → List (Outcome DispatchError β) → Prop
  | idle : (got.length = n ∨ got.length < n ∧ c got = none) → Standing c n got (.done (.ok got)) got
  | before {x : α} {p : Prog β} {k : Nat} : got.length < n → c got = some x →
    LeadsTo (act x) p → live p = true → Shot Inv (F x) k p →
    Standing c n got (p.andThen fun o => Agent.prog act c (n - got.length - 1) (got ++ [o])) got
  | after {x : α} {p : Prog β} {o : Outcome DispatchError β} : got.length < n →
    c got = some x → LeadsTo (act x) p → live p = true → Ends o p →
    Standing c n got (p.andThen fun o => Agent.prog act c (n - got.length - 1) (got ++ [o])) (got ++ [o])

/-- What an agent has done is what it picks after the outcomes. -/
def Faithful (c : Agent α β) (reqs : List α) (outs : List (Outcome DispatchError β)) : Prop :=
  ∀ (j : Nat) x, reqs[j]? = some x → c (outs.take j) = some x

end

theorem Faithful.snoc {c : Agent α β} {reqs : List α} {outs : List (Outcome DispatchError β)}
    (h : Faithful c reqs outs) (hl : reqs.length = outs.length) {x : α} (hx : c outs = some x)
    (o : Outcome DispatchError β) : Faithful c (reqs ++ [x]) (outs ++ [o]) := by
  intro j y hy
  by_cases hj : j < reqs.length
  · rw [List.getElem?_append_left hj] at hy
    rw [List.take_append_of_le_length (by omega)]
    exact h j y hy
  · rw [List.getElem?_append_right (by omega)] at hy
    have hj' : j - reqs.length = 0 := by
      rw [List.getElem?_eq_some_iff] at hy
      have := hy.1
      simp at this
      omega
    rw [hj'] at hy
    simp only [List.getElem?_cons_zero, Option.some.injEq] at hy
    subst hy
    have : j = outs.length := by omega
    subst this
    simpa using hx

theorem leads_step {α} {p q : Prog α} (h : LeadsTo p q) (db : Db) : LeadsTo p (q.step db).1 := by
  induction h with
  | here =>
    rename_i p
    cases p with
    | done r => exact .here
    | onKey k upd next => exact .onKey .here
    | onCtr m upd next => exact .onCtr .here
  | onKey _ ih => exact .onKey ih
  | onCtr _ ih => exact .onCtr ih

/-- The agents after some schedule, explained by the roll. -/
structure Enrolled (act : α → Prog β) (Inv : Store → Prop) (F : α → Store → Outcome DispatchError β × Store)
    (cs : List (Agent α β × Nat)) (db : Db) (l : List (Nat × α)) (gots : List (List (Outcome DispatchError β)))
    (p : Pool (List (Outcome DispatchError β))) : Prop where
  keys : p.db.keys = (recite F l db.keys).2
  inv : Inv p.db.keys
  threads : p.threads.length = cs.length
  length : gots.length = cs.length
  mem : ∀ e ∈ l, e.1 < cs.length
  room : ∀ m, (p.db.ctrs m).getD 0 ≤ (db.ctrs m).getD 0 + (gots.map List.length).sum
  few : ∀ (i : Nat) c got, cs[i]? = some c → gots[i]? = some got → got.length ≤ c.2
  stand : ∀ (i : Nat) c t got, cs[i]? = some c → p.threads[i]? = some t → gots[i]? = some got →
    Standing act Inv F c.1 c.2 got t (chosen i (recite F l db.keys).1) ∧
    Faithful c.1 (chosen i l) (chosen i (recite F l db.keys).1)

/-- An agent that has received the outcomes `got` goes on: things that take no operation at all are put on the roll at
once. -/
theorem settle_in {act : α → Prog β} {Inv : Store → Prop} {F : α → Store → Outcome DispatchError β × Store}
    {c : Agent α β} {i n : Nat} (hF : ∀ x, Agent.Picks c x → ∃ k, Shot Inv (F x) k (act x)) {s0 : Store} (m : Nat)
    (got : List (Outcome DispatchError β)) (hm : got.length + m = n) (l : List (Nat × α)) (hi : Inv (recite F l s0).2)
    (ho : chosen i (recite F l s0).1 = got) (hf : Faithful c (chosen i l) got) :
    ∃ ext got', (∀ e ∈ ext, e.1 = i) ∧ (recite F (l ++ ext) s0).2 = (recite F l s0).2 ∧ got.length ≤ got'.length ∧
      got'.length ≤ n ∧ (∀ e ∈ ext, Agent.Picks c e.2) ∧
      Standing act Inv F c n got' (Agent.prog act c m got) (chosen i (recite F (l ++ ext) s0).1) ∧
      Faithful c (chosen i (l ++ ext)) (chosen i (recite F (l ++ ext) s0).1) := by
  induction m generalizing got l with
  | zero =>
    refine ⟨[], got, by simp, by simp, by omega, by omega, by simp, ?_, by simpa [ho] using hf⟩
    simp only [List.append_nil, ho, Agent.prog]
    exact .idle (.inl (by omega))
  | succ m ih =>
    cases hc : c got with
    | none =>
      refine ⟨[], got, by simp, by simp, by omega, by omega, by simp, ?_, by simpa [ho] using hf⟩
      simp only [List.append_nil, ho, Agent.prog, hc]
      exact .idle (.inr ⟨by omega, hc⟩)
    | some x =>
      have hiss : Agent.Picks c x := ⟨got, hc⟩
      obtain ⟨k, hs⟩ := hF x hiss
      cases hl : live (act x) with
      | true =>
        refine ⟨[], got, by simp, by simp, by omega, by omega, by simp, ?_, by simpa [ho] using hf⟩
        simp only [List.append_nil, ho, Agent.prog, hc]
        have : m = n - got.length - 1 := by omega
        rw [this]
        exact .before (by omega) hc .here hl hs
      | false =>
        cases hd : act x with
        | onKey => rw [hd] at hl; simp [live] at hl
        | onCtr => rw [hd] at hl; simp [live] at hl
        | done o =>
          rw [hd] at hs
          cases hs with
          | @quiet _ _ o' he hF' =>
            simp only [Ends] at he
            subst he
            have hFs := hF' _ hi
            have hsn : recite F (l ++ [(i, x)]) s0 = ((recite F l s0).1 ++ [(i, o)], (recite F l s0).2) := by
              rw [recite_append]
              simp only [recite, hFs]
            have hlen : (chosen i l).length = got.length := by
              rw [← ho]; exact chosen_map_length i _ _ (recite_fst F l s0).symm
            obtain ⟨ext, got', h1, h2, h3, h4, h5, h6, h7⟩ := ih (got ++ [o]) (by simp; omega) (l ++ [(i, x)])
              (by rw [hsn]; exact hi) (by rw [hsn]; simp [chosen_append, chosen_one, ho])
              (by rw [chosen_append, chosen_one, if_pos rfl]; exact hf.snoc hlen hc o)
            refine ⟨(i, x) :: ext, got', ?_, ?_, by simp at h3; omega, h4, ?_, ?_, ?_⟩
            · intro e he
              simp only [List.mem_cons] at he
              rcases he with rfl | he
              · rfl
              · exact h1 e he
            · rw [List.append_cons, h2, hsn]
            · intro e he
              simp only [List.mem_cons] at he
              rcases he with rfl | he
              · exact hiss
              · exact h5 e he
            · rw [List.append_cons]
              simp only [Agent.prog, hc, hd, Prog.andThen]
              exact h6
            · rw [List.append_cons]; exact h7

theorem andThen_live_step {α β} {p : Prog α} (hl : live p = true) (g : Outcome DispatchError α → Prog β) (db : Db) :
    (p.andThen g).step db = ((p.step db).1.andThen g, (p.step db).2) := by
  cases p with
  | done r => simp [live] at hl
  | onKey k upd next => rfl
  | onCtr m upd next => rfl

/-- Agent α β `i` has made a step. -/
theorem Enrolled.update {act : α → Prog β} {Inv : Store → Prop} {F : α → Store → Outcome DispatchError β × Store}
    {cs : List (Agent α β × Nat)} {db : Db} {l : List (Nat × α)} {gots : List (List (Outcome DispatchError β))}
    {p : Pool (List (Outcome DispatchError β))} (h : Enrolled act Inv F cs db l gots p) {i : Nat} {c : Agent α β × Nat}
    {t : Prog (List (Outcome DispatchError β))} {got : List (Outcome DispatchError β)} (hc : cs[i]? = some c)
    (ht : p.threads[i]? = some t) (hg : gots[i]? = some got) (ext : List (Nat × α)) (hext : ∀ e ∈ ext, e.1 = i)
    (got' : List (Outcome DispatchError β)) (hgot : got'.length ≤ c.2)
    (hk : (t.step p.db).2.keys = (recite F (l ++ ext) db.keys).2) (hinv : Inv (t.step p.db).2.keys)
    (hctr : ∀ m, ((t.step p.db).2.ctrs m).getD 0 + got.length ≤ (p.db.ctrs m).getD 0 + got'.length)
    (hst : Standing act Inv F c.1 c.2 got' (t.step p.db).1 (chosen i (recite F (l ++ ext) db.keys).1))
    (hfa : Faithful c.1 (chosen i (l ++ ext)) (chosen i (recite F (l ++ ext) db.keys).1)) :
    Enrolled act Inv F cs db (l ++ ext) (gots.set i got') (p.stepAt i) := by
  have hi : i < cs.length := (List.getElem?_eq_some_iff.mp hc).1
  have hi1 : i < p.threads.length := by rw [h.threads]; exact hi
  have hi2 : i < gots.length := by rw [h.length]; exact hi
  rw [Pool.stepAt_some ht]
  refine ⟨hk, hinv, by simp [h.threads], by simp [h.length], ?_, ?_, ?_, ?_⟩
  · intro e he
    simp only [List.mem_append] at he
    rcases he with he | he
    · exact h.mem e he
    · rw [hext e he]; exact hi
  · intro m
    have h1 := h.room m
    have h2 := hctr m
    have h3 := marks_set (gots.map List.length) i got.length got'.length (by simp [hg])
    rw [List.map_set]
    simp only at h1 h2 h3 ⊢
    omega
  · intro j c' got'' hj hgj
    by_cases e : i = j
    · subst e
      rw [List.getElem?_set_self hi2] at hgj
      rw [hc] at hj
      simp only [Option.some.injEq] at hj hgj
      subst hj; subst hgj
      exact hgot
    · rw [List.getElem?_set_ne e] at hgj
      exact h.few j c' got'' hj hgj
  · intro j c' t' got'' hj htj hgj
    by_cases e : i = j
    · subst e
      rw [List.getElem?_set_self hi2] at hgj
      rw [List.getElem?_set_self hi1] at htj
      rw [hc] at hj
      simp only [Option.some.injEq] at hj hgj htj
      subst hj; subst hgj; subst htj
      exact ⟨hst, hfa⟩
    · rw [List.getElem?_set_ne e] at hgj htj
      obtain ⟨h1, h2⟩ := h.stand j c' t' got'' hj htj hgj
      have e1 : chosen j (l ++ ext) = chosen j l := by
        rw [chosen_append, chosen_others (fun e' => e e'.symm) hext, List.append_nil]
      have e2 : chosen j (recite F (l ++ ext) db.keys).1 = chosen j (recite F l db.keys).1 := by
        rw [recite_append, chosen_append, chosen_others (j := i) (l := (recite F ext _).1) (fun e' => e e'.symm), List.append_nil]
        intro x hx
        have hx' : x.1 ∈ (recite F ext (recite F l db.keys).2).1.map Prod.fst := List.mem_map_of_mem hx
        rw [recite_fst] at hx'
        simp only [List.mem_map] at hx'
        obtain ⟨y, hy, hyx⟩ := hx'
        rw [← hyx]; exact hext y hy
      rw [e1, e2]
      exact ⟨h1, h2⟩

theorem leads_counts {α} {p q : Prog α} (h : LeadsTo p q) (hp : Counts p) : Counts q := by
  induction h with
  | here => exact hp
  | onKey _ ih => exact ih (hp _)
  | @onCtr m upd next o q hl ih =>
    rcases hp o with h | ⟨-, r, h⟩
    · exact ih h.2
    · rw [h] at hl
      cases hl with
      | here => trivial

theorem Enrolled.step {act : α → Prog β} {Inv : Store → Prop} {F : α → Store → Outcome DispatchError β × Store}
    {cs : List (Agent α β × Nat)} {db : Db} {l : List (Nat × α)} {gots : List (List (Outcome DispatchError β))}
    {p : Pool (List (Outcome DispatchError β))} (h : Enrolled act Inv F cs db l gots p)
    (hF : ∀ c ∈ cs, ∀ x, Agent.Picks c.1 x → ∃ k, Shot Inv (F x) k (act x))
    (hcnt : ∀ c ∈ cs, ∀ x, Agent.Picks c.1 x → Counts (act x))
    (hroom : Roomy (cs.map (·.2)).sum db.ctrs) (i : Nat) :
    ∃ ext gots', Enrolled act Inv F cs db (l ++ ext) gots' (p.stepAt i) := by
  cases ht : p.threads[i]? with
  | none => rw [Pool.stepAt_none ht]; exact ⟨[], gots, by simpa using h⟩
  | some t =>
    have hi : i < cs.length := by rw [← h.threads]; exact (List.getElem?_eq_some_iff.mp ht).1
    obtain ⟨c, hc⟩ : ∃ c, cs[i]? = some c := ⟨_, List.getElem?_eq_getElem hi⟩
    obtain ⟨got, hg⟩ : ∃ got, gots[i]? = some got := ⟨_, List.getElem?_eq_getElem (by rw [h.length]; exact hi)⟩
    obtain ⟨hst, hfa⟩ := h.stand i c t got hc ht hg
    have hmem : c ∈ cs := List.mem_of_getElem? hc
    have hroom1 : got.length < c.2 → ∀ m, ((p.db.ctrs m).getD 0) + 1 < 2 ^ 64 := by
      intro hlt m
      have h1 := h.room m
      have h2 := hroom m
      have h3 : (gots.map List.length).sum + 1 ≤ (cs.map (·.2)).sum := by
        have h4 := marks_set (gots.map List.length) i got.length (got.length + 1) (by simp [hg])
        have h5 : ((gots.map List.length).set i (got.length + 1)).sum ≤ (cs.map (·.2)).sum := by
          apply sum_le_sum
          · simp [h.length]
          · intro j a b ha hb
            by_cases e : i = j
            · subst e
              rw [List.getElem?_set_self (by simp [h.length]; exact hi)] at ha
              simp only [List.getElem?_map, hc, Option.map_some, Option.some.injEq] at ha hb
              omega
            · rw [List.getElem?_set_ne e] at ha
              simp only [List.getElem?_map, Option.map_eq_some_iff] at ha hb
              obtain ⟨g, hg', rfl⟩ := ha
              obtain ⟨c', hc', rfl⟩ := hb
              exact h.few j c' g hc' hg'
        omega
      omega
    -- the outcome is there and the agent goes on
    have finish : ∀ (ext0 : List (Nat × α)) (o : Outcome DispatchError β), got.length < c.2 → (∀ e ∈ ext0, e.1 = i) →
        (t.step p.db).1 = Agent.prog act c.1 (c.2 - got.length - 1) (got ++ [o]) →
        (t.step p.db).2.keys = (recite F (l ++ ext0) db.keys).2 → Inv (t.step p.db).2.keys →
        (∀ m, ((t.step p.db).2.ctrs m).getD 0 ≤ (p.db.ctrs m).getD 0 + 1) →
        chosen i (recite F (l ++ ext0) db.keys).1 = got ++ [o] → Faithful c.1 (chosen i (l ++ ext0)) (got ++ [o]) →
        ∃ ext gots', Enrolled act Inv F cs db (l ++ ext) gots' (p.stepAt i) := by
      intro ext0 o hlt h0 h1 h2 h3 h4 h5 h6
      obtain ⟨ext, got', g1, g2, g3, g4, -, g6, g7⟩ := settle_in (act := act) (c := c.1) (i := i) (n := c.2) (s0 := db.keys)
        (hF c hmem) (c.2 - got.length - 1) (got ++ [o]) (by simp; omega) (l ++ ext0) (by rw [← h2]; exact h3) h5 h6
      refine ⟨ext0 ++ ext, gots.set i got', ?_⟩
      rw [List.append_assoc] at g2 g6 g7
      simp only [List.length_append, List.length_singleton] at g3
      refine h.update hc ht hg (ext0 ++ ext) ?_ got' g4 (by rw [g2]; exact h2) h3 ?_ (by rw [h1]; exact g6) g7
      · intro e he
        simp only [List.mem_append] at he
        rcases he with he | he
        · exact h0 e he
        · exact g1 e he
      · intro m
        have := h4 m
        omega
    have hone : ∀ x (o : Outcome DispatchError β) s, s = (recite F l db.keys).2 → F x s = (o, (F x s).2) →
        c.1 got = some x → chosen i (recite F l db.keys).1 = got →
        chosen i (recite F (l ++ [(i, x)]) db.keys).1 = got ++ [o] ∧
        (recite F (l ++ [(i, x)]) db.keys).2 = (F x s).2 ∧
        Faithful c.1 (chosen i (l ++ [(i, x)])) (got ++ [o]) := by
      intro x o s hs hFs hcg ho
      have hlen : (chosen i l).length = got.length := by
        rw [← ho]; exact chosen_map_length i _ _ (recite_fst F l db.keys).symm
      rw [recite_append, ← hs]
      refine ⟨?_, by simp only [recite], ?_⟩
      · simp only [recite]
        rw [chosen_append, ho, chosen_one, if_pos rfl, hFs]
      · rw [chosen_append, chosen_one, if_pos rfl]
        rw [ho] at hfa
        exact hfa.snoc hlen hcg o
    generalize hout : chosen i (recite F l db.keys).1 = outs at hst hfa
    cases hst with
    | idle hd =>
      rw [Pool.stepAt_done ht]
      exact ⟨[], gots, by simpa using h⟩
    | @after x q o hlt hcg hlead hlive he =>
      cases q with
      | done => simp [live] at hlive
      | onKey => exact absurd he id
      | onCtr m upd next =>
        have hn := he _ (hroom1 hlt m)
        have hcn := leads_counts hlead (hcnt c hmem x ⟨_, hcg⟩)
        refine finish [] o hlt (by simp) ?_ (by rw [List.append_nil]; exact h.keys) h.inv ?_ (by simpa using hout) (by simpa using hfa)
        · simp only [Prog.andThen, Prog.step, hn]
        · intro m'
          simp only [Prog.andThen, Prog.step, Db.setCtr]
          split
          · rename_i e
            subst e
            rcases hcn (p.db.ctrs m') with hx | hx
            · rw [hx.1]; omega
            · exact hx.1
          · omega
    | @before x q k hlt hcg hlead hlive hs =>
      cases hs with
      | @quiet _ _ o he hFq =>
        cases q with
        | done => simp [live] at hlive
        | onKey => exact absurd he id
        | onCtr m upd next =>
          have hn := he _ (hroom1 hlt m)
          have hcn := leads_counts hlead (hcnt c hmem x ⟨_, hcg⟩)
          have hFs := hFq _ h.inv
          obtain ⟨a1, a2, a3⟩ := hone x o p.db.keys h.keys (by rw [hFs]) hcg hout
          refine finish [(i, x)] o hlt (by simp) ?_ (by rw [a2, hFs]; rfl) h.inv ?_ a1 a3
          · simp only [Prog.andThen, Prog.step, hn]
          · intro m'
            simp only [Prog.andThen, Prog.step, Db.setCtr]
            split
            · rename_i e
              subst e
              rcases hcn (p.db.ctrs m') with hx | hx
              · rw [hx.1]; omega
              · exact hx.1
            · omega
      | @fire _ key upd next hFq =>
        obtain ⟨b1, b2, b3⟩ := hFq _ h.inv
        obtain ⟨a1, a2, a3⟩ := hone x (F x p.db.keys).1 p.db.keys h.keys rfl hcg hout
        cases hl : live (next (p.db.keys key)) with
        | false =>
          cases hq : next (p.db.keys key) with
          | onKey => rw [hq] at hl; simp [live] at hl
          | onCtr => rw [hq] at hl; simp [live] at hl
          | done o =>
            rw [hq] at b3
            simp only [Ends] at b3
            rw [← b3] at a1 a3
            refine finish [(i, x)] o hlt (by simp) ?_ (by rw [a2, b2]; rfl) b1 (fun m => by simp [Prog.andThen, Prog.step, Db.setKey]) a1 a3
            simp only [Prog.andThen, Prog.step, hq]
        | true =>
          refine ⟨[(i, x)], gots.set i got, h.update hc ht hg _ (by simp) got (by omega) (by rw [a2, b2]; rfl) b1
            (fun m => by simp [Prog.andThen, Prog.step, Db.setKey]) ?_ (by rw [a1]; exact a3)⟩
          rw [a1]
          simp only [Prog.andThen, Prog.step]
          exact .after hlt hcg (leads_step hlead p.db) hl b3
      | @look k' key upd next q' hFq hq' =>
        obtain ⟨b1, b2⟩ := hFq _ h.inv
        have hsame : (p.db.setKey key (upd (p.db.keys key))) = p.db := by
          rw [b1]; simp only [Db.setKey]; congr 1; exact put_same p.db.keys key
        cases hl : live q' with
        | true =>
          refine ⟨[], gots.set i got, h.update hc ht hg [] (by simp) got (by omega) ?_ ?_ ?_ ?_ (by simpa [hout] using hfa)⟩
          · simp only [Prog.andThen, Prog.step, hsame, List.append_nil]; exact h.keys
          · simp only [Prog.andThen, Prog.step, hsame]; exact h.inv
          · intro m; simp only [Prog.andThen, Prog.step, hsame]; omega
          · simp only [Prog.andThen, Prog.step, b2, List.append_nil, hout]
            have hld := leads_step hlead p.db
            simp only [Prog.step, b2] at hld
            exact .before hlt hcg hld hl hq'
        | false =>
          cases q' with
          | onKey => simp [live] at hl
          | onCtr => simp [live] at hl
          | done o =>
            cases hq' with
            | @quiet _ _ o' he hF' =>
              simp only [Ends] at he
              subst he
              have hFs := hF' _ h.inv
              obtain ⟨a1, a2, a3⟩ := hone x o p.db.keys h.keys (by rw [hFs]) hcg hout
              refine finish [(i, x)] o hlt (by simp) ?_ ?_ ?_ ?_ a1 a3
              · simp only [Prog.andThen, Prog.step, b2]
              · simp only [Prog.andThen, Prog.step, hsame]; rw [a2, hFs]
              · simp only [Prog.andThen, Prog.step, hsame]; exact h.inv
              · intro m; simp only [Prog.andThen, Prog.step, hsame]; omega

theorem Enrolled.start {act : α → Prog β} {Inv : Store → Prop} {F : α → Store → Outcome DispatchError β × Store}
    {cs : List (Agent α β × Nat)} {db : Db} (hinv : Inv db.keys)
    (hF : ∀ c ∈ cs, ∀ x, Agent.Picks c.1 x → ∃ k, Shot Inv (F x) k (act x)) :
    ∃ l gots, Enrolled act Inv F cs db l gots (Agents.pool act cs db) := by
  -- one agent after the other enters
  suffices h : ∀ m, m ≤ cs.length → ∃ (l : List (Nat × α)) (gots : List (List (Outcome DispatchError β))), gots.length = cs.length ∧
      (∀ e ∈ l, e.1 < m) ∧ (recite F l db.keys).2 = db.keys ∧
      (∀ (i : Nat) c got, cs[i]? = some c → gots[i]? = some got → got.length ≤ c.2) ∧
      ∀ (i : Nat) c got, i < m → cs[i]? = some c → gots[i]? = some got →
        Standing act Inv F c.1 c.2 got (Agent.prog act c.1 c.2 []) (chosen i (recite F l db.keys).1) ∧
        Faithful c.1 (chosen i l) (chosen i (recite F l db.keys).1) by
    obtain ⟨l, gots, h1, h2, h3, h4, h5⟩ := h cs.length (Nat.le_refl _)
    refine ⟨l, gots, h3.symm, hinv, by simp [Agents.pool], h1, h2, fun m => by simp only [Agents.pool]; omega, h4, ?_⟩
    intro i c t got hc ht hg
    simp only [Agents.pool, List.getElem?_map, hc, Option.map_some, Option.some.injEq] at ht
    subst ht
    exact h5 i c got (List.getElem?_eq_some_iff.mp hc).1 hc hg
  intro m
  induction m with
  | zero =>
    intro _
    refine ⟨[], List.replicate cs.length [], by simp, by simp, rfl, ?_, by simp⟩
    intro i c got _ hg
    rw [List.getElem?_replicate] at hg
    split at hg
    · cases hg; simp
    · cases hg
  | succ m ih =>
    intro hm
    obtain ⟨l, gots, h1, h2, h3, h4, h5⟩ := ih (by omega)
    obtain ⟨c, hc⟩ : ∃ c, cs[m]? = some c := ⟨_, List.getElem?_eq_getElem (by omega)⟩
    have hnone : chosen m l = [] := by
      simp only [chosen, List.filterMap_eq_nil_iff]
      intro e he
      rw [if_neg (by have := h2 e he; omega)]
    have hnone' : chosen m (recite F l db.keys).1 = [] := by
      rw [← List.length_eq_zero_iff, chosen_map_length m _ l (recite_fst F l db.keys), hnone]; rfl
    obtain ⟨ext, got', g1, g2, g3, g4, -, g6, g7⟩ := settle_in (act := act) (c := c.1) (i := m) (n := c.2) (s0 := db.keys)
      (hF c (List.mem_of_getElem? hc)) c.2 [] (by simp) l (by rw [h3]; exact hinv) hnone' (by rw [hnone]; intro j x hx; simp at hx)
    refine ⟨l ++ ext, gots.set m got', by simp [h1], ?_, by rw [g2, h3], ?_, ?_⟩
    · intro e he
      simp only [List.mem_append] at he
      rcases he with he | he
      · have := h2 e he; omega
      · rw [g1 e he]; omega
    · intro i c' got hci hgi
      by_cases e : m = i
      · subst e
        rw [List.getElem?_set_self (by omega)] at hgi
        rw [hc] at hci
        cases hci; cases hgi
        exact g4
      · rw [List.getElem?_set_ne e] at hgi
        exact h4 i c' got hci hgi
    · intro i c' got him hci hgi
      by_cases e : m = i
      · subst e
        rw [List.getElem?_set_self (by omega)] at hgi
        rw [hc] at hci
        cases hci; cases hgi
        exact ⟨g6, g7⟩
      · rw [List.getElem?_set_ne e] at hgi
        have e1 : chosen i (l ++ ext) = chosen i l := by
          rw [chosen_append, chosen_others (fun e' => e e'.symm) g1, List.append_nil]
        have e2 : chosen i (recite F (l ++ ext) db.keys).1 = chosen i (recite F l db.keys).1 := by
          rw [recite_append, chosen_append, chosen_others (j := m) (l := (recite F ext _).1) (fun e' => e e'.symm), List.append_nil]
          intro x hx
          have hx' : x.1 ∈ (recite F ext (recite F l db.keys).2).1.map Prod.fst := List.mem_map_of_mem hx
          rw [recite_fst] at hx'
          simp only [List.mem_map] at hx'
          obtain ⟨y, hy, hyx⟩ := hx'
          rw [← hyx]; exact g1 y hy
        rw [e1, e2]
        exact h5 i c' got (by omega) hci hgi

/-- The moments of all executions can be given rolls, each a continuation of the rolls of earlier moments. -/
theorem growing {J : List Nat → List (Nat × α) → Prop} (h0 : ∃ l, J [] l) (hstep : ∀ s l i, J s l → ∃ ext, J (s ++ [i]) (l ++ ext)) :
    ∃ f : List Nat → List (Nat × α), (∀ s s', ∃ ext, f (s ++ s') = f s ++ ext) ∧ ∀ s, J s (f s) := by
  let g : (s : List Nat) → { l : List (Nat × α) // J s.reverse l } := fun s =>
    List.rec (motive := fun s => { l : List (Nat × α) // J s.reverse l }) ⟨h0.choose, h0.choose_spec⟩
      (fun i s ih => ⟨ih.1 ++ (hstep s.reverse ih.1 i ih.2).choose, by
        rw [List.reverse_cons]; exact (hstep s.reverse ih.1 i ih.2).choose_spec⟩) s
  have hg : ∀ i s, ∃ ext, (g (i :: s)).1 = (g s).1 ++ ext := fun i s => ⟨_, rfl⟩
  refine ⟨fun s => (g s.reverse).1, fun s s' => ?_, fun s => ?_⟩
  · induction s' using snoc_induction with
    | h0 => exact ⟨[], by rw [List.append_nil, List.append_nil]⟩
    | h1 s' i ih =>
      obtain ⟨ext, he⟩ := ih
      obtain ⟨ext', he'⟩ := hg i (s ++ s').reverse
      refine ⟨ext ++ ext', ?_⟩
      have e : (s ++ (s' ++ [i])).reverse = i :: (s ++ s').reverse := by simp
      show (g (s ++ (s' ++ [i])).reverse).1 = _
      rw [e, he', ← List.append_assoc]
      exact congrArg (· ++ ext') he
  · have := (g s.reverse).2
    simpa using this

theorem Standing.amid {act : α → Prog β} {Inv : Store → Prop} {F : α → Store → Outcome DispatchError β × Store}
    {c : Agent α β} {n : Nat} {got outs : List (Outcome DispatchError β)} {t : Prog (List (Outcome DispatchError β))}
    (h : Standing act Inv F c n got t outs) :
    Agent.Amid act c n got t ∧ (outs = got ∨ (¬ Ended t) ∧ ∃ o, outs = got ++ [o]) := by
  have hlive : ∀ {p : Prog β}, live p = true → ∀ o, p ≠ .done o := by
    intro p hp o e; subst e; simp [live] at hp
  cases h with
  | idle h => exact ⟨.inl ⟨rfl, h⟩, .inl rfl⟩
  | before h1 h2 h3 h4 h5 => exact ⟨.inr ⟨_, _, h1, h2, h3, hlive h4, rfl⟩, .inl rfl⟩
  | @after x p o h1 h2 h3 h4 h5 =>
    refine ⟨.inr ⟨_, _, h1, h2, h3, hlive h4, rfl⟩, .inr ⟨?_, o, rfl⟩⟩
    cases p with
    | done => simp [live] at h4
    | onKey => exact id
    | onCtr => exact id

theorem Standing.length_le {act : α → Prog β} {Inv : Store → Prop} {F : α → Store → Outcome DispatchError β × Store}
    {c : Agent α β} {n : Nat} {got outs : List (Outcome DispatchError β)} {t : Prog (List (Outcome DispatchError β))}
    (h : Standing act Inv F c n got t outs) : outs.length ≤ n := by
  cases h with
  | idle h => omega
  | before => omega
  | after => simp; omega

/-- Agents all of whose doings take effect at one moment: what they have done is a roll that only grows. -/
theorem agents_one_after_the_other {act : α → Prog β} {Inv : Store → Prop} {cs : List (Agent α β × Nat)}
    (hsing : ∀ c ∈ cs, ∀ x, Agent.Picks c.1 x → Single Inv (fun p => ∃ r, Ends r p) 1 (act x))
    (hcnt : ∀ c ∈ cs, ∀ x, Agent.Picks c.1 x → Counts (act x)) (db : Db) (hinv : Inv db.keys)
    (hc : Roomy (cs.map (·.2)).sum db.ctrs) :
    ∃ roll : List Nat → List (Nat × α), (∀ s s', ∃ more, roll (s ++ s') = roll s ++ more) ∧ ∀ s,
      Inv ((Agents.pool act cs db).exec s).db.keys ∧
      ((Agents.pool act cs db).exec s).db.keys = (actAll act ((roll s).map Prod.snd) db).2.keys ∧
      (∀ e ∈ roll s, e.1 < cs.length) ∧
      ∀ (i : Nat) c t, cs[i]? = some c → ((Agents.pool act cs db).exec s).threads[i]? = some t →
        ∃ outs got, chosen i (((roll s).map Prod.fst).zip (actAll act ((roll s).map Prod.snd) db).1) = outs ∧
          (∀ (j : Nat) x, (chosen i (roll s))[j]? = some x → c.1 (outs.take j) = some x) ∧
          Agent.Amid act c.1 c.2 got t ∧ (outs = got ∨ (¬ Ended t) ∧ ∃ o, outs = got ++ [o]) := by
  let c0 : Metric → Option Nat := fun _ => none
  have hc0 : Roomy 1 c0 := fun m => by simp [c0]
  let F : α → Store → Outcome DispatchError β × Store := fun x => meaning (act x) c0
  have hF : ∀ c ∈ cs, ∀ x, Agent.Picks c.1 x → ∃ k, Shot Inv (F x) k (act x) :=
    fun c hc x hx => ⟨1, (hsing c hc x hx).shot hc0⟩
  obtain ⟨roll, h1, h2⟩ := growing (J := fun s l => ∃ gots, Enrolled act Inv F cs db l gots ((Agents.pool act cs db).exec s))
    (Enrolled.start hinv hF) (by
      rintro s l i ⟨gots, h⟩
      obtain ⟨ext, gots', h'⟩ := h.step hF hcnt hc i
      exact ⟨ext, gots', by rw [Pool.exec_snoc]; exact h'⟩)
  refine ⟨roll, h1, fun s => ?_⟩
  obtain ⟨gots, h⟩ := h2 s
  have hget : ∀ i, i < cs.length → ∃ c t got, cs[i]? = some c ∧ ((Agents.pool act cs db).exec s).threads[i]? = some t ∧
      gots[i]? = some got := fun i hi =>
    ⟨_, _, _, List.getElem?_eq_getElem hi, List.getElem?_eq_getElem (by rw [h.threads]; exact hi),
      List.getElem?_eq_getElem (by rw [h.length]; exact hi)⟩
  have hlen : (roll s).length ≤ (cs.map (·.2)).sum := by
    refine length_le_chosen _ _ (fun e he => by simpa using h.mem e he) fun i n hi => ?_
    simp only [List.getElem?_map, Option.map_eq_some_iff] at hi
    obtain ⟨c, hci, rfl⟩ := hi
    obtain ⟨c', t, got, hc', ht, hg⟩ := hget i (List.getElem?_eq_some_iff.mp hci).1
    rw [hci] at hc'
    cases hc'
    rw [← chosen_map_length i _ _ (recite_fst F (roll s) db.keys)]
    exact (h.stand i c t got hci ht hg).1.length_le
  have hpick : ∀ e ∈ roll s, ∃ c ∈ cs, Agent.Picks c.1 e.2 := by
    intro e he
    obtain ⟨c, t, got, hci, ht, hg⟩ := hget e.1 (h.mem e he)
    have hmem : e.2 ∈ chosen e.1 (roll s) := by
      simp only [chosen, List.mem_filterMap]
      exact ⟨e, he, by simp⟩
    obtain ⟨j, hj⟩ := List.getElem?_of_mem hmem
    exact ⟨c, List.mem_of_getElem? hci, _, (h.stand e.1 c t got hci ht hg).2 j _ hj⟩
  obtain ⟨e1, e2⟩ := recite_actAll (act := act) hc0 (roll s)
    (fun e he => by obtain ⟨c, hc, hp⟩ := hpick e he; exact hsing c hc _ hp)
    (fun e he => by obtain ⟨c, hc, hp⟩ := hpick e he; exact hcnt c hc _ hp) db hinv (Roomy.mono hc hlen)
  refine ⟨h.inv, by rw [e2]; exact h.keys, h.mem, fun i c t hci ht => ?_⟩
  obtain ⟨c', t', got, hc', ht', hg⟩ := hget i (List.getElem?_eq_some_iff.mp hci).1
  rw [hci] at hc'
  rw [ht] at ht'
  cases hc'; cases ht'
  obtain ⟨g1, g2⟩ := h.stand i c t got hci ht hg
  refine ⟨_, got, rfl, ?_, g1.amid.1, ?_⟩
  · rw [e1]; exact g2
  · rw [e1]; exact g1.amid.2

theorem Within.andThen {α β} {Inv : Store → Prop} {n m : Nat} {p : Prog α} (h : Within Inv n p)
    {g : Outcome DispatchError α → Prog β} (hg : ∀ r, Within Inv m (g r)) : Within Inv (n + m) (p.andThen g) := by
  induction h with
  | done => exact (hg _).mono (by omega)
  | @onCtr n _ _ _ _ ih => rw [show n + 1 + m = (n + m) + 1 by omega]; exact .onCtr ih
  | @onKey n _ _ _ _ ih => rw [show n + 1 + m = (n + m) + 1 by omega]; exact .onKey ih

/-- Such agents never wait for each other. -/
theorem agents_finish {act : α → Prog β} {Inv : Store → Prop} {cs : List (Agent α β × Nat)}
    (hsing : ∀ c ∈ cs, ∀ x, Agent.Picks c.1 x → Single Inv (fun p => (∃ r, Ends r p) ∧ Within Inv 1 p) 1 (act x))
    (hcnt : ∀ c ∈ cs, ∀ x, Agent.Picks c.1 x → Counts (act x)) (db : Db) (hinv : Inv db.keys)
    (hc : Roomy (cs.map (·.2)).sum db.ctrs) (sched : List Nat) (i : Nat)
    (c : Agent α β) (n : Nat) (hi : cs[i]? = some (c, n)) (hn : 3 * n ≤ sched.count i) :
    ∃ outs, ((Agents.pool act cs db).exec sched).threads[i]? = some (.done (.ok outs)) := by
  obtain ⟨roll, -, h2⟩ := agents_one_after_the_other (fun c hc x hx => (hsing c hc x hx).imp fun _ h => h.1) hcnt db hinv hc
  have hmem := List.mem_of_getElem? hi
  have hw : ∀ m got, Within Inv (3 * m) (Agent.prog act c m got) := by
    intro m
    induction m with
    | zero => intro got; exact .done
    | succ m ih =>
      intro got
      simp only [Agent.prog]
      split
      · exact .done
      · rename_i x hcg
        rw [show 3 * (m + 1) = 3 + 3 * m by omega]
        exact ((hsing _ hmem x ⟨got, hcg⟩).imp fun _ h => h.2).within.andThen fun o => ih _
  obtain ⟨o, ho⟩ := (hw n []).exec (p := Agents.pool act cs db) (i := i) sched
    (fun s1 _ _ => (h2 s1).1) (by simp [Agents.pool, hi]) hn
  obtain ⟨-, -, -, h⟩ := h2 sched
  obtain ⟨outs, got, -, -, ham, -⟩ := h i _ _ hi ho
  rcases ham with ⟨h1, -⟩ | ⟨x, p, -, -, -, h1, h3⟩
  · exact ⟨got, by rw [ho, h1]⟩
  · cases p with
    | done o' => exact absurd rfl (h1 o')
    | onKey => cases h3
    | onCtr => cases h3

end Hop
