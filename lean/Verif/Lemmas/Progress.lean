import Verif.Lemmas.Concurrent

/-! # How many operations a program needs while others remove keys -/

namespace Hop

open Prog Spec

/-- What the others can do between two operations of a program: from budgets `d` of removals per key and the
set `o` of existing keys to `d'` and `o'`. A key that exists can go missing only at the expense of its budget. -/
def Reach (d : Bytes → Nat) (o : Bytes → Bool) (d' : Bytes → Nat) (o' : Bytes → Bool) : Prop :=
  ∀ k, d' k ≤ d k ∧ (o' k = false → o k = false ∨ d' k < d k)

theorem Reach.refl (d : Bytes → Nat) (o : Bytes → Bool) : Reach d o d o := fun _ => ⟨Nat.le_refl _, Or.inl⟩

theorem Reach.trans {d d' d'' : Bytes → Nat} {o o' o'' : Bytes → Bool} (h : Reach d o d' o') (h' : Reach d' o' d'' o'') :
    Reach d o d'' o'' := by
  intro k
  obtain ⟨a, b⟩ := h k
  obtain ⟨a', b'⟩ := h' k
  refine ⟨by omega, fun e => ?_⟩
  rcases b' e with e' | e'
  · rcases b e' with e'' | e''
    · exact Or.inl e''
    · exact Or.inr (by omega)
  · exact Or.inr (by omega)

/-- Which keys exist after one of them has changed. -/
def mark (o : Bytes → Bool) (k : Bytes) (b : Bool) : Bytes → Bool := fun k' => if k' = k then b else o k'

/-- Whatever the others do within the budgets, the program ends with an outcome in `Q`; if `timed`, after at
most `n` of its operations. -/
def Lives {α} (timed : Bool) (Q : Outcome DispatchError α → Prop) : Prog α → Nat → (Bytes → Nat) → (Bytes → Bool) → Prop
  | .done r, _, _, _ => Q r
  | .onKey k upd next, n, d, o => (timed = true → 0 < n) ∧ ∀ d' o', Reach d o d' o' → ∀ v : Option Value, v.isSome = o' k →
      Lives timed Q (next v) (n - 1) d' (mark o' k (upd v).isSome)
  | .onCtr _ _ next, n, d, o => (timed = true → 0 < n) ∧ ∀ d' o', Reach d o d' o' → ∀ v : Option Nat,
      Lives timed Q (next v) (n - 1) d' o'

variable {α β : Type} {timed : Bool} {Q : Outcome DispatchError α → Prop}

theorem Lives.reach {p : Prog α} {n : Nat} {d d' : Bytes → Nat} {o o' : Bytes → Bool} (h : Lives timed Q p n d o)
    (hr : Reach d o d' o') : Lives timed Q p n d' o' := by
  cases p with
  | done r => exact h
  | onKey k upd next => exact ⟨h.1, fun d'' o'' hr' v hv => h.2 d'' o'' (hr.trans hr') v hv⟩
  | onCtr m upd next => exact ⟨h.1, fun d'' o'' hr' v => h.2 d'' o'' (hr.trans hr') v⟩

theorem Lives.mono {p : Prog α} {n m : Nat} {d : Bytes → Nat} {o : Bytes → Bool} (h : Lives timed Q p n d o)
    (hnm : n ≤ m) : Lives timed Q p m d o := by
  induction p generalizing n m d o with
  | done r => exact h
  | onKey k upd next ih =>
    exact ⟨fun t => Nat.lt_of_lt_of_le (h.1 t) hnm, fun d' o' hr v hv => ih v (h.2 d' o' hr v hv) (by omega)⟩
  | onCtr k upd next ih =>
    exact ⟨fun t => Nat.lt_of_lt_of_le (h.1 t) hnm, fun d' o' hr v => ih v (h.2 d' o' hr v) (by omega)⟩

theorem Lives.untimed {p : Prog α} {n m : Nat} {d : Bytes → Nat} {o : Bytes → Bool} (h : Lives timed Q p n d o) :
    Lives false Q p m d o := by
  induction p generalizing n m d o with
  | done r => exact h
  | onKey k upd next ih => exact ⟨fun t => by simp at t, fun d' o' hr v hv => ih v (h.2 d' o' hr v hv)⟩
  | onCtr k upd next ih => exact ⟨fun t => by simp at t, fun d' o' hr v => ih v (h.2 d' o' hr v)⟩

theorem Lives.andThen {R : Outcome DispatchError β → Prop} {p : Prog α} {f : Outcome DispatchError α → Prog β} {n m : Nat}
    {d : Bytes → Nat} {o : Bytes → Bool} (h : Lives timed Q p n d o)
    (hf : ∀ r, Q r → ∀ d' o', (∀ k, d' k ≤ d k) → Lives timed R (f r) m d' o') : Lives timed R (p.andThen f) (n + m) d o := by
  induction p generalizing n d o with
  | done r => exact (hf r h d o fun _ => Nat.le_refl _).mono (by omega)
  | onKey k upd next ih =>
    refine ⟨fun t => by have := h.1 t; omega, fun d' o' hr v hv => ?_⟩
    have h1 := ih v (h.2 d' o' hr v hv) (fun r hq d'' o'' hd => hf r hq d'' o'' fun k => Nat.le_trans (hd k) (hr k).1)
    cases timed with
    | true => exact h1.mono (by have := h.1 rfl; omega)
    | false => exact h1.untimed
  | onCtr k upd next ih =>
    refine ⟨fun t => by have := h.1 t; omega, fun d' o' hr v => ?_⟩
    have h1 := ih v (h.2 d' o' hr v) (fun r hq d'' o'' hd => hf r hq d'' o'' fun k => Nat.le_trans (hd k) (hr k).1)
    cases timed with
    | true => exact h1.mono (by have := h.1 rfl; omega)
    | false => exact h1.untimed

/-- The program removes each key at most as often as its budget says. -/
def Cuts {α} : Prog α → (Bytes → Nat) → Prop
  | .done _, _ => True
  | .onKey k upd next, m => (∀ v, (v.isSome → (upd v).isSome) ∧ Cuts (next v) m) ∨
      (0 < m k ∧ ∀ v, Cuts (next v) fun k' => if k' = k then m k - 1 else m k')
  | .onCtr _ _ next, m => ∀ v, Cuts (next v) m

theorem Cuts.mono {p : Prog α} {m m' : Bytes → Nat} (h : Cuts p m) (hm : ∀ k, m k ≤ m' k) : Cuts p m' := by
  induction p generalizing m m' with
  | done r => trivial
  | onKey k upd next ih =>
    rcases h with h | ⟨h0, h⟩
    · exact Or.inl fun v => ⟨(h v).1, ih v (h v).2 hm⟩
    · refine Or.inr ⟨Nat.lt_of_lt_of_le h0 (hm k), fun v => ih v (h v) fun k' => ?_⟩
      have := hm k; have := hm k'
      split <;> omega
  | onCtr k upd next ih => exact fun v => ih v (h v) hm

theorem Cuts.andThen {p : Prog α} {f : Outcome DispatchError α → Prog β} {m m' : Bytes → Nat} (h : Cuts p m)
    (hf : ∀ r, Cuts (f r) m') : Cuts (p.andThen f) fun k => m k + m' k := by
  induction p generalizing m with
  | done r => exact (hf r).mono fun k => Nat.le_add_left _ _
  | onKey k upd next ih =>
    rcases h with h | ⟨h0, h⟩
    · exact Or.inl fun v => ⟨(h v).1, ih v (h v).2⟩
    · refine Or.inr ⟨by dsimp only; omega, fun v => (ih v (h v)).mono fun k' => ?_⟩
      dsimp only
      split
      · subst_vars; omega
      · omega
  | onCtr k upd next ih => exact fun v => ih v (h v)

/-- A step of another thread uses up what it removes. -/
theorem Cuts.step {p : Prog α} {m : Bytes → Nat} (h : Cuts p m) (db : Db) :
    ∃ m', (∀ k, m' k ≤ m k) ∧ Cuts (p.step db).1 m' ∧
      ∀ k, (db.keys k).isSome = true → ((p.step db).2.keys k).isSome = false → m' k < m k := by
  cases p with
  | done r => exact ⟨m, fun _ => Nat.le_refl _, trivial, fun k a b => by simp [Prog.step] at b; simp [b] at a⟩
  | onCtr k upd next =>
    exact ⟨m, fun _ => Nat.le_refl _, h _, fun k a b => by simp [Prog.step, Db.setCtr] at b; simp [b] at a⟩
  | onKey k upd next =>
    rcases h with h | ⟨h0, h⟩
    · refine ⟨m, fun _ => Nat.le_refl _, (h _).2, fun k' a b => ?_⟩
      simp only [Prog.step, Db.setKey] at b
      split at b
      · subst_vars; exact absurd ((h _).1 a) (by simp [b])
      · rw [a] at b; cases b
    · refine ⟨_, fun k' => ?_, h _, fun k' a b => ?_⟩
      · split
        · subst_vars; omega
        · omega
      · simp only [Prog.step, Db.setKey] at b
        split at b
        · subst_vars; simp; omega
        · rw [a] at b; cases b

theorem marks_set (l : List Nat) (i a b : Nat) (h : l[i]? = some a) : (l.set i b).sum + a = l.sum + b := by
  induction l generalizing i with
  | nil => simp at h
  | cons x l ih =>
    cases i with
    | zero => simp at h; subst h; simp; omega
    | succ i => simp at h; have := ih i h; simp; omega

/-- The keys that exist. -/
def Db.known (db : Db) : Bytes → Bool := fun k => (db.keys k).isSome

/-- Thread `i` will live, the other threads having the given budgets left. -/
def Pool.Alive {α} (timed : Bool) (Q : Outcome DispatchError α → Prop) (i n : Nat) (d : Bytes → Nat) (p : Pool α) : Prop :=
  (∃ t, p.threads[i]? = some t ∧ Lives timed Q t n d p.db.known) ∧
  ∃ ms : List (Bytes → Nat), ms.length = p.threads.length ∧
    (∀ (j : Nat) t m, j ≠ i → p.threads[j]? = some t → ms[j]? = some m → Cuts t m) ∧
    ∀ k, (ms.map (· k)).sum ≤ d k

theorem Pool.Alive.stepAt {p : Pool α} {i n : Nat} {d : Bytes → Nat} (h : p.Alive timed Q i n d) (j : Nat) :
    ∃ d', (∀ k, d' k ≤ d k) ∧ (p.stepAt j).Alive timed Q i (if j = i then n - 1 else n) d' := by
  obtain ⟨⟨t, ht, hl⟩, ms, hlen, hcut, hsum⟩ := h
  cases hj : p.threads[j]? with
  | none =>
    have hji : j ≠ i := by rintro rfl; rw [hj] at ht; cases ht
    rw [Pool.stepAt_none hj]
    simp only [hji, if_false]
    exact ⟨d, fun _ => Nat.le_refl _, ⟨t, ht, hl⟩, ms, hlen, hcut, hsum⟩
  | some u =>
    have hjl : j < p.threads.length := by
      rcases Nat.lt_or_ge j p.threads.length with h | h
      · exact h
      · rw [List.getElem?_eq_none h] at hj; cases hj
    rw [Pool.stepAt_some hj]
    by_cases hji : j = i
    · subst hji
      rw [hj] at ht
      simp only [Option.some.injEq] at ht
      subst ht
      simp only [if_true]
      refine ⟨d, fun _ => Nat.le_refl _, ⟨(u.step p.db).1, by simp [hjl], ?_⟩, ms, by simp [hlen], ?_, hsum⟩
      · cases u with
        | done r => exact hl
        | onKey k upd next =>
          have h1 := hl.2 d _ (Reach.refl _ _) (p.db.keys k) rfl
          have e : Db.known (Prog.step (.onKey k upd next) p.db).2 = mark p.db.known k (upd (p.db.keys k)).isSome := by
            funext k'
            simp only [Prog.step, Db.known, Db.setKey, mark]
            split <;> rfl
          dsimp only
          rw [e]
          exact h1
        | onCtr k upd next => exact hl.2 d _ (Reach.refl _ _) (p.db.ctrs k)
      · intro j' t' m' hne ht' hm'
        refine hcut j' t' m' hne ?_ hm'
        rw [List.getElem?_set_ne (Ne.symm hne)] at ht'
        exact ht'
    · simp only [hji, if_false]
      obtain ⟨m, hm⟩ : ∃ m, ms[j]? = some m := by
        rw [← hlen] at hjl
        exact ⟨_, List.getElem?_eq_getElem hjl⟩
      obtain ⟨m', hle, hc, hlt⟩ := (hcut j u m hji hj hm).step p.db
      refine ⟨fun k => d k - (m k - m' k), fun k => Nat.sub_le _ _, ⟨t, ?_, ?_⟩, ms.set j m', by simp [hlen], ?_, ?_⟩
      · rw [List.getElem?_set_ne hji]; exact ht
      · refine hl.reach fun k => ⟨Nat.sub_le _ _, fun e => ?_⟩
        have hk := hlt k
        have hs := hsum k
        have hmem : m k ≤ (ms.map (· k)).sum := by
          have : (ms.map (· k))[j]? = some (m k) := by simp [hm]
          have := marks_set _ j _ 0 this
          omega
        cases hp : p.db.known k with
        | false => exact Or.inl rfl
        | true => have := hk hp e; exact Or.inr (by omega)
      · intro j' t' m'' hne ht' hm''
        by_cases hjj : j' = j
        · subst hjj
          have hjm : j' < ms.length := by omega
          simp only [List.getElem?_set_self hjl, List.getElem?_set_self hjm, Option.some.injEq] at ht' hm''
          subst ht' hm''
          exact hc
        · rw [List.getElem?_set_ne (Ne.symm hjj)] at ht' hm''
          exact hcut j' t' m'' hne ht' hm''
      · intro k
        have hs := hsum k
        have h1 : (ms.map (· k))[j]? = some (m k) := by simp [hm]
        have h2 := marks_set _ j _ (m' k) h1
        have h3 := marks_set _ j _ 0 h1
        have := hle k
        rw [List.map_set]
        dsimp only
        omega

theorem Pool.Alive.exec {p : Pool α} {i n : Nat} {d : Bytes → Nat} (h : p.Alive timed Q i n d) (sched : List Nat) :
    ∃ d', (∀ k, d' k ≤ d k) ∧ (p.exec sched).Alive timed Q i (n - sched.count i) d' := by
  induction sched using snoc_induction with
  | h0 => exact ⟨d, fun _ => Nat.le_refl _, h⟩
  | h1 s j ih =>
    obtain ⟨d', hd, h'⟩ := ih
    obtain ⟨d'', hd', h''⟩ := h'.stepAt j
    rw [Pool.exec_snoc]
    refine ⟨d'', fun k => Nat.le_trans (hd' k) (hd k), ?_⟩
    have e : (if j = i then n - s.count i - 1 else n - s.count i) = n - (s ++ [j]).count i := by
      simp only [List.count_append, List.count_singleton]
      split
      · subst_vars; simp; omega
      · rename_i hne; simp [hne]
    rw [← e]
    exact h''

/-- What a thread that is alive has come to: if it has ended, then well; if it got its operations, it has
ended. -/
theorem Pool.Alive.outcome {p : Pool α} {i n : Nat} {d : Bytes → Nat} (h : p.Alive timed Q i n d) :
    (∀ r, p.threads[i]? = some (.done r) → Q r) ∧ (timed = true → n = 0 → ∃ r, p.threads[i]? = some (.done r)) := by
  obtain ⟨⟨t, ht, hl⟩, -⟩ := h
  constructor
  · intro r hr
    rw [ht] at hr
    simp only [Option.some.injEq] at hr
    subst hr
    exact hl
  · intro htm hn
    cases t with
    | done r => exact ⟨r, ht⟩
    | onKey k upd next => have := hl.1 htm; omega
    | onCtr k upd next => have := hl.1 htm; omega

/-! ## Programs that end soon -/

/-- While the others remove no key of `K` more than `B` times, the program ends within `n` operations, not being
stuck. -/
def Soon {α} (K : Bytes → Prop) (B n : Nat) (p : Prog α) : Prop :=
  ∀ d o, (∀ k, K k → d k ≤ B) → Lives true (· ≠ .stuck) p n d o

section builders

variable {K : Bytes → Prop} {B n : Nat}

theorem Soon.mono {p : Prog α} {m : Nat} (h : Soon K B n p) (hn : n ≤ m) : Soon K B m p := fun d o hd => (h d o hd).mono hn

theorem Soon.done {r : Outcome DispatchError α} (h : r ≠ .stuck) : Soon K B n (.done r) := fun _ _ _ => h

theorem Soon.onKey {k : Bytes} {upd : Option Value → Option Value} {next : Option Value → Prog α}
    (h : ∀ v, Soon K B n (next v)) : Soon K B (n + 1) (.onKey k upd next) :=
  fun _ _ hd => ⟨fun _ => by omega, fun d' _ hr v _ => h v d' _ fun k hk => Nat.le_trans (hr k).1 (hd k hk)⟩

theorem Soon.onCtr {m : Metric} {upd : Option Nat → Option Nat} {next : Option Nat → Prog α}
    (h : ∀ v, Soon K B n (next v)) : Soon K B (n + 1) (.onCtr m upd next) :=
  fun _ _ hd => ⟨fun _ => by omega, fun d' _ hr v => h v d' _ fun k hk => Nat.le_trans (hr k).1 (hd k hk)⟩

theorem Soon.andThen {p : Prog α} {f : Outcome DispatchError α → Prog β} {m : Nat} (h : Soon K B n p)
    (hf : ∀ r, r ≠ .stuck → Soon K B m (f r)) : Soon K B (n + m) (p.andThen f) :=
  fun d o hd => (h d o hd).andThen fun r hr d' o' hd' => hf r hr d' o' fun k hk => Nat.le_trans (hd' k) (hd k hk)

theorem Soon.orErr {o : Option β} {e : DispatchError} {f : β → Prog α} (h : ∀ a, o = some a → Soon K B n (f a)) :
    Soon K B n (orErr o e f) := by
  cases o with
  | none => exact Soon.done (by simp)
  | some a => exact h a rfl

theorem Soon.keyRef {env : Env} {k : Bytes} {next : Option Value → Prog α} (h : ∀ o, Soon K B n (next o)) :
    Soon K B (n + 1) (keyRef env k next) := by
  unfold Hop.keyRef
  split
  · exact Soon.done (by simp)
  · split
    · exact Soon.done (by simp)
    · exact Soon.onKey h

theorem Soon.resolveKeyType {r : Request} {k : Bytes} {t : KeyType} {next : KeyType → Prog α} (h : ∀ t, Soon K B n (next t)) :
    Soon K B (n + 1) (resolveKeyType r k t next) := by
  unfold Hop.resolveKeyType
  cases r.keyType with
  | some t => exact (h t).mono (by omega)
  | none => exact Soon.onKey fun o => h _

theorem Soon.allExist {next : Bool → Prog α} (h : ∀ b, Soon K B n (next b)) (ks : List Bytes) :
    Soon K B (n + ks.length) (allExist next ks) := by
  induction ks with
  | nil => exact h _
  | cons k ks ih =>
    refine Soon.onKey (n := n + ks.length) fun o => ?_
    dsimp only
    split
    · exact ih
    · exact (h _).mono (by omega)

theorem Soon.allAre {t : KeyType} {next : Bool → Prog α} (h : ∀ b, Soon K B n (next b)) (ks : List Bytes) :
    Soon K B (n + ks.length) (allAre t next ks) := by
  induction ks with
  | nil => exact h _
  | cons k ks ih =>
    refine Soon.onKey (n := n + ks.length) fun o => ?_
    dsimp only
    split
    · exact ih
    · exact (h _).mono (by omega)

theorem Soon.statsLoop {next : BMap → Prog α} (h : ∀ m, Soon K B n (next m)) (cs : List Metric) (m : BMap) :
    Soon K B (n + cs.length) (statsLoop next cs m) := by
  induction cs generalizing m with
  | nil => exact h _
  | cons c cs ih =>
    refine Soon.onCtr fun o => ?_
    cases o with
    | none => exact ih _
    | some n => dsimp only; split <;> exact ih _

/-- The loop of `key_or_insert_with`: every round but the first two needs a removal by someone else. -/
theorem Lives.loop {k : Bytes} {mk : Value} {body : Value → Value × Outcome DispatchError α}
    (hb : ∀ v, (body v).2 ≠ .stuck) (S : Nat) (d : Bytes → Nat) (o : Bytes → Bool) (n : Nat)
    (hS : d k + (if o k then 0 else 1) + 1 ≤ S) (hn : 2 * (d k + (if o k then 0 else 1)) + 1 ≤ n) :
    Lives true (· ≠ .stuck) (keyOrInsertLoop k mk body S) n d o := by
  induction S generalizing d o n with
  | zero => omega
  | succ S ih =>
    refine ⟨fun _ => by omega, fun d' o' hr v hv => ?_⟩
    cases v with
    | some v => exact hb v
    | none =>
      have ho' : o' k = false := hv.symm
      obtain ⟨h1, h2⟩ := hr k
      have h3 : d' k + 1 ≤ d k + (if o k then 0 else 1) := by
        rcases h2 ho' with h | h
        · simp [h]; exact h1
        · omega
      refine ⟨fun _ => by omega, fun d'' o'' hr' v hv => ?_⟩
      have h4 := (hr' k).1
      refine ih _ _ _ ?_ ?_
      · simp only [mark, Option.isSome_some, if_true]; omega
      · simp only [mark, Option.isSome_some, if_true]; omega

theorem Soon.keyOrInsertWith {env : Env} {k : Bytes} {mk : Value} {body : Value → Value × Outcome DispatchError α}
    (hB : B ≤ env.spins) (hK : K k) (hb : ∀ v, (body v).2 ≠ .stuck) : Soon K B (2 * B + 3) (keyOrInsertWith env k mk body) := by
  unfold Hop.keyOrInsertWith
  split
  · exact Soon.done (by simp)
  · split
    · exact Soon.done (by simp)
    · intro d o hd
      have := hd k hK
      have h2 : (if o k then 0 else 1) ≤ 1 := by split <;> omega
      exact Lives.loop hb _ d o _ (by omega) (by omega)

theorem Soon.countOutcome {env : Env} {r : Outcome DispatchError Bytes} (h : r ≠ .stuck) : Soon K B 1 (countOutcome env r) := by
  cases r with
  | stuck => exact absurd rfl h
  | panic => exact Soon.done (by simp)
  | ok a => exact Soon.onCtr (n := 0) fun o => by split <;> exact Soon.done (by simp)
  | err a => exact Soon.onCtr (n := 0) fun o => by split <;> exact Soon.done (by simp)

end builders

theorem ofOption_ne_stuck {γ : Type} (o : Option γ) : (Outcome.ofOption o : Outcome DispatchError γ) ≠ .stuck := by
  cases o <;> simp [Outcome.ofOption]

section commands

variable {K : Bytes → Prop} {B : Nat} {env : Env} {r : Request} {resp : Bytes}

theorem Soon.int (hB : B ≤ env.spins) {k : Bytes} (hK : K k) (a : Int64) : Soon K B (2 * B + 3) (incrementIntBy env k a resp) := by
  refine Soon.keyOrInsertWith hB hK fun v => ?_
  cases v <;> dsimp only <;> (try split) <;> simp

theorem Soon.float (hB : B ≤ env.spins) {k : Bytes} (hK : K k) (a : F64) : Soon K B (2 * B + 3) (incrementFloatBy env k a resp) := by
  refine Soon.keyOrInsertWith hB hK fun v => ?_
  cases v <;> simp

/-- The number of arguments Exists and Is look at. -/
def lookedAt (r : Request) : Nat := ((r.argsFrom 0).getD []).length

theorem Soon.command (hB : B ≤ env.spins) (h0 : ∀ k, r.arg 0 = some k → K k) : Soon K B (2 * B + lookedAt r + 5) (command env r resp) := by
  unfold Hop.command
  cases hc : r.commandId <;> dsimp only
  case append =>
    refine Soon.mono (n := 2 * B + 3 + 1) (Soon.orErr fun k hk => Soon.orErr fun args _ => Soon.resolveKeyType fun t => ?_) (by omega)
    cases t
    case bytes | list | string =>
      all_goals
        refine Soon.keyOrInsertWith hB (h0 k hk) fun v => ?_
        cases v <;> first
          | exact ofOption_ne_stuck _
          | simp
    all_goals exact Soon.done (by simp)
  case decrementBy =>
    refine Soon.mono (n := 2 * B + 3) (Soon.orErr fun k hk => ?_) (by omega)
    split
    · split
      · exact Soon.int hB (h0 k (Request.key_arg hk)) _
      · exact Soon.done (by simp)
    · split
      · exact Soon.float hB (h0 k (Request.key_arg hk)) _
      · exact Soon.done (by simp)
  case incrementBy =>
    refine Soon.mono (n := 2 * B + 3) (Soon.orErr fun k hk => ?_) (by omega)
    split
    · exact Soon.int hB (h0 k (Request.key_arg hk)) _
    · split
      · exact Soon.float hB (h0 k (Request.key_arg hk)) _
      · exact Soon.done (by simp)
  case increment | decrement =>
    all_goals
      refine Soon.mono (n := 2 * B + 3) (Soon.orErr fun k hk => ?_) (by omega)
      split
      · exact Soon.float hB (h0 k (Request.key_arg hk)) _
      · exact Soon.int hB (h0 k (Request.key_arg hk)) _
  case delete =>
    unfold dispatchDelete
    split
    · exact Soon.done (by simp)
    · refine Soon.mono (n := 1) (Soon.orErr fun k hk => Soon.onKey fun o => ?_) (by omega)
      cases o <;> first | exact Soon.done (ofOption_ne_stuck _) | exact Soon.done (by simp)
  case echo => unfold dispatchEcho; split <;> exact Soon.done (ofOption_ne_stuck _)
  case «exists» =>
    unfold dispatchExists
    split
    · exact Soon.done (by simp)
    · refine Soon.orErr fun a ha => (Soon.allExist (n := 0) (fun b => Soon.done (by simp)) _).mono ?_
      simp only [lookedAt, ha, Option.getD_some]; omega
  case get =>
    refine Soon.mono (n := 0 + 1) (Soon.orErr fun k hk => Soon.keyRef fun o => ?_) (by omega)
    cases o with
    | none => exact Soon.done (by simp)
    | some v => dsimp only; split <;> (try split) <;> first | exact Soon.done (ofOption_ne_stuck _) | exact Soon.done (by simp)
  case is =>
    refine Soon.orErr fun t _ => Soon.orErr fun a ha => (Soon.allAre (n := 0) (fun b => Soon.done (by simp)) _).mono ?_
    simp only [lookedAt, ha, Option.getD_some]; omega
  case keys =>
    refine Soon.mono (n := 0 + 1 + 1) (Soon.orErr fun k hk => Soon.resolveKeyType fun t => ?_) (by omega)
    cases t <;> first
      | exact Soon.done (by simp)
      | exact Soon.keyRef fun o => by
          (try dsimp only); split <;> first | exact Soon.done (ofOption_ne_stuck _) | exact Soon.done (by simp)
  case length =>
    refine Soon.mono (n := 0 + 1 + 1) (Soon.orErr fun k hk => Soon.resolveKeyType fun t => ?_) (by omega)
    cases t <;> first
      | exact Soon.done (by simp)
      | exact Soon.keyRef fun o => by (try dsimp only); split <;> (try split) <;> exact Soon.done (by simp)
  case rename =>
    unfold dispatchRename
    split
    · exact Soon.done (by simp)
    · refine Soon.mono (n := 0 + 1 + 1 + 1 + 1) (Soon.orErr fun a ha => Soon.orErr fun b hb => Soon.onKey fun o => ?_) (by omega)
      dsimp only
      split
      · exact Soon.done (by simp)
      · refine Soon.onKey fun o => ?_
        dsimp only
        split
        · exact Soon.done (by simp)
        · refine Soon.onKey fun o => ?_
          cases o with
          | none => exact Soon.done (by simp)
          | some v => exact Soon.onKey fun _ => Soon.done (ofOption_ne_stuck _)
  case set =>
    refine Soon.mono (n := 2 * B + 3 + 1 + 1) (Soon.orErr fun k hk => ?_) (by omega)
    split
    · exact Soon.done (by simp)
    · refine Soon.resolveKeyType fun t => ?_
      cases t <;> refine Soon.orErr fun a ha => Soon.onKey fun o => Soon.keyOrInsertWith hB (h0 k (Request.key_arg hk)) fun v => ?_ <;>
        cases v <;> dsimp only <;> (try split) <;> first
          | exact ofOption_ne_stuck _
          | simp
  case stats =>
    unfold dispatchStats
    split
    · exact Soon.done (by simp)
    · exact (Soon.statsLoop (n := 0) (fun m => Soon.done (ofOption_ne_stuck _)) statsCounters _).mono (by simp [statsCounters])
  case type =>
    refine Soon.mono (n := 0 + 1) (Soon.orErr fun k hk => ?_) (by omega)
    split
    · exact Soon.done (by simp)
    · refine Soon.onKey fun o => ?_
      cases o <;> exact Soon.done (by simp)

theorem Soon.dispatch (hB : B ≤ env.spins) (h0 : ∀ k, r.arg 0 = some k → K k) : Soon K B (2 * B + lookedAt r + 6) (dispatch env r resp) :=
  (Soon.command hB h0).andThen fun _ h => Soon.countOutcome h

end commands

/-! ## How often a program removes a key -/

section cuts

variable {m : Bytes → Nat}

theorem Cuts.orErr {o : Option β} {e : DispatchError} {f : β → Prog α} (h : ∀ a, o = some a → Cuts (f a) m) :
    Cuts (orErr o e f) m := by
  cases o with
  | none => trivial
  | some a => exact h a rfl

theorem Cuts.readKey {k : Bytes} {next : Option Value → Prog α} (h : ∀ o, Cuts (next o) m) : Cuts (readKey k next) m :=
  Or.inl fun o => ⟨id, h o⟩

theorem Cuts.keyRef {env : Env} {k : Bytes} {next : Option Value → Prog α} (h : ∀ o, Cuts (next o) m) :
    Cuts (keyRef env k next) m := by
  unfold Hop.keyRef
  split
  · trivial
  · split
    · trivial
    · exact Cuts.readKey h

theorem Cuts.keyOrInsertLoop {k : Bytes} {mk : Value} {body : Value → Value × Outcome DispatchError α} (n : Nat) :
    Cuts (keyOrInsertLoop k mk body n) m := by
  induction n with
  | zero => trivial
  | succ n ih =>
    refine Or.inl fun o => ⟨fun h => by simpa using h, ?_⟩
    cases o with
    | some v => trivial
    | none => exact Or.inl fun o => ⟨fun _ => rfl, ih⟩

theorem Cuts.keyOrInsertWith {env : Env} {k : Bytes} {mk : Value} {body : Value → Value × Outcome DispatchError α} :
    Cuts (keyOrInsertWith env k mk body) m := by
  unfold Hop.keyOrInsertWith
  split
  · trivial
  · split
    · trivial
    · exact Cuts.keyOrInsertLoop _

theorem Cuts.resolveKeyType {r : Request} {k : Bytes} {d : KeyType} {next : KeyType → Prog α}
    (h : ∀ t, Cuts (next t) m) : Cuts (resolveKeyType r k d next) m := by
  unfold Hop.resolveKeyType
  cases r.keyType with
  | some t => exact h t
  | none => exact Cuts.readKey fun o => h _

theorem Cuts.allExist {next : Bool → Prog α} (h : ∀ b, Cuts (next b) m) (ks : List Bytes) : Cuts (allExist next ks) m := by
  induction ks with
  | nil => exact h _
  | cons k ks ih => exact Cuts.readKey fun o => by (try dsimp only); split <;> first | exact ih | exact h _

theorem Cuts.allAre {t : KeyType} {next : Bool → Prog α} (h : ∀ b, Cuts (next b) m) (ks : List Bytes) :
    Cuts (allAre t next ks) m := by
  induction ks with
  | nil => exact h _
  | cons k ks ih => exact Cuts.readKey fun o => by (try dsimp only); split <;> first | exact ih | exact h _

theorem Cuts.statsLoop {next : BMap → Prog α} (h : ∀ b, Cuts (next b) m) (cs : List Metric) (b : BMap) :
    Cuts (statsLoop next cs b) m := by
  induction cs generalizing b with
  | nil => exact h _
  | cons c cs ih =>
    intro o
    cases o with
    | none => exact ih _
    | some n => dsimp only; split <;> exact ih _

theorem Cuts.countOutcome {env : Env} (r : Outcome DispatchError Bytes) : Cuts (countOutcome env r) m := by
  cases r <;> simp only [Hop.countOutcome, incrementMetric]
  · intro o; dsimp only; split <;> trivial
  · intro o; dsimp only; split <;> trivial
  · trivial
  · trivial

variable {env : Env} {r : Request} {resp : Bytes}

theorem Cuts.command (h : ∀ k, r.commandId ∈ [.set, .delete, .rename] → r.arg 0 = some k → 0 < m k) :
    Cuts (command env r resp) m := by
  unfold Hop.command
  cases hc : r.commandId <;> dsimp only
  case append =>
    refine Cuts.orErr fun k hk => Cuts.orErr fun args _ => Cuts.resolveKeyType fun t => ?_
    cases t <;> first | exact Cuts.keyOrInsertWith | trivial
  case decrementBy =>
    refine Cuts.orErr fun k hk => ?_
    split
    · split
      · exact Cuts.keyOrInsertWith
      · trivial
    · split
      · exact Cuts.keyOrInsertWith
      · trivial
  case incrementBy =>
    refine Cuts.orErr fun k hk => ?_
    split
    · exact Cuts.keyOrInsertWith
    · split
      · exact Cuts.keyOrInsertWith
      · trivial
  case increment | decrement =>
    all_goals
      refine Cuts.orErr fun k hk => ?_
      split <;> exact Cuts.keyOrInsertWith
  case delete =>
    unfold dispatchDelete
    split
    · trivial
    · refine Cuts.orErr fun k hk => Or.inr ⟨h k (by rw [hc]; decide) (Request.key_arg hk), fun o => ?_⟩
      cases o <;> trivial
  case echo => unfold dispatchEcho; split <;> trivial
  case «exists» =>
    unfold dispatchExists
    split
    · trivial
    · exact Cuts.orErr fun a _ => Cuts.allExist (fun b => by trivial) _
  case get =>
    refine Cuts.orErr fun k hk => Cuts.keyRef fun o => ?_
    cases o with
    | none => trivial
    | some v => dsimp only; split <;> (try split) <;> trivial
  case is => exact Cuts.orErr fun t _ => Cuts.orErr fun a _ => Cuts.allAre (fun b => by trivial) _
  case keys =>
    refine Cuts.orErr fun k hk => Cuts.resolveKeyType fun t => ?_
    cases t <;> first
      | trivial
      | exact Cuts.keyRef fun o => by (try dsimp only); split <;> trivial
  case length =>
    refine Cuts.orErr fun k hk => Cuts.resolveKeyType fun t => ?_
    cases t <;> first
      | trivial
      | exact Cuts.keyRef fun o => by (try dsimp only); split <;> (try split) <;> trivial
  case rename =>
    unfold dispatchRename
    split
    · trivial
    · refine Cuts.orErr fun a ha => Cuts.orErr fun b hb => Cuts.readKey fun o => ?_
      dsimp only
      split
      · trivial
      · refine Cuts.readKey fun o => ?_
        dsimp only
        split
        · trivial
        · refine Or.inr ⟨h a (by rw [hc]; decide) ha, fun o => ?_⟩
          cases o with
          | none => trivial
          | some v => exact Or.inl fun o' => ⟨fun _ => rfl, trivial⟩
  case set =>
    refine Cuts.orErr fun k hk => ?_
    have h0 := h k (by rw [hc]; decide) (Request.key_arg hk)
    split
    · trivial
    · refine Cuts.resolveKeyType fun t => ?_
      cases t <;> exact Cuts.orErr fun a ha => Or.inr ⟨h0, fun o => Cuts.keyOrInsertWith⟩
  case stats =>
    unfold dispatchStats
    split
    · trivial
    · exact Cuts.statsLoop (fun m => by trivial) _ _
  case type =>
    refine Cuts.orErr fun k hk => ?_
    split
    · trivial
    · refine Cuts.readKey fun o => ?_
      cases o <;> trivial

theorem Cuts.dispatch (h : ∀ k, r.commandId ∈ [.set, .delete, .rename] → r.arg 0 = some k → 0 < m k) :
    Cuts (dispatch env r resp) m :=
  (Cuts.command h).andThen (m' := fun _ => 0) fun r => Cuts.countOutcome r

end cuts

end Hop
