import Verif.Props.Racing
import Verif.Props.Hop
import Verif.Props.Appends

/-! # C89, C90: concurrent commands that create a missing key -/

namespace Hop

open Spec Prog

/-- C89 as stated, for two clients: of concurrent Appends to a missing key none is lost. -/
def C89_Statement : Prop :=
  ∀ (env : Env) (r1 r2 : Request) (resp1 resp2 : Bytes) (k a b : Bytes) (db : Db) (sched : List Nat),
    Views r1 .append (some .list) [k, a] → Views r2 .append (some .list) [k, b] → ¬ unusable env.mode k → db.keys k = none →
    Roomy 2 db.ctrs → ((Pool.start env [(r1, resp1), (r2, resp2)] db).exec sched).finished →
    ((Pool.start env [(r1, resp1), (r2, resp2)] db).exec sched).db.keys k = some (.list [a, b]) ∨
    ((Pool.start env [(r1, resp1), (r2, resp2)] db).exec sched).db.keys k = some (.list [b, a])

/-- It is false: both find the key missing; the first creates it and appends; the second creates it again,
empty, and appends. -/
theorem C89_false : ¬ C89_Statement := by
  intro h
  have h1 := h (sampleEnv .debug) (call .append (some .list) [[1], [7]]) (call .append (some .list) [[1], [8]]) [] [] [1] [7] [8]
    (sampleDb []) [0, 1, 0, 0, 0, 1, 1, 1] (call_views _ _ _ (by decide) (by decide) (by decide))
    (call_views _ _ _ (by decide) (by decide) (by decide)) (by decide) (by decide +kernel) (sampleDb_roomy _ _ (by decide))
    (finished_of_live (by decide +kernel))
  revert h1
  decide +kernel

/-- A call that, if the key is missing, creates it with the empty value of the type `t`, and then adds to it:
a counter command, or an Append that names its type. -/
def Spec.Adds (m : Mode) (k : Bytes) (t : KeyType) (c : Call) : Prop :=
  (t = .integer ∧ ∃ o : CounterOp, o.Spells k c ∧ (m = .release ∨ ∀ n, o = .decBy n → n.toInt ≠ -2 ^ 63)) ∨
  (t ∈ [.bytes, .list, .string] ∧ c.cmd = .append ∧ c.kt = some t ∧ ∃ items, c.args = k :: items)

/-- What a client does to the key: adds to it, or nothing. -/
def Spec.AddRole (m : Mode) (k : Bytes) (t : KeyType) (adds : Bool) (c : Call) : Prop :=
  if adds then Adds m k t c else Bystander k c

abbrev Body := Value → Value × Outcome DispatchError Bytes

/-- A creating command with `n` attempts left. -/
def looping (env : Env) (k : Bytes) (d : Value) (b : Body) (n : Nat) : Prog Bytes :=
  (keyOrInsertLoop k d b n).andThen (countOutcome env)

/-- A creating command about to create the key. -/
def inserting (env : Env) (k : Bytes) (d : Value) (b : Body) (n : Nat) : Prog Bytes :=
  (insertKey k d (keyOrInsertLoop k d b n)).andThen (countOutcome env)

theorem adds_begin {env : Env} {r : Request} {k : Bytes} {t : KeyType} {c : Call} (hv : Views r c.cmd c.kt c.args)
    (ha : Adds env.mode k t c) (hu : ¬ unusable env.mode k) (resp : Bytes) :
    ∃ b : Body, dispatch env r resp = looping env k (Value.default t) b (env.spins + 2) := by
  rcases ha with ⟨rfl, o, ho, hov⟩ | ⟨ht, h1, h2, items, h3⟩
  · exact ⟨_, counter_begin hv ho hu hov resp⟩
  · obtain ⟨cmd, kt, args⟩ := c
    simp only at h1 h2 h3 hv
    subst h1 h2 h3
    have use : ∀ (d : Value) (b : Body), (keyOrInsertWith env k d b).andThen (countOutcome env) = looping env k d b (env.spins + 2) := by
      intro d b
      unfold keyOrInsertWith
      rw [if_neg (fun h => hu (Or.inl ((isInternal_iff k).mp h))), if_neg (fun h => hu (Or.inr h))]
      rfl
    have ha0 : r.arg 0 = some k := by rw [hv.arg]; rfl
    have has : r.argsFrom 1 = some items := by rw [argsFrom_eq hv]; simp
    unfold dispatch command
    rw [hv.command]
    dsimp only
    unfold dispatchAppend
    rw [ha0, has]
    simp only [Prog.orErr]
    unfold resolveKeyType
    rw [hv.keyType]
    simp only [List.mem_cons, List.not_mem_nil, or_false] at ht
    rcases ht with rfl | rfl | rfl
    · exact ⟨_, use _ _⟩
    · exact ⟨_, use _ _⟩
    · exact ⟨_, use _ _⟩

/-- The value after the given clients have acted, one after another. -/
def runOn (bs : Nat → Option Body) (d : Value) (is : List Nat) : Value :=
  is.foldl (fun w i => match bs i with | some b => (b w).1 | none => w) d

/-- How far a creating command has come. -/
inductive AddStage where
  | look
  | make
  | again
  | fired
deriving DecidableEq

/-- The thread of a creating command at a stage. -/
def AtAddStage (env : Env) (k : Bytes) (d : Value) (b : Body) (t : Prog Bytes) : AddStage → Prop
  | .look => t = looping env k d b (env.spins + 2)
  | .make => t = inserting env k d b (env.spins + 1)
  | .again => t = looping env k d b (env.spins + 1)
  | .fired => True

/-- The state of the race: the clients in `order` have acted, those before position `m` have been overwritten. -/
structure Adding (env : Env) (k : Bytes) (d : Value) (bs : Nat → Option Body) (order : List Nat) (m : Nat)
    (st : Nat → AddStage) (p : Pool Bytes) : Prop where
  nodup : order.Nodup
  role : ∀ i ∈ order, ∃ b, bs i = some b
  done : ∀ i, st i = .fired ↔ i ∈ order
  key : (p.db.keys k = none ∧ order = [] ∧ ∀ i, st i ≠ .again) ∨
    (p.db.keys k = some (runOn bs d (order.drop m)) ∧ m ≤ order.length ∧ (m < order.length ∨ ∃ i b, bs i = some b ∧ st i = .again ∧ i < p.threads.length))
  others : ∀ (i : Nat) t, p.threads[i]? = some t → bs i = none → Writes (· ≠ k) t
  stage : ∀ (i : Nat) t b, p.threads[i]? = some t → bs i = some b → AtAddStage env k d b t (st i)
  fired : ∀ (j i : Nat) b, order[j]? = some i → bs i = some b → ∃ t m', p.threads[i]? = some t ∧ m' ≤ j ∧
    Ends (b (runOn bs d ((order.take j).drop m'))).2 t

/-- Stages with that of one client replaced. -/
def readd (st : Nat → AddStage) (i : Nat) (s : AddStage) (j : Nat) : AddStage := if j = i then s else st j

@[simp] theorem readd_self (st : Nat → AddStage) (i : Nat) (s : AddStage) : readd st i s i = s := by simp [readd]

theorem readd_ne (st : Nat → AddStage) {i j : Nat} (s : AddStage) (h : j ≠ i) : readd st i s j = st j := by simp [readd, h]

theorem runOn_snoc {bs : Nat → Option Body} {d : Value} {is : List Nat} {i : Nat} {b : Body} (h : bs i = some b) :
    runOn bs d (is ++ [i]) = (b (runOn bs d is)).1 := by
  simp [runOn, List.foldl_append, h]

theorem Adding.step {env : Env} {k : Bytes} {d : Value} {bs : Nat → Option Body} {order : List Nat} {m : Nat}
    {st : Nat → AddStage} {p : Pool Bytes} (h : Adding env k d bs order m st p) (hb : Budget p) (i : Nat) :
    ∃ order' m' st', Adding env k d bs order' m' st' (p.stepAt i) := by
  cases ht : p.threads[i]? with
  | none => rw [Pool.stepAt_none ht]; exact ⟨_, _, _, h⟩
  | some t =>
    obtain ⟨hself, hdb⟩ := Pool.stepAt_self ht
    have hoth := fun j (hj : j ≠ i) => Pool.stepAt_other p hj
    have hlen : (p.stepAt i).threads.length = p.threads.length := Pool.exec_length p [i]
    cases hbi : bs i with
    | none =>
      have hw := Writes.step (h.others i t ht hbi) p.db
      have hk : (p.stepAt i).db.keys k = p.db.keys k := by rw [hdb]; exact hw.2 k (by simp)
      refine ⟨order, m, st, h.nodup, h.role, h.done, by rw [hk, hlen]; exact h.key, ?_, ?_, ?_⟩
      · intro j t' htj hbj
        by_cases e : j = i
        · subst e; rw [hself] at htj; cases htj; exact hw.1
        · rw [hoth j e] at htj; exact h.others j t' htj hbj
      · intro j t' b htj hbj
        have e : j ≠ i := by rintro rfl; rw [hbi] at hbj; cases hbj
        rw [hoth j e] at htj
        exact h.stage j t' b htj hbj
      · intro j i' b hj hbj
        have e : i' ≠ i := by rintro rfl; rw [hbi] at hbj; cases hbj
        rw [hoth i' e]
        exact h.fired j i' b hj hbj
    | some b =>
      have hst := h.stage i t b ht hbi
      have hothers : ∀ (j : Nat) t', (p.stepAt i).threads[j]? = some t' → bs j = none → Writes (· ≠ k) t' := by
        intro j t' htj hbj
        have e : j ≠ i := by rintro rfl; rw [hbi] at hbj; cases hbj
        rw [hoth j e] at htj
        exact h.others j t' htj hbj
      have hstages : ∀ s, AtAddStage env k d b (t.step p.db).1 s → ∀ (j : Nat) t' b', (p.stepAt i).threads[j]? = some t' →
          bs j = some b' → AtAddStage env k d b' t' (readd st i s j) := by
        intro s hs j t' b' htj hbj
        by_cases e : j = i
        · subst e
          rw [hself] at htj
          rw [hbi] at hbj
          cases htj
          cases hbj
          rw [readd_self]
          exact hs
        · rw [hoth j e] at htj
          rw [readd_ne _ _ e]
          exact h.stage j t' b' htj hbj
      -- acting on the value
      have hfire : ∀ n, st i ≠ .fired → t = looping env k d b (n + 1) → p.db.keys k = some (runOn bs d (order.drop m)) →
          m ≤ order.length → ∃ order' m' st', Adding env k d bs order' m' st' (p.stepAt i) := by
        intro n hnf htn hk hm
        have hi : i ∉ order := fun hi => hnf ((h.done i).mpr hi)
        have hk' : (p.stepAt i).db.keys k = some (runOn bs d ((order ++ [i]).drop m)) := by
          rw [hdb, htn, List.drop_append_of_le_length hm, runOn_snoc hbi]
          simp only [looping, keyOrInsertLoop, Prog.andThen, Prog.step, hk, Option.map_some, Db.setKey_keys_self]
        have hthr : (t.step p.db).1 = countOutcome env (b (runOn bs d (order.drop m))).2 := by
          rw [htn]
          simp only [looping, keyOrInsertLoop, Prog.andThen, Prog.step, hk]
        refine ⟨order ++ [i], m, readd st i .fired, ?_, ?_, ?_, ?_, hothers, hstages .fired trivial, ?_⟩
        · rw [List.nodup_append]
          exact ⟨h.nodup, by simp, by intro a ha b hb e; simp at hb; subst hb; exact hi (e ▸ ha)⟩
        · intro i' hi'
          simp only [List.mem_append, List.mem_singleton] at hi'
          rcases hi' with hi' | rfl
          · exact h.role i' hi'
          · exact ⟨b, hbi⟩
        · intro j
          by_cases e : j = i
          · subst e; simp
          · rw [readd_ne _ _ e, h.done j]; simp [e]
        · right
          exact ⟨hk', by simp; omega, Or.inl (by simp; omega)⟩
        · intro j i' b' hj hbj
          by_cases hjl : j < order.length
          · rw [List.getElem?_append_left hjl] at hj
            obtain ⟨t', m', ht', hm', he'⟩ := h.fired j i' b' hj hbj
            have e : i' ≠ i := fun e => hi (e ▸ List.mem_of_getElem? hj)
            refine ⟨t', m', by rw [hoth i' e]; exact ht', hm', ?_⟩
            rw [List.take_append_of_le_length (by omega)]
            exact he'
          · have hj0 : j = order.length := by
              have := (List.getElem?_eq_some_iff.mp hj).1
              simp at this
              omega
            subst hj0
            simp at hj
            subst hj
            rw [hbi] at hbj
            cases hbj
            refine ⟨_, m, hself, hm, ?_⟩
            rw [hthr, List.take_left]
            exact ends_count env _
      cases hsi : st i with
      | look =>
        rw [hsi] at hst
        have hst' : t = looping env k d b (env.spins + 2) := hst
        rcases h.key with ⟨hk, ho, hn⟩ | ⟨hk, hm, hn⟩
        · have hk' : (p.stepAt i).db.keys k = none := by
            rw [hdb, hst']
            simp only [looping, keyOrInsertLoop, Prog.andThen, Prog.step, hk, Option.map_none, Db.setKey_keys_self]
          refine ⟨order, m, readd st i .make, h.nodup, h.role, ?_, Or.inl ⟨hk', ho, ?_⟩, hothers, hstages .make ?_, ?_⟩
          · intro j
            by_cases e : j = i
            · subst e
              rw [readd_self, ← h.done j, hsi]
              simp
            · rw [readd_ne _ _ e]; exact h.done j
          · intro j
            by_cases e : j = i
            · subst e; simp
            · rw [readd_ne _ _ e]; exact hn j
          · rw [hst']
            simp only [AtAddStage, looping, keyOrInsertLoop, Prog.andThen, Prog.step, hk]
            rfl
          · rw [ho]; simp
        · exact hfire _ (by rw [hsi]; simp) hst' hk hm
      | make =>
        rw [hsi] at hst
        have hst' : t = inserting env k d b (env.spins + 1) := hst
        have hi : i ∉ order := by rw [← h.done i, hsi]; simp
        have hk' : (p.stepAt i).db.keys k = some d := by
          rw [hdb, hst']
          simp only [inserting, insertKey, Prog.andThen, Prog.step, Db.setKey_keys_self]
        refine ⟨order, order.length, readd st i .again, h.nodup, h.role, ?_, Or.inr ⟨?_, Nat.le_refl _,
          Or.inr ⟨i, b, hbi, readd_self _ _ _, by rw [hlen]; exact (List.getElem?_eq_some_iff.mp ht).1⟩⟩,
          hothers, hstages .again (by rw [hst']; rfl), ?_⟩
        · intro j
          by_cases e : j = i
          · subst e; rw [readd_self]; simp [hi]
          · rw [readd_ne _ _ e]; exact h.done j
        · rw [hk', List.drop_length]; rfl
        · intro j i' b' hj hbj
          have e : i' ≠ i := fun e => hi (e ▸ List.mem_of_getElem? hj)
          rw [hoth i' e]
          exact h.fired j i' b' hj hbj
      | again =>
        rw [hsi] at hst
        have hst' : t = looping env k d b (env.spins + 1) := hst
        rcases h.key with ⟨hk, ho, hn⟩ | ⟨hk, hm, hn⟩
        · exact absurd hsi (hn i)
        · exact hfire _ (by rw [hsi]; simp) hst' hk hm
      | fired =>
        have hi : i ∈ order := (h.done i).mp hsi
        obtain ⟨j, hj⟩ := List.getElem?_of_mem hi
        obtain ⟨t', m', ht', hm', he⟩ := h.fired j i b hj hbi
        rw [ht] at ht'
        cases ht'
        have hes := Ends.step hb ht he
        have hk : (p.stepAt i).db.keys k = p.db.keys k := by rw [hdb, hes.1]
        refine ⟨order, m, st, h.nodup, h.role, h.done, by rw [hk, hlen]; exact h.key, hothers, ?_, ?_⟩
        · have hre : readd st i .fired = st := by
            funext j; unfold readd; split
            · rename_i e; subst e; exact hsi.symm
            · rfl
          have := hstages .fired trivial
          rw [hre] at this
          exact this
        · intro j' i' b' hj' hbj
          obtain ⟨t', m', ht', hm', he'⟩ := h.fired j' i' b' hj' hbj
          by_cases e : i' = i
          · subst e
            rw [ht] at ht'
            cases ht'
            exact ⟨_, m', hself, hm', (Ends.step hb ht he').2⟩
          · exact ⟨t', m', by rw [hoth i' e]; exact ht', hm', he'⟩

theorem looping_run {env : Env} {k : Bytes} {d : Value} {b : Body} (n : Nat) (db : Db) (hc : Roomy 1 db.ctrs) :
    ((looping env k d b (n + 2)).run db).1 = (b ((db.keys k).getD d)).2 ∧
    ((looping env k d b (n + 2)).run db).2.keys k = some (b ((db.keys k).getD d)).1 := by
  have hkeys : ∀ (db' : Db) (r : Outcome DispatchError Bytes), db'.ctrs = db.ctrs →
      ((countOutcome env r).run db').1 = r ∧ ((countOutcome env r).run db').2.keys = db'.keys := by
    intro db' r e
    exact (ends_count env r).run db' (by rw [e]; exact hc)
  cases hk : db.keys k with
  | some w =>
    simp only [looping, keyOrInsertLoop, Prog.andThen, Prog.run, hk, Option.map_some, Option.getD_some]
    obtain ⟨h1, h2⟩ := hkeys (db.setKey k (some (b w).1)) (b w).2 rfl
    rw [h1, h2, Db.setKey_keys_self]
    exact ⟨rfl, rfl⟩
  | none =>
    simp only [looping, keyOrInsertLoop, insertKey, Prog.andThen, Prog.run, hk, Option.map_none, Db.setKey_keys_self, Option.map_some,
      Option.getD_none]
    obtain ⟨h1, h2⟩ := hkeys ((((db.setKey k none).setKey k (some d))).setKey k (some (b d).1)) (b d).2 rfl
    rw [h1, h2, Db.setKey_keys_self]
    exact ⟨rfl, rfl⟩

theorem serveAll_last (env : Env) (h : List (Request × Bytes)) (r : Request) (resp : Bytes) (db : Db) :
    (serveAll env (h ++ [(r, resp)]) db).1.getLast? = some ((dispatch env r resp).run (serveAll env h db).2).1 := by
  have : (serveAll env (h ++ [(r, resp)]) db).1 = (serveAll env h db).1 ++ [((dispatch env r resp).run (serveAll env h db).2).1] := by
    induction h generalizing db with
    | nil => rfl
    | cons x h ih => obtain ⟨r', resp'⟩ := x; simp only [List.cons_append, serveAll]; rw [ih]
  rw [this, List.getLast?_concat]

/-- Serving creating commands one after another. -/
theorem serveAll_runOn {env : Env} {k : Bytes} {d : Value} {bs : Nat → Option Body} {rs : List (Request × Bytes)}
    (hbs : ∀ i b, bs i = some b → ∃ r resp, rs[i]? = some (r, resp) ∧ dispatch env r resp = looping env k d b (env.spins + 2))
    (db : Db) (hk : db.keys k = none) (is : List Nat) (hrole : ∀ i ∈ is, ∃ b, bs i = some b) (e : Nat)
    (hc : Roomy (is.length + e) db.ctrs) :
    ((serveAll env (pick rs is) db).2.keys k).getD d = runOn bs d is ∧
    (is ≠ [] → (serveAll env (pick rs is) db).2.keys k = some (runOn bs d is)) ∧
    Roomy e (serveAll env (pick rs is) db).2.ctrs := by
  induction is using snoc_induction generalizing e with
  | h0 => simp only [pick, List.filterMap_nil, serveAll, hk, Option.getD_none]; exact ⟨rfl, by simp, by simpa using hc⟩
  | h1 is i ih =>
    obtain ⟨b, hb⟩ := hrole i (by simp)
    obtain ⟨r, resp, hri, hdis⟩ := hbs i b hb
    obtain ⟨h1, h2, h3⟩ := ih (fun j hj => hrole j (by simp [hj])) (e + 1)
      (by rw [List.length_append] at hc; simp only [List.length_singleton] at hc; exact Roomy.mono hc (by omega))
    have hp : pick rs (is ++ [i]) = pick rs is ++ [(r, resp)] := by simp [pick, hri]
    rw [hp, serveAll_snoc]
    refine ⟨?_, ?_, dispatch_roomy env r resp _ e h3⟩
    · rw [hdis, (looping_run _ _ (Roomy.mono h3 (by omega))).2, h1, runOn_snoc hb]; rfl
    · intro _
      rw [hdis, (looping_run _ _ (Roomy.mono h3 (by omega))).2, h1, runOn_snoc hb]

theorem nodup_length_le {l : List Nat} {n : Nat} (hn : l.Nodup) (h : ∀ i ∈ l, i < n) : l.length ≤ n := by
  have hp : (l ++ (List.range n).filter (fun i => decide (i ∉ l))).Perm (List.range n) := by
    refine (List.perm_ext_iff_of_nodup ?_ List.nodup_range).mpr ?_
    · rw [List.nodup_append]
      refine ⟨hn, List.Pairwise.filter _ List.nodup_range, ?_⟩
      intro a ha b hb e
      simp only [List.mem_filter, decide_eq_true_eq] at hb
      exact hb.2 (e ▸ ha)
    · intro a
      simp only [List.mem_append, List.mem_filter, List.mem_range, decide_eq_true_eq]
      constructor
      · rintro (ha | ha)
        · exact h a ha
        · exact ha.1
      · intro ha
        by_cases e : a ∈ l
        · exact Or.inl e
        · exact Or.inr ⟨ha, e⟩
  have := hp.length_eq
  simp only [List.length_append, List.length_range] at this
  omega

/-- C90: any number of clients add to one missing key at the same time (counter commands; or Appends naming
one type), the others do not change it. Under every schedule, once all have finished, there is an order of
these commands such that the key holds what the last few of them (at least one), executed one after another,
would have left; and each command was answered as if a run of consecutive commands ending with it had been
executed one after another. -/
theorem C90_concurrent_creation {env : Env} {rs : List (Request × Bytes)} {cs : List Call} {adds : List Bool}
    (hs : Sees rs cs) (k : Bytes) (t : KeyType) (hr : All2 (AddRole env.mode k t) adds cs) (hu : ¬ unusable env.mode k)
    (db : Db) (hk : db.keys k = none) (hc : Roomy rs.length db.ctrs) (hne : true ∈ adds) (sched : List Nat)
    (hf : ((Pool.start env rs db).exec sched).finished) :
    ∃ (order : List Nat) (m : Nat), order.Nodup ∧ (∀ i, i ∈ order ↔ adds[i]? = some true) ∧ m < order.length ∧
      ((Pool.start env rs db).exec sched).db.keys k = (serveAll env (pick rs (order.drop m)) db).2.keys k ∧
      ∀ (j i : Nat), order[j]? = some i → ∃ (m' : Nat) (x : Outcome DispatchError Bytes), m' ≤ j ∧
        ((Pool.start env rs db).exec sched).threads[i]? = some (.done x) ∧
        (serveAll env (pick rs ((order.take (j + 1)).drop m')) db).1.getLast? = some x := by
  have hl : (Pool.start env rs db).threads.length = rs.length := by simp [Pool.start]
  have hlo : adds.length = rs.length := by rw [all2_length hr, ← (Sees.get hs).1]
  have hbud := Budget.start env rs db hc
  have hget : ∀ (i : Nat) o, adds[i]? = some o → ∃ c, cs[i]? = some c ∧ AddRole env.mode k t o c := by
    clear hs hlo hne
    induction hr with
    | nil => intro i o h; simp at h
    | @cons o' c' os' cs' h1 _ ih =>
      intro i o h
      cases i with
      | zero => simp at h; subst h; exact ⟨c', rfl, h1⟩
      | succ i => exact ih i o (by simpa using h)
  have hview : ∀ (i : Nat) o r resp, adds[i]? = some o → rs[i]? = some (r, resp) →
      ∃ c, Views r c.cmd c.kt c.args ∧ AddRole env.mode k t o c := by
    intro i o r resp hi hri
    obtain ⟨c, hci, hrole⟩ := hget i _ hi
    obtain ⟨c', hci', hv⟩ := (Sees.get hs).2 i _ hri
    rw [hci] at hci'
    cases hci'
    exact ⟨c, hv, hrole⟩
  -- the bodies
  have hbody : ∀ i : Nat, ∃ ob : Option Body, (adds[i]? = some true ∧ ∃ b r resp, ob = some b ∧ rs[i]? = some (r, resp) ∧
      dispatch env r resp = looping env k (Value.default t) b (env.spins + 2)) ∨ (adds[i]? ≠ some true ∧ ob = none) := by
    intro i
    by_cases hi : adds[i]? = some true
    · have hil : i < rs.length := by rw [← hlo]; exact (List.getElem?_eq_some_iff.mp hi).1
      obtain ⟨c, hv, hrole⟩ := hview i true rs[i].1 rs[i].2 hi (List.getElem?_eq_getElem hil)
      obtain ⟨b, hb⟩ := adds_begin hv (by simpa [AddRole] using hrole) hu rs[i].2
      exact ⟨some b, Or.inl ⟨hi, b, _, _, rfl, List.getElem?_eq_getElem hil, hb⟩⟩
    · exact ⟨none, Or.inr ⟨hi, rfl⟩⟩
  obtain ⟨bs, hbs⟩ := Classical.axiomOfChoice hbody
  have hsome : ∀ i b, bs i = some b → adds[i]? = some true ∧ ∃ r resp, rs[i]? = some (r, resp) ∧
      dispatch env r resp = looping env k (Value.default t) b (env.spins + 2) := by
    intro i b hb
    rcases hbs i with ⟨h1, b', r, resp, h2, h3, h4⟩ | ⟨-, h2⟩
    · rw [hb] at h2; cases h2; exact ⟨h1, r, resp, h3, h4⟩
    · rw [hb] at h2; cases h2
  have hnone : ∀ i, bs i = none → adds[i]? ≠ some true := by
    intro i hb
    rcases hbs i with ⟨h1, b', r, resp, h2, h3, h4⟩ | ⟨h1, h2⟩
    · rw [hb] at h2; cases h2
    · exact h1
  have hstart : Adding env k (Value.default t) bs [] 0 (fun _ => .look) (Pool.start env rs db) := by
    refine ⟨List.nodup_nil, by simp, by simp, Or.inl ⟨hk, rfl, by simp⟩, ?_, ?_, by simp⟩
    · intro i t' ht hb
      simp only [Pool.start, List.getElem?_map, Option.map_eq_some_iff] at ht
      obtain ⟨⟨r, resp⟩, h1, rfl⟩ := ht
      have hil : i < adds.length := by rw [hlo]; exact (List.getElem?_eq_some_iff.mp h1).1
      have hf' : adds[i]? = some false := by
        have := hnone i hb
        rw [List.getElem?_eq_getElem hil] at this ⊢
        cases hx : adds[i] with
        | true => rw [hx] at this; exact absurd rfl this
        | false => rfl
      obtain ⟨c, hv, hrole⟩ := hview i false r resp hf' h1
      exact writes_bystander hv (by simpa [AddRole] using hrole) resp
    · intro i t' b ht hb
      obtain ⟨-, r, resp, h1, h2⟩ := hsome i b hb
      simp only [Pool.start, List.getElem?_map, h1, Option.map_some, Option.some.injEq] at ht
      rw [← ht]
      exact h2
  have hexec : ∀ s : List Nat, ∃ order m st, Adding env k (Value.default t) bs order m st ((Pool.start env rs db).exec s) := by
    intro s
    induction s using snoc_induction with
    | h0 => exact ⟨_, _, _, hstart⟩
    | h1 s i ih =>
      obtain ⟨order, m, st, ih⟩ := ih
      rw [Pool.exec_snoc]
      exact ih.step (hbud.exec s) i
  obtain ⟨order, m, st, h⟩ := hexec sched
  have hfin : ∀ i b, bs i = some b → i ∈ order := by
    intro i b hb
    obtain ⟨-, r, resp, h1, -⟩ := hsome i b hb
    have hit : i < ((Pool.start env rs db).exec sched).threads.length := by
      rw [Pool.exec_length, hl]; exact (List.getElem?_eq_some_iff.mp h1).1
    obtain ⟨x, hx⟩ := hf _ (List.getElem_mem hit)
    have hst := h.stage i _ b (List.getElem?_eq_getElem hit) hb
    rw [hx] at hst
    rw [← h.done i]
    cases hsi : st i with
    | fired => rfl
    | look => rw [hsi] at hst; cases hst
    | make => rw [hsi] at hst; cases hst
    | again => rw [hsi] at hst; cases hst
  have hmem : ∀ i, i ∈ order ↔ adds[i]? = some true := by
    intro i
    constructor
    · intro hi
      obtain ⟨b, hb⟩ := h.role i hi
      exact (hsome i b hb).1
    · intro hi
      rcases hbs i with ⟨-, b, r, resp, h2, -, -⟩ | ⟨h1, -⟩
      · exact hfin i b h2
      · exact absurd hi h1
  obtain ⟨i0, hi0⟩ := List.getElem?_of_mem hne
  have hkey : ((Pool.start env rs db).exec sched).db.keys k = some (runOn bs (Value.default t) (order.drop m)) ∧ m < order.length := by
    rcases h.key with ⟨-, ho, -⟩ | ⟨hk', -, hm | ⟨i, b, hb, hsi, -⟩⟩
    · have := (hmem i0).mpr hi0
      rw [ho] at this
      simp at this
    · exact ⟨hk', hm⟩
    · have := (h.done i).mpr (hfin i b hb)
      rw [hsi] at this
      cases this
  have hlen : order.length ≤ rs.length := by
    refine nodup_length_le h.nodup fun i hi => ?_
    rw [← hlo]
    exact (List.getElem?_eq_some_iff.mp ((hmem i).mp hi)).1
  have hseq := fun is => serveAll_runOn (bs := bs) (rs := rs) (fun i b hb => (hsome i b hb).2) db hk is
  refine ⟨order, m, h.nodup, hmem, hkey.2, ?_, ?_⟩
  · rw [hkey.1]
    refine ((hseq (order.drop m) (fun i hi => h.role i (List.mem_of_mem_drop hi)) 0
      (Roomy.mono hc (by rw [List.length_drop]; omega))).2.1 ?_).symm
    intro e
    have := congrArg List.length e
    rw [List.length_drop, List.length_nil] at this
    omega
  · intro j i hj
    obtain ⟨b, hb⟩ := h.role i (List.mem_of_getElem? hj)
    obtain ⟨t', m', ht', hm', he⟩ := h.fired j i b hj hb
    obtain ⟨x, rfl⟩ := hf _ (List.mem_of_getElem? ht')
    refine ⟨m', x, hm', ht', ?_⟩
    have hx : x = (b (runOn bs (Value.default t) ((order.take j).drop m'))).2 := he
    obtain ⟨-, r, resp, hri, hdis⟩ := hsome i b hb
    have hjl := (List.getElem?_eq_some_iff.mp hj).1
    have htake : (order.take (j + 1)).drop m' = (order.take j).drop m' ++ [i] := by
      rw [List.take_add_one, hj, List.drop_append_of_le_length (by rw [List.length_take]; omega)]
      rfl
    have hp : pick rs ((order.take j).drop m' ++ [i]) = pick rs ((order.take j).drop m') ++ [(r, resp)] := by simp [pick, hri]
    obtain ⟨h1, -, h3⟩ := hseq ((order.take j).drop m')
      (fun i' hi' => h.role i' (List.mem_of_mem_take (List.mem_of_mem_drop hi'))) 1
      (Roomy.mono hc (by rw [List.length_drop, List.length_take]; omega))
    rw [htake, hp, serveAll_last, hdis, (looping_run _ _ h3).1, h1, hx]

/-- What a client appends to the key, or nothing. -/
def Spec.BlockRole (k : Bytes) (t : KeyType) : Option (List Bytes) → Call → Prop
  | some b, c => c = ⟨.append, some t, k :: b⟩
  | none, c => Bystander k c

theorem append_served {env : Env} {r : Request} {k : Bytes} {t : KeyType} {e : Value} {b : List Bytes}
    (hv : Views r .append (some t) (k :: b)) (he : emptyOf t = some e) (hu : ¬ unusable env.mode k) (resp : Bytes) (db : Db)
    (hc : Roomy 1 db.ctrs) (hk : ((db.keys k).getD e).kind = t) :
    ((dispatch env r resp).run db).2.keys k = some (plus ((db.keys k).getD e) b) := by
  rw [C48_keys (c := ⟨.append, some t, k :: b⟩) hv resp db hc (Or.inr (Or.inl (by simp)))]
  have h := (performAll_appends (env := env) (untyped := False) (.cons (b := b) (kt := some t) (Or.inl rfl) .nil) he hu db _ rfl hk
    (by simp)).2
  simp only [performAll, List.cons_ne_nil, if_false, List.flatten_cons, List.flatten_nil, List.append_nil] at h
  rw [h, put_apply_self]

/-- C89, the part that holds: any number of clients append to one missing key, naming one type. Under every
schedule, once all have finished, there is an order of the Appends such that the key holds the concatenation
of the last few blocks, at least one. Missing: the blocks before those are lost, see C89_false. -/
theorem C89_concurrent_appends_partial {env : Env} {rs : List (Request × Bytes)} {cs : List Call}
    {blocks : List (Option (List Bytes))} (hs : Sees rs cs) (k : Bytes) (t : KeyType) (e : Value) (he : emptyOf t = some e)
    (hr : All2 (BlockRole k t) blocks cs) (hu : ¬ unusable env.mode k) (db : Db) (hk : db.keys k = none)
    (hc : Roomy rs.length db.ctrs) (hne : present blocks ≠ []) (sched : List Nat)
    (hf : ((Pool.start env rs db).exec sched).finished) :
    ∃ (order : List Nat) (m : Nat), order.Nodup ∧ (∀ i, i ∈ order ↔ ∃ b, blocks[i]? = some (some b)) ∧ m < order.length ∧
      ((Pool.start env rs db).exec sched).db.keys k =
        some (plus e ((present (pick blocks (order.drop m))).flatten)) := by
  obtain ⟨he1, he2, he3⟩ := emptyOf_cases he
  have hroles : All2 (AddRole env.mode k t) (blocks.map Option.isSome) cs := by
    clear hs hne
    induction hr with
    | nil => exact .nil
    | @cons o c os cs h1 _ ih =>
      refine .cons ?_ ih
      cases o with
      | none =>
        have h1' : Bystander k c := h1
        simpa [AddRole] using h1'
      | some b =>
        have h1' : c = ⟨.append, some t, k :: b⟩ := h1
        subst h1'
        simp only [AddRole, Option.isSome_some, if_true]
        exact Or.inr ⟨by rcases he3 with h | h | h <;> simp [h], rfl, rfl, b, rfl⟩
  have htrue : true ∈ blocks.map Option.isSome := by
    obtain ⟨b, hb⟩ := List.exists_mem_of_ne_nil _ hne
    simp only [present, List.mem_filterMap, id] at hb
    obtain ⟨x, hx, rfl⟩ := hb
    exact List.mem_map.mpr ⟨some b, hx, rfl⟩
  obtain ⟨order, m, h1, h2, h3, h4, -⟩ := C90_concurrent_creation (env := env) hs k t hroles hu db hk hc htrue sched hf
  have hmem : ∀ i, i ∈ order ↔ ∃ b, blocks[i]? = some (some b) := by
    intro i
    rw [h2 i, List.getElem?_map]
    cases blocks[i]? with
    | none => simp
    | some o => cases o <;> simp
  have hlo : blocks.length = rs.length := by rw [all2_length hr, ← (Sees.get hs).1]
  have hget : ∀ (i : Nat) b, blocks[i]? = some (some b) → ∃ r resp, rs[i]? = some (r, resp) ∧ Views r .append (some t) (k :: b) := by
    intro i b hi
    have hil : i < rs.length := by rw [← hlo]; exact (List.getElem?_eq_some_iff.mp hi).1
    obtain ⟨c, hci, hv⟩ := (Sees.get hs).2 i _ (List.getElem?_eq_getElem hil)
    refine ⟨rs[i].1, rs[i].2, List.getElem?_eq_getElem hil, ?_⟩
    have hrole : BlockRole k t (some b) c := by
      clear hs hroles htrue h2 h3 h4 hmem hne hv hlo hil
      induction hr generalizing i with
      | nil => simp at hi
      | @cons o' c' os' cs' h1 _ ih =>
        cases i with
        | zero => simp at hi hci; subst hi hci; exact h1
        | succ i =>
          exact ih i (by simpa using hi) (by simpa using hci)
    have hc' : c = ⟨.append, some t, k :: b⟩ := hrole
    subst hc'
    exact hv
  have hserve : ∀ (is : List Nat), (∀ i ∈ is, ∃ b, blocks[i]? = some (some b)) → ∀ x, Roomy (is.length + x) db.ctrs →
      ((serveAll env (pick rs is) db).2.keys k).getD e = plus e (present (pick blocks is)).flatten ∧
      (is ≠ [] → (serveAll env (pick rs is) db).2.keys k = some (plus e (present (pick blocks is)).flatten)) ∧
      Roomy x (serveAll env (pick rs is) db).2.ctrs := by
    intro is
    induction is using snoc_induction with
    | h0 =>
      intro _ x hx
      refine ⟨?_, by simp, by simpa [pick, serveAll] using hx⟩
      simp only [pick, List.filterMap_nil, serveAll, hk, Option.getD_none, present, List.flatten_nil]
      rcases he3 with h | h | h <;> subst h <;> cases he <;> simp [plus]
    | h1 is i ih =>
      intro hi x hx
      obtain ⟨b, hb⟩ := hi i (by simp)
      obtain ⟨r, resp, hri, hv⟩ := hget i b hb
      rw [List.length_append, List.length_singleton] at hx
      obtain ⟨ih1, ih2, ih3⟩ := ih (fun j hj => hi j (by simp [hj])) (x + 1) (Roomy.mono hx (by omega))
      have hp : pick rs (is ++ [i]) = pick rs is ++ [(r, resp)] := by simp [pick, hri]
      have hpb : (present (pick blocks (is ++ [i]))).flatten = (present (pick blocks is)).flatten ++ b := by
        simp [pick, present, hb]
      have hstep := append_served hv he hu resp (serveAll env (pick rs is) db).2 (Roomy.mono ih3 (by omega))
        (by rw [ih1, plus_kind, he2])
      rw [hp, serveAll_snoc, hpb, hstep, ih1, C26_split]
      exact ⟨rfl, fun _ => rfl, dispatch_roomy env r resp _ x ih3⟩
  refine ⟨order, m, h1, hmem, h3, ?_⟩
  rw [h4]
  refine (hserve (order.drop m) (fun i hi => (hmem i).mp (List.mem_of_mem_drop hi)) 0 (Roomy.mono hc ?_)).2.1 ?_
  · have := nodup_length_le h1 (n := rs.length) fun i hi => by
      obtain ⟨b, hb⟩ := (hmem i).mp hi
      rw [← hlo]
      exact (List.getElem?_eq_some_iff.mp hb).1
    rw [List.length_drop]; omega
  · intro e'
    have := congrArg List.length e'
    rw [List.length_drop, List.length_nil] at this
    omega

/-- Beside C89 and C90: three clients append to a list; the second overwrites what the first has appended. -/
example : ∃ (order : List Nat) (m : Nat), order.Nodup ∧
    (∀ i, i ∈ order ↔ ∃ b : List Bytes, [some [[7]], some [[8]], some [[9], [10]]][i]? = some (some b)) ∧ m < order.length ∧
    ((Pool.start (sampleEnv .debug) [(call .append (some .list) [[1], [7]], []), (call .append (some .list) [[1], [8]], []),
      (call .append (some .list) [[1], [9], [10]], [])] (sampleDb [])).exec [0, 1, 0, 0, 0, 1, 1, 1, 2, 2]).db.keys [1] =
      some (plus (.list []) ((present (pick [some [[7]], some [[8]], some [[9], [10]]] (order.drop m))).flatten)) := by
  have hs : Sees [(call .append (some .list) [[1], [7]], []), (call .append (some .list) [[1], [8]], []),
      (call .append (some .list) [[1], [9], [10]], [])]
      [⟨.append, some .list, [[1], [7]]⟩, ⟨.append, some .list, [[1], [8]]⟩, ⟨.append, some .list, [[1], [9], [10]]⟩] :=
    .cons (call_views _ _ _ (by decide) (by decide) (by decide)) (.cons (call_views _ _ _ (by decide) (by decide) (by decide))
      (.cons (call_views _ _ _ (by decide) (by decide) (by decide)) .nil))
  have hr : All2 (BlockRole [1] .list) [some [[7]], some [[8]], some [[9], [10]]]
      [⟨.append, some .list, [[1], [7]]⟩, ⟨.append, some .list, [[1], [8]]⟩, ⟨.append, some .list, [[1], [9], [10]]⟩] :=
    .cons (rfl : _ = _) (.cons (rfl : _ = _) (.cons (rfl : _ = _) .nil))
  exact C89_concurrent_appends_partial (env := sampleEnv .debug) hs [1] .list _ rfl hr (by decide) (sampleDb []) (by decide +kernel)
    (sampleDb_roomy _ _ (by decide)) (by decide) [0, 1, 0, 0, 0, 1, 1, 1, 2, 2] (finished_of_live (by decide +kernel))

example : ((Pool.start (sampleEnv .debug) [(call .append (some .list) [[1], [7]], []), (call .append (some .list) [[1], [8]], []),
      (call .append (some .list) [[1], [9], [10]], [])] (sampleDb [])).exec [0, 1, 0, 0, 0, 1, 1, 1, 2, 2]).db.keys [1] =
    some (.list [[8], [9], [10]]) := by decide +kernel

/-! ## A further concrete case -/

/-- Two increments and a Get at once, of a key that is missing. -/
example (sched : List Nat) (hf : ((Pool.start (sampleEnv .debug) [(call .increment none [[1]], []), (call .increment none [[1]], []),
    (call .get none [[1]], [])] (sampleDb [])).exec sched).finished) :
    ∃ (order : List Nat) (m : Nat), order.Nodup ∧ (∀ i, i ∈ order ↔ [true, true, false][i]? = some true) ∧ m < order.length ∧
      ((Pool.start (sampleEnv .debug) [(call .increment none [[1]], []), (call .increment none [[1]], []), (call .get none [[1]], [])]
        (sampleDb [])).exec sched).db.keys [1] =
      (serveAll (sampleEnv .debug) (pick [(call .increment none [[1]], []), (call .increment none [[1]], []), (call .get none [[1]], [])]
        (order.drop m)) (sampleDb [])).2.keys [1] := by
  obtain ⟨order, m, h1, h2, h3, h4, -⟩ := C90_concurrent_creation (env := sampleEnv .debug) (adds := [true, true, false])
    (cs := [⟨.increment, none, [[1]]⟩, ⟨.increment, none, [[1]]⟩, ⟨.get, none, [[1]]⟩])
    (.cons (call_views _ _ _ (by decide) (by decide) (by decide)) (.cons (call_views _ _ _ (by decide) (by decide) (by decide))
      (.cons (call_views _ _ _ (by decide) (by decide) (by decide)) .nil))) [1] .integer
    (.cons (.inl ⟨rfl, .inc, ⟨rfl, by decide, [], rfl⟩, .inr (by intro n h; cases h)⟩)
      (.cons (.inl ⟨rfl, .inc, ⟨rfl, by decide, [], rfl⟩, .inr (by intro n h; cases h)⟩) (.cons (.inl (by decide)) .nil)))
    (by decide) (sampleDb []) rfl (sampleDb_roomy _ _ (by decide)) (by decide) sched hf
  exact ⟨order, m, h1, h2, h3, h4⟩

end Hop
