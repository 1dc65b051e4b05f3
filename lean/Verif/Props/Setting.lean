import Verif.Props.Racing

/-! # C87, C88: several clients set one key at the same time -/

namespace Hop

open Spec Prog

/-- C87 as stated, for two clients: a Set with a valid value succeeds, also when another client sets the same
key at the same time. -/
def C87_Statement : Prop :=
  ∀ (env : Env) (r1 r2 : Request) (resp1 resp2 : Bytes) (k : Bytes) (v1 v2 : Value) (items1 items2 : List Bytes) (db : Db)
    (sched : List Nat) (out : Outcome DispatchError Bytes),
    Views r1 .set (some v1.kind) (k :: items1) → Views r2 .set (some v2.kind) (k :: items2) →
    parseValue v1.kind items1 = some v1 → parseValue v2.kind items2 = some v2 →
    Deliverable env.mode (.value v1) → Deliverable env.mode (.value v2) → ¬ unusable env.mode k → Roomy 2 db.ctrs →
    ((Pool.start env [(r1, resp1), (r2, resp2)] db).exec sched).threads[0]? = some (.done out) →
    out = delivered env resp1 (.value v1)

/-- It is false: both find the key missing; the first creates it with the empty byte string, the second with
zero; the first then finds a number. -/
theorem C87_false : ¬ C87_Statement := by
  intro h
  have h1 := h (sampleEnv .debug) (call .set (some .bytes) [[1], [7]]) (call .set (some .integer) [[1], [0, 0, 0, 0, 0, 0, 0, 5]])
    [] [] [1] (.bytes [7]) (.integer 5) [[7]] [[0, 0, 0, 0, 0, 0, 0, 5]] (sampleDb []) [0, 0, 1, 1, 0, 1, 0, 0]
    (.err .keyTypeDifferent) (call_views _ _ _ (by decide) (by decide) (by decide))
    (call_views _ _ _ (by decide) (by decide) (by decide)) (by decide) (by decide +kernel)
    (deliverable_bytes _ _ (by decide)) (deliverable_int _ _) (by decide) (sampleDb_roomy _ _ (by decide)) rfl
  cases h1

/-- What a client does to the key: sets it to a value, or nothing (`none`). -/
def Spec.SetRole (k : Bytes) : Option Value → Call → Prop
  | some v, c => c.cmd = .set ∧ c.kt = some v.kind ∧ ∃ a items, c.args = k :: a :: items ∧ parseValue v.kind (a :: items) = some v
  | none, c => Bystander k c

/-- What a Set does with the value it finds after it has removed the old one. -/
def setWith (env : Env) (resp : Bytes) (v w : Value) : Value × Outcome DispatchError Bytes :=
  if w.kind = v.kind then (v, delivered env resp (.value v)) else (w, .err .keyTypeDifferent)

/-- A Set with `n` attempts left. -/
def setting (env : Env) (k resp : Bytes) (v : Value) (n : Nat) : Prog Bytes :=
  (keyOrInsertLoop k (Value.default v.kind) (setWith env resp v) n).andThen (countOutcome env)

/-- A Set about to create the key. -/
def remaking (env : Env) (k resp : Bytes) (v : Value) (n : Nat) : Prog Bytes :=
  (insertKey k (Value.default v.kind) (keyOrInsertLoop k (Value.default v.kind) (setWith env resp v) n)).andThen (countOutcome env)

/-- A Set about to remove the key. -/
def removing (env : Env) (k resp : Bytes) (v : Value) : Prog Bytes :=
  .onKey k (fun _ => none) fun _ => setting env k resp v (env.spins + 2)

theorem set_begin {env : Env} {r : Request} {k : Bytes} {c : Call} {v : Value} (hv : Views r c.cmd c.kt c.args)
    (ho : SetRole k (some v) c) (hu : ¬ unusable env.mode k) (hd : Deliverable env.mode (.value v)) (resp : Bytes) :
    dispatch env r resp = removing env k resp v := by
  obtain ⟨cmd, kt, args⟩ := c
  obtain ⟨h1, h2, a, items, h3, hp⟩ := ho
  simp only at h1 h2 h3 hv
  subst h1 h2 h3
  have use : ∀ (body : Value → Value × Outcome DispatchError Bytes), (∀ w, body w = setWith env resp v w) →
      (removeKey k fun _ => keyOrInsertWith env k (Value.default v.kind) body).andThen (countOutcome env) = removing env k resp v := by
    intro body hb
    have : body = setWith env resp v := funext hb
    subst this
    unfold keyOrInsertWith
    rw [if_neg (fun h => hu (Or.inl ((isInternal_iff k).mp h))), if_neg (fun h => hu (Or.inr h))]
    rfl
  have hw := writeValue_deliverable hd resp
  have ha : r.arg 1 = some a := by rw [hv.arg]; rfl
  have has : r.argsFrom 1 = some (a :: items) := by rw [argsFrom_eq hv]; simp
  have hread := readValue_eq hv v.kind
  rw [hp] at hread
  unfold dispatch command
  rw [hv.command]
  dsimp only
  unfold dispatchSet
  rw [key_eq hv (by decide)]
  simp only [List.getElem?_cons_zero, Prog.orErr]
  rw [if_neg (by rw [ha]; simp)]
  unfold resolveKeyType
  rw [hv.keyType]
  dsimp only
  cases v with
  | bytes b =>
    simp only [Value.kind, readValue, ha, Option.map_some, Option.some.injEq, Value.bytes.injEq] at hread
    subst hread
    simp only [Value.kind, setBytes, ha, Prog.orErr]
    refine use _ fun w => ?_
    simp only [Response.writeValue] at hw
    cases w <;> simp [setWith, Value.kind, hw, Outcome.ofOption, delivered]
  | boolean b =>
    simp only [Value.kind, readValue, ha, Option.bind_some, Option.map_eq_some_iff, Value.boolean.injEq, exists_eq_right] at hread
    simp only [Value.kind, setBoolean, ha, Prog.orErr, Option.bind_some, hread]
    refine use _ fun w => ?_
    simp only [Response.writeValue] at hw
    cases w <;> simp_all [setWith, Value.kind, delivered]
  | float b =>
    simp only [Value.kind, readValue, ha, Option.bind_some, Option.map_eq_some_iff, Value.float.injEq, exists_eq_right] at hread
    simp only [Value.kind, setFloat, ha, Prog.orErr, Option.bind_some, hread]
    refine use _ fun w => ?_
    simp only [Response.writeValue] at hw
    cases w <;> simp_all [setWith, Value.kind, delivered]
  | integer b =>
    simp only [Value.kind, readValue, ha, Option.bind_some, Option.map_eq_some_iff, Value.integer.injEq, exists_eq_right] at hread
    simp only [Value.kind, setInteger, ha, Prog.orErr, Option.bind_some, hread]
    refine use _ fun w => ?_
    simp only [Response.writeValue] at hw
    cases w <;> simp_all [setWith, Value.kind, delivered]
  | string b =>
    simp only [Value.kind, readValue, ha, Option.bind_some, Option.map_eq_some_iff, Value.string.injEq, exists_eq_right] at hread
    simp only [Value.kind, setString, ha, Prog.orErr, Option.bind_some, hread]
    refine use _ fun w => ?_
    simp only [Response.writeValue] at hw
    cases w <;> simp_all [setWith, Value.kind, Outcome.ofOption, delivered]
  | list b =>
    simp only [Value.kind, readValue, has, Option.map_some, Option.some.injEq, Value.list.injEq] at hread
    subst hread
    simp only [Value.kind, setList, has, Prog.orErr]
    refine use _ fun w => ?_
    simp only [Response.writeValue] at hw
    cases w <;> simp [setWith, Value.kind, hw, Outcome.ofOption, delivered]
  | map b =>
    simp only [Value.kind, readValue, has, Option.map_some, Option.some.injEq, Value.map.injEq] at hread
    subst hread
    simp only [Value.kind, setMap, has, Prog.orErr, Option.map_some]
    refine use _ fun w => ?_
    simp only [Response.writeValue] at hw
    cases w <;> simp [setWith, Value.kind, hw, delivered]
  | set b =>
    simp only [Value.kind, readValue, has, Option.map_some, Option.some.injEq, Value.set.injEq] at hread
    subst hread
    simp only [Value.kind, setSet, has, Prog.orErr, Option.map_some]
    refine use _ fun w => ?_
    simp only [Response.writeValue] at hw
    cases w <;> simp [setWith, Value.kind, hw, delivered]

/-- How far a Set has come: not begun, looking for the key (attempts left), creating it, answered. -/
inductive SetStage where
  | fresh
  | look (n : Nat)
  | make (n : Nat)
  | won
  | lost
deriving DecidableEq

/-- The thread of a Set at a stage. -/
def AtStage (env : Env) (k resp : Bytes) (v : Value) (t : Prog Bytes) : SetStage → Prop
  | .fresh => t = removing env k resp v
  | .look n => t = setting env k resp v n
  | .make n => t = remaking env k resp v n
  | .won => Ends (delivered env resp (.value v)) t
  | .lost => Ends (.err .keyTypeDifferent) t

/-- Whether a client is a Set that has not begun. -/
def pending (vs : List (Option Value)) (st : Nat → SetStage) (i : Nat) : Bool :=
  decide (st i = .fresh) && (vs[i]?.getD none).isSome

/-- The number of Sets that have not begun. -/
def pendings (vs : List (Option Value)) (st : Nat → SetStage) : Nat := (List.range vs.length).countP (pending vs st)

/-- The state of several Sets of the key `k` under way. -/
structure Sets (env : Env) (k : Bytes) (vs : List (Option Value)) (rs : List (Request × Bytes)) (st : Nat → SetStage)
    (p : Pool Bytes) : Prop where
  stage : ∀ (i : Nat) t v r resp, p.threads[i]? = some t → vs[i]? = some (some v) → rs[i]? = some (r, resp) →
    AtStage env k resp v t (st i)
  others : ∀ (i : Nat) t, p.threads[i]? = some t → vs[i]? = some none → Writes (· ≠ k) t
  key : (∀ (i : Nat) v, vs[i]? = some (some v) → st i = .fresh) ∨
    (∃ (i : Nat) (v : Value), vs[i]? = some (some v) ∧ st i = .won ∧ p.db.keys k = some v) ∨
    (∃ (i : Nat) (v : Value) (n : Nat), vs[i]? = some (some v) ∧ (st i = .make n ∨
      st i = .look n ∧ (p.db.keys k = none ∨ ∃ w, p.db.keys k = some w ∧ w.kind = v.kind)))
  kind : (∀ (i : Nat) v, vs[i]? = some (some v) → st i = .fresh) ∨ p.db.keys k = none ∨
    ∃ (i : Nat) (v w : Value), vs[i]? = some (some v) ∧ p.db.keys k = some w ∧ w.kind = v.kind
  cause : ∀ (i : Nat) v, vs[i]? = some (some v) → st i = .lost →
    ∃ (j : Nat) (w : Value), vs[j]? = some (some w) ∧ w.kind ≠ v.kind
  room : pendings vs st ≤ env.spins + 1
  look : ∀ (i : Nat) v n, vs[i]? = some (some v) → st i = .look n →
    pendings vs st + 1 ≤ n ∧ (p.db.keys k = none → pendings vs st + 2 ≤ n)
  make : ∀ (i : Nat) v n, vs[i]? = some (some v) → st i = .make n → pendings vs st + 1 ≤ n

/-- Stages with that of one client replaced. -/
def restage (st : Nat → SetStage) (i : Nat) (s : SetStage) (j : Nat) : SetStage := if j = i then s else st j

@[simp] theorem restage_self (st : Nat → SetStage) (i : Nat) (s : SetStage) : restage st i s i = s := by simp [restage]

theorem restage_ne (st : Nat → SetStage) {i j : Nat} (s : SetStage) (h : j ≠ i) : restage st i s j = st j := by simp [restage, h]

theorem countP_off {i n : Nat} (f g : Nat → Bool) (hi : i < n) (hf : f i = true) (hg : g i = false)
    (h : ∀ j, j ≠ i → g j = f j) : (List.range n).countP g + 1 = (List.range n).countP f := by
  induction n with
  | zero => omega
  | succ n ih =>
    rw [List.range_succ, List.countP_append, List.countP_append]
    by_cases e : i = n
    · subst e
      have : (List.range i).countP g = (List.range i).countP f := by
        refine List.countP_congr fun j hj => ?_
        rw [h j (by have := List.mem_range.mp hj; omega)]
      simp only [List.countP_cons, List.countP_nil, hf, hg, if_true, this]
      simp
    · have := ih (by omega)
      simp only [List.countP_cons, List.countP_nil, h n (Ne.symm e)]
      omega

theorem pendings_begin {vs : List (Option Value)} {st : Nat → SetStage} {i : Nat} {v : Value} {s : SetStage}
    (hv : vs[i]? = some (some v)) (hs : st i = .fresh) (hn : s ≠ .fresh) :
    pendings vs (restage st i s) + 1 = pendings vs st := by
  refine countP_off _ _ (List.getElem?_eq_some_iff.mp hv).1 (by simp [pending, hs, hv]) (by simp [pending, hn]) ?_
  intro j hj
  simp [pending, restage_ne _ _ hj]

theorem pendings_same {vs : List (Option Value)} {st : Nat → SetStage} {i : Nat} {s : SetStage}
    (hs : st i ≠ .fresh) (hn : s ≠ .fresh) : pendings vs (restage st i s) = pendings vs st := by
  refine List.countP_congr fun j _ => ?_
  by_cases e : j = i
  · subst e; simp [pending, hs, hn]
  · simp [pending, restage_ne _ _ e]

theorem Sets.step {env : Env} {k : Bytes} {vs : List (Option Value)} {rs : List (Request × Bytes)} {st : Nat → SetStage}
    {p : Pool Bytes} (h : Sets env k vs rs st p) (hb : Budget p) (hl : p.threads.length = rs.length)
    (hlo : vs.length = rs.length) (i : Nat) : ∃ st', Sets env k vs rs st' (p.stepAt i) := by
  cases ht : p.threads[i]? with
  | none => rw [Pool.stepAt_none ht]; exact ⟨_, h⟩
  | some t =>
    obtain ⟨hself, hdb⟩ := Pool.stepAt_self ht
    have hoth := fun j (hj : j ≠ i) => Pool.stepAt_other p hj
    have hlt : i < rs.length := by rw [← hl]; exact (List.getElem?_eq_some_iff.mp ht).1
    obtain ⟨⟨r, resp⟩, hri⟩ : ∃ x, rs[i]? = some x := ⟨_, List.getElem?_eq_getElem hlt⟩
    obtain ⟨oo, hoi⟩ : ∃ x, vs[i]? = some x := ⟨_, List.getElem?_eq_getElem (by omega)⟩
    cases oo with
    | none =>
      have hw := Writes.step (h.others i t ht hoi) p.db
      have hk : (p.stepAt i).db.keys k = p.db.keys k := by rw [hdb]; exact hw.2 k (by simp)
      refine ⟨st, ?_, ?_, by rw [hk]; exact h.key, by rw [hk]; exact h.kind, h.cause, h.room, by rw [hk]; exact h.look, h.make⟩
      · intro j t' v r' resp' htj hvj hrj
        have e : j ≠ i := by rintro rfl; rw [hoi] at hvj; cases hvj
        rw [hoth j e] at htj
        exact h.stage j t' v r' resp' htj hvj hrj
      · intro j t' htj hvj
        by_cases e : j = i
        · subst e; rw [hself] at htj; cases htj; exact hw.1
        · rw [hoth j e] at htj; exact h.others j t' htj hvj
    | some v =>
      -- the parts that do not depend on what the step is
      have build : ∀ s' : SetStage, AtStage env k resp v (t.step p.db).1 s' → s' ≠ .fresh →
          ((∃ (i' : Nat) (v : Value), vs[i']? = some (some v) ∧ restage st i s' i' = .won ∧ (p.stepAt i).db.keys k = some v) ∨
            (∃ (i' : Nat) (v : Value) (n : Nat), vs[i']? = some (some v) ∧ (restage st i s' i' = .make n ∨
              restage st i s' i' = .look n ∧ ((p.stepAt i).db.keys k = none ∨ ∃ w, (p.stepAt i).db.keys k = some w ∧ w.kind = v.kind)))) →
          ((p.stepAt i).db.keys k = none ∨
            ∃ (i' : Nat) (v w : Value), vs[i']? = some (some v) ∧ (p.stepAt i).db.keys k = some w ∧ w.kind = v.kind) →
          (s' = .lost → ∃ (j : Nat) (w : Value), vs[j]? = some (some w) ∧ w.kind ≠ v.kind) →
          pendings vs (restage st i s') ≤ env.spins + 1 →
          (∀ (j : Nat) v n, vs[j]? = some (some v) → restage st i s' j = .look n →
            pendings vs (restage st i s') + 1 ≤ n ∧ ((p.stepAt i).db.keys k = none → pendings vs (restage st i s') + 2 ≤ n)) →
          (∀ (j : Nat) v n, vs[j]? = some (some v) → restage st i s' j = .make n → pendings vs (restage st i s') + 1 ≤ n) →
          ∃ st', Sets env k vs rs st' (p.stepAt i) := by
        intro s' h1 h2 h3 h4 h5 h6 h7 h8
        refine ⟨restage st i s', ?_, ?_, Or.inr h3, Or.inr h4, ?_, h6, h7, h8⟩
        · intro j t' v' r' resp' htj hvj hrj
          by_cases e : j = i
          · subst e
            rw [hself] at htj
            rw [hoi] at hvj
            rw [hri] at hrj
            cases htj
            cases hvj
            cases hrj
            rw [restage_self]
            exact h1
          · rw [hoth j e] at htj
            rw [restage_ne _ _ e]
            exact h.stage j t' v' r' resp' htj hvj hrj
        · intro j t' htj hvj
          have e : j ≠ i := by rintro rfl; rw [hoi] at hvj; cases hvj
          rw [hoth j e] at htj
          exact h.others j t' htj hvj
        · intro j v' hvj hj
          by_cases e : j = i
          · subst e
            rw [hoi] at hvj
            cases hvj
            rw [restage_self] at hj
            exact h5 hj
          · rw [restage_ne _ _ e] at hj
            exact h.cause j v' hvj hj
      have hst := h.stage i t v r resp ht hoi hri
      -- bounds of the others
      have hlookO : ∀ s' j v' n, j ≠ i → vs[j]? = some (some v') → restage st i s' j = .look n →
          pendings vs st + 1 ≤ n ∧ (p.db.keys k = none → pendings vs st + 2 ≤ n) := by
        intro s' j v' n e hvj hj
        rw [restage_ne _ _ e] at hj
        exact h.look j v' n hvj hj
      have hmakeO : ∀ s' j v' n, j ≠ i → vs[j]? = some (some v') → restage st i s' j = .make n → pendings vs st + 1 ≤ n := by
        intro s' j v' n e hvj hj
        rw [restage_ne _ _ e] at hj
        exact h.make j v' n hvj hj
      cases hsi : st i with
      | fresh =>
        rw [hsi] at hst
        have ht' : t = removing env k resp v := hst
        subst ht'
        have hpen : pendings vs (restage st i (.look (env.spins + 2))) + 1 = pendings vs st :=
          pendings_begin hoi hsi (by simp)
        have hk : (p.stepAt i).db.keys k = none := by
          rw [hdb]; simp only [removing, Prog.step, Db.setKey_keys_self]
        have hroom := h.room
        refine build (.look (env.spins + 2)) rfl (by simp) (Or.inr ⟨i, v, _, hoi, Or.inr ⟨restage_self _ _ _, Or.inl hk⟩⟩)
          (Or.inl hk) (by simp) (by omega) ?_ ?_
        · intro j v' n hvj hj
          by_cases e : j = i
          · subst e
            rw [restage_self] at hj
            cases hj
            omega
          · have := hlookO _ j v' n e hvj hj
            omega
        · intro j v' n hvj hj
          by_cases e : j = i
          · subst e; rw [restage_self] at hj; cases hj
          · have := hmakeO _ j v' n e hvj hj; omega
      | look n =>
        rw [hsi] at hst
        have ht' : t = setting env k resp v n := hst
        have hn := h.look i v n hoi hsi
        cases n with
        | zero => omega
        | succ n =>
          subst ht'
          cases hk : p.db.keys k with
          | none =>
            have hk' : (p.stepAt i).db.keys k = none := by
              rw [hdb]; simp only [setting, keyOrInsertLoop, Prog.andThen, Prog.step, Db.setKey_keys_self, hk, Option.map_none]
            have hpen : pendings vs (restage st i (.make n)) = pendings vs st := pendings_same (by rw [hsi]; simp) (by simp)
            have hn2 := hn.2 hk
            refine build (.make n) ?_ (by simp) (Or.inr ⟨i, v, n, hoi, Or.inl (restage_self _ _ _)⟩)
              (Or.inl hk') (by simp) (by have := h.room; omega) ?_ ?_
            · simp only [AtStage, setting, keyOrInsertLoop, Prog.andThen, Prog.step, hk]
              rfl
            · intro j v' n' hvj hj
              by_cases e : j = i
              · subst e; rw [restage_self] at hj; cases hj
              · have := hlookO _ j v' n' e hvj hj
                have h2 := this.2 hk
                omega
            · intro j v' n' hvj hj
              by_cases e : j = i
              · subst e; rw [restage_self] at hj; cases hj; omega
              · have := hmakeO _ j v' n' e hvj hj; omega
          | some w =>
            have hk' : (p.stepAt i).db.keys k = some (setWith env resp v w).1 := by
              rw [hdb]; simp only [setting, keyOrInsertLoop, Prog.andThen, Prog.step, Db.setKey_keys_self, hk, Option.map_some]
            have hthr : ((setting env k resp v (n + 1)).step p.db).1 = (Prog.done (setWith env resp v w).2).andThen (countOutcome env) := by
              simp only [setting, keyOrInsertLoop, Prog.andThen, Prog.step, hk]
            by_cases hkind : w.kind = v.kind
            · have hpen : pendings vs (restage st i .won) = pendings vs st := pendings_same (by rw [hsi]; simp) (by simp)
              have e1 : setWith env resp v w = (v, delivered env resp (.value v)) := by unfold setWith; rw [if_pos hkind]
              rw [e1] at hk' hthr
              refine build .won (by rw [hthr]; exact ends_count env (delivered env resp (.value v))) (by simp) (Or.inl ⟨i, v, hoi, restage_self _ _ _, hk'⟩)
                (Or.inr ⟨i, v, v, hoi, hk', rfl⟩) (by simp) (by have := h.room; omega) ?_ ?_
              · intro j v' n' hvj hj
                by_cases e : j = i
                · subst e; rw [restage_self] at hj; cases hj
                · have := hlookO _ j v' n' e hvj hj
                  rw [hk', hpen]
                  exact ⟨this.1, by simp⟩
              · intro j v' n' hvj hj
                by_cases e : j = i
                · subst e; rw [restage_self] at hj; cases hj
                · have := hmakeO _ j v' n' e hvj hj; omega
            · have hpen : pendings vs (restage st i .lost) = pendings vs st := pendings_same (by rw [hsi]; simp) (by simp)
              have e1 : setWith env resp v w = (w, .err .keyTypeDifferent) := by unfold setWith; rw [if_neg hkind]
              rw [e1] at hk' hthr
              have hkey : (∃ (i' : Nat) (v : Value), vs[i']? = some (some v) ∧ restage st i .lost i' = .won ∧ (p.stepAt i).db.keys k = some v) ∨
                  (∃ (i' : Nat) (v : Value) (n : Nat), vs[i']? = some (some v) ∧ (restage st i .lost i' = .make n ∨
                    restage st i .lost i' = .look n ∧ ((p.stepAt i).db.keys k = none ∨ ∃ w, (p.stepAt i).db.keys k = some w ∧ w.kind = v.kind))) := by
                rcases h.key with hf | ⟨i', v', h1, h2, h3⟩ | ⟨i', v', n', h1, h2⟩
                · have := hf i v hoi; rw [hsi] at this; cases this
                · have e : i' ≠ i := by rintro rfl; rw [hsi] at h2; cases h2
                  exact Or.inl ⟨i', v', h1, by rw [restage_ne _ _ e]; exact h2, by rw [hk', ← hk]; exact h3⟩
                · have e : i' ≠ i := by
                    rintro rfl
                    rw [hoi] at h1
                    cases h1
                    rcases h2 with h2 | ⟨-, h2 | ⟨w', h2, h3⟩⟩
                    · rw [hsi] at h2; cases h2
                    · rw [hk] at h2; cases h2
                    · rw [hk] at h2; cases h2; exact hkind h3
                  exact Or.inr ⟨i', v', n', h1, by rw [restage_ne _ _ e, hk', ← hk]; exact h2⟩
              have hkd : ∃ (i : Nat) (v w' : Value), vs[i]? = some (some v) ∧ some w = some w' ∧ w'.kind = v.kind := by
                rcases h.kind with hf | hf | ⟨i', v', w', h1, h2, h3⟩
                · have := hf i v hoi; rw [hsi] at this; cases this
                · rw [hk] at hf; cases hf
                · exact ⟨i', v', w', h1, by rw [← hk, ← h2], h3⟩
              refine build .lost (by rw [hthr]; exact ends_count env (.err .keyTypeDifferent)) (by simp) hkey (Or.inr ?_) ?_ (by have := h.room; omega) ?_ ?_
              · obtain ⟨i', v', w', h1, h2, h3⟩ := hkd
                exact ⟨i', v', w', h1, by rw [hk', ← h2], h3⟩
              · intro _
                obtain ⟨i', v', w', h1, h2, h3⟩ := hkd
                cases h2
                exact ⟨i', v', h1, by rw [← h3]; exact hkind⟩
              · intro j v' n' hvj hj
                by_cases e : j = i
                · subst e; rw [restage_self] at hj; cases hj
                · have := hlookO _ j v' n' e hvj hj
                  rw [hk', hpen]
                  exact ⟨this.1, by simp⟩
              · intro j v' n' hvj hj
                by_cases e : j = i
                · subst e; rw [restage_self] at hj; cases hj
                · have := hmakeO _ j v' n' e hvj hj; omega
      | make n =>
        rw [hsi] at hst
        have ht' : t = remaking env k resp v n := hst
        subst ht'
        have hn := h.make i v n hoi hsi
        have hk' : (p.stepAt i).db.keys k = some (Value.default v.kind) := by
          rw [hdb]; simp only [remaking, insertKey, Prog.andThen, Prog.step, Db.setKey_keys_self]
        have hkind : (Value.default v.kind).kind = v.kind := by cases v <;> rfl
        have hpen : pendings vs (restage st i (.look n)) = pendings vs st := pendings_same (by rw [hsi]; simp) (by simp)
        refine build (.look n) rfl (by simp) (Or.inr ⟨i, v, n, hoi, Or.inr ⟨restage_self _ _ _, Or.inr ⟨_, hk', hkind⟩⟩⟩)
          (Or.inr ⟨i, v, _, hoi, hk', hkind⟩) (by simp) (by have := h.room; omega) ?_ ?_
        · intro j v' n' hvj hj
          rw [hk', hpen]
          refine ⟨?_, by simp⟩
          by_cases e : j = i
          · subst e; rw [restage_self] at hj; cases hj; exact hn
          · exact (hlookO _ j v' n' e hvj hj).1
        · intro j v' n' hvj hj
          by_cases e : j = i
          · subst e; rw [restage_self] at hj; cases hj
          · have := hmakeO _ j v' n' e hvj hj; omega
      | won =>
        rw [hsi] at hst
        obtain ⟨h1, h2⟩ := Ends.step hb ht hst
        have hk : (p.stepAt i).db.keys k = p.db.keys k := by rw [hdb, h1]
        have hre : restage st i .won = st := by
          funext j; unfold restage; split
          · rename_i e; subst e; exact hsi.symm
          · rfl
        have hkey := h.key.resolve_left (fun hf => by have := hf i v hoi; rw [hsi] at this; cases this)
        have hkd := h.kind.resolve_left (fun hf => by have := hf i v hoi; rw [hsi] at this; cases this)
        refine build .won h2 (by simp) ?_ ?_ (by simp) ?_ ?_ ?_
        · rw [hre, hk]; exact hkey
        · rw [hk]; exact hkd
        · rw [hre]; exact h.room
        · rw [hre, hk]; exact h.look
        · rw [hre]; exact h.make
      | lost =>
        rw [hsi] at hst
        obtain ⟨h1, h2⟩ := Ends.step hb ht hst
        have hk : (p.stepAt i).db.keys k = p.db.keys k := by rw [hdb, h1]
        have hre : restage st i .lost = st := by
          funext j; unfold restage; split
          · rename_i e; subst e; exact hsi.symm
          · rfl
        have hkey := h.key.resolve_left (fun hf => by have := hf i v hoi; rw [hsi] at this; cases this)
        have hkd := h.kind.resolve_left (fun hf => by have := hf i v hoi; rw [hsi] at this; cases this)
        refine build .lost h2 (by simp) ?_ ?_ (fun _ => h.cause i v hoi hsi) ?_ ?_ ?_
        · rw [hre, hk]; exact hkey
        · rw [hk]; exact hkd
        · rw [hre]; exact h.room
        · rw [hre, hk]; exact h.look
        · rw [hre]; exact h.make

/-- C88: any number of clients set one key at the same time, each to a value of its own with its type given,
while the others do not change the key. Under every schedule, once all have finished: every Set has been
answered with its value or with "different key type", the latter only if some client sets a value of another
type; at least one has succeeded; and the key holds the value of a Set that has succeeded. -/
theorem C88_concurrent_sets {env : Env} {rs : List (Request × Bytes)} {cs : List Call} {vs : List (Option Value)}
    (hs : Sees rs cs) (k : Bytes) (hr : All2 (SetRole k) vs cs) (hu : ¬ unusable env.mode k)
    (hd : ∀ v, some v ∈ vs → Deliverable env.mode (.value v)) (db : Db) (hc : Roomy rs.length db.ctrs)
    (hsp : (present vs).length ≤ env.spins + 1) (hne : present vs ≠ []) (sched : List Nat)
    (hf : ((Pool.start env rs db).exec sched).finished) :
    (∀ (i : Nat) v resp, vs[i]? = some (some v) → rs[i]?.map Prod.snd = some resp →
      ((Pool.start env rs db).exec sched).threads[i]? = some (.done (delivered env resp (.value v))) ∨
      (((Pool.start env rs db).exec sched).threads[i]? = some (.done (.err .keyTypeDifferent)) ∧
        ∃ w, some w ∈ vs ∧ w.kind ≠ v.kind)) ∧
    ∃ (i : Nat) (v : Value) (resp : Bytes), vs[i]? = some (some v) ∧ rs[i]?.map Prod.snd = some resp ∧
      ((Pool.start env rs db).exec sched).threads[i]? = some (.done (delivered env resp (.value v))) ∧
      ((Pool.start env rs db).exec sched).db.keys k = some v := by
  have hl : (Pool.start env rs db).threads.length = rs.length := by simp [Pool.start]
  have hlo : vs.length = rs.length := by rw [all2_length hr, ← (Sees.get hs).1]
  have hbud := Budget.start env rs db hc
  have hget : ∀ (i : Nat) o, vs[i]? = some o → ∃ c, cs[i]? = some c ∧ SetRole k o c := by
    clear hs hlo hsp hne hd
    induction hr with
    | nil => intro i o h; simp at h
    | @cons o' c' os' cs' h1 _ ih =>
      intro i o h
      cases i with
      | zero => simp at h; subst h; exact ⟨c', rfl, h1⟩
      | succ i => exact ih i o (by simpa using h)
  have hpend : pendings vs (fun _ => .fresh) = (present vs).length := by
    have : ∀ l : List (Option Value), (List.range l.length).countP (fun i => (l[i]?.getD none).isSome) = (present l).length := by
      intro l
      induction l with
      | nil => rfl
      | cons o l ih =>
        rw [List.length_cons, List.range_succ_eq_map, List.countP_cons, List.countP_map]
        have e : ((fun i => ((o :: l)[i]?.getD none).isSome) ∘ Nat.succ) = fun i => (l[i]?.getD none).isSome := by
          funext i; simp
        rw [e, ih]
        cases o <;> simp [present]
    rw [← this]
    refine List.countP_congr fun i _ => ?_
    simp [pending]
  have hstart : Sets env k vs rs (fun _ => .fresh) (Pool.start env rs db) := by
    refine ⟨?_, ?_, Or.inl fun _ _ _ => rfl, Or.inl fun _ _ _ => rfl, by simp, by rw [hpend]; exact hsp, by simp, by simp⟩
    · intro i t v r resp ht hvi hri
      simp only [Pool.start, List.getElem?_map, hri, Option.map_some, Option.some.injEq] at ht
      subst ht
      obtain ⟨c, hci, hrole⟩ := hget i _ hvi
      obtain ⟨c', hci', hv⟩ := (Sees.get hs).2 i _ hri
      rw [hci] at hci'
      cases hci'
      exact set_begin hv hrole hu (hd v (List.mem_of_getElem? hvi)) resp
    · intro i t ht hvi
      simp only [Pool.start, List.getElem?_map, Option.map_eq_some_iff] at ht
      obtain ⟨⟨r, resp⟩, h1, rfl⟩ := ht
      obtain ⟨c, hci, hrole⟩ := hget i _ hvi
      obtain ⟨c', hci', hv⟩ := (Sees.get hs).2 i _ h1
      rw [hci] at hci'
      cases hci'
      exact writes_bystander hv hrole resp
  have hexec : ∀ s : List Nat, ∃ st, Sets env k vs rs st ((Pool.start env rs db).exec s) := by
    intro s
    induction s using snoc_induction with
    | h0 => exact ⟨_, hstart⟩
    | h1 s i ih =>
      obtain ⟨st, ih⟩ := ih
      rw [Pool.exec_snoc]
      exact ih.step (hbud.exec s) (by rw [Pool.exec_length]; exact hl) hlo i
  obtain ⟨st, h⟩ := hexec sched
  have hthread : ∀ (i : Nat) v, vs[i]? = some (some v) → ∃ r resp x, rs[i]? = some (r, resp) ∧
      ((Pool.start env rs db).exec sched).threads[i]? = some (.done x) ∧
      ((st i = .won ∧ x = delivered env resp (.value v)) ∨ (st i = .lost ∧ x = .err .keyTypeDifferent)) := by
    intro i v hvi
    have hil : i < rs.length := by rw [← hlo]; exact (List.getElem?_eq_some_iff.mp hvi).1
    have hit : i < ((Pool.start env rs db).exec sched).threads.length := by rw [Pool.exec_length, hl]; exact hil
    obtain ⟨x, hx⟩ := hf _ (List.getElem_mem hit)
    have hst := h.stage i _ v rs[i].1 rs[i].2 (List.getElem?_eq_getElem hit) hvi (List.getElem?_eq_getElem hil)
    refine ⟨rs[i].1, rs[i].2, x, List.getElem?_eq_getElem hil, by rw [List.getElem?_eq_getElem hit, hx], ?_⟩
    rw [hx] at hst
    cases hsi : st i with
    | fresh => rw [hsi] at hst; cases hst
    | look n =>
      rw [hsi] at hst
      have := h.look i v n hvi hsi
      cases n with
      | zero => omega
      | succ n => cases hst
    | make n => rw [hsi] at hst; cases hst
    | won => rw [hsi] at hst; exact Or.inl ⟨rfl, hst⟩
    | lost => rw [hsi] at hst; exact Or.inr ⟨rfl, hst⟩
  refine ⟨?_, ?_⟩
  · intro i v resp hvi hresp
    obtain ⟨r, resp', x, hri, htx, hx⟩ := hthread i v hvi
    rw [hri] at hresp
    cases hresp
    rcases hx with ⟨-, rfl⟩ | ⟨hsi, rfl⟩
    · exact Or.inl htx
    · obtain ⟨j, w, hj, hw⟩ := h.cause i v hvi hsi
      exact Or.inr ⟨htx, w, List.mem_of_getElem? hj, hw⟩
  · have hstage : ∀ (i : Nat) v, vs[i]? = some (some v) → st i = .won ∨ st i = .lost := by
      intro i v hvi
      obtain ⟨_, _, _, _, _, hx⟩ := hthread i v hvi
      exact hx.imp And.left And.left
    rcases h.key with hfr | ⟨i, v, hvi, hsi, hk⟩ | ⟨i, v, n, hvi, hsi⟩
    · obtain ⟨v, hv⟩ := List.exists_mem_of_ne_nil _ hne
      simp only [present, List.mem_filterMap, id] at hv
      obtain ⟨x, hx, rfl⟩ := hv
      obtain ⟨i, hi⟩ := List.getElem?_of_mem hx
      have h1 := hfr i v hi
      rcases hstage i v hi with h2 | h2 <;> rw [h1] at h2 <;> cases h2
    · obtain ⟨r, resp, x, hri, htx, hx⟩ := hthread i v hvi
      rcases hx with ⟨-, rfl⟩ | ⟨h2, -⟩
      · exact ⟨i, v, resp, hvi, by rw [hri]; rfl, htx, hk⟩
      · rw [hsi] at h2; cases h2
    · rcases hstage i v hvi with h2 | h2 <;> rcases hsi with h3 | ⟨h3, -⟩ <;> rw [h2] at h3 <;> cases h3

/-- C87, the part that holds: if all the values being set have the same type, all Sets succeed, each with its
own value, and the key ends up with one of the values. Missing: with different types a Set can fail, see
C87_false. -/
theorem C87_sets_of_one_type_partial {env : Env} {rs : List (Request × Bytes)} {cs : List Call} {vs : List (Option Value)}
    (hs : Sees rs cs) (k : Bytes) (hr : All2 (SetRole k) vs cs) (hu : ¬ unusable env.mode k)
    (hd : ∀ v, some v ∈ vs → Deliverable env.mode (.value v)) (kind : KeyType) (ht : ∀ v, some v ∈ vs → v.kind = kind)
    (db : Db) (hc : Roomy rs.length db.ctrs) (hsp : (present vs).length ≤ env.spins + 1) (hne : present vs ≠ [])
    (sched : List Nat) (hf : ((Pool.start env rs db).exec sched).finished) :
    (∀ (i : Nat) v resp, vs[i]? = some (some v) → rs[i]?.map Prod.snd = some resp →
      ((Pool.start env rs db).exec sched).threads[i]? = some (.done (delivered env resp (.value v)))) ∧
    ∃ v, some v ∈ vs ∧ ((Pool.start env rs db).exec sched).db.keys k = some v := by
  obtain ⟨h1, i, v, resp, h2, -, -, h3⟩ := C88_concurrent_sets hs k hr hu hd db hc hsp hne sched hf
  refine ⟨?_, v, List.mem_of_getElem? h2, h3⟩
  intro i v resp hvi hri
  rcases h1 i v resp hvi hri with h | ⟨-, w, hw, hn⟩
  · exact h
  · exact absurd ((ht w hw).trans (ht v (List.mem_of_getElem? hvi)).symm) hn

/-- Beside C87 and C88: two Sets, interleaved, and a Get. -/
example : ∃ v, some v ∈ [some (.bytes [7]), some (.bytes [8]), none] ∧
    ((Pool.start (sampleEnv .debug) [(call .set (some .bytes) [[1], [7]], []), (call .set (some .bytes) [[1], [8]], []),
      (call .get none [[1]], [])] (sampleDb [([1], .integer 3)])).exec
        [0, 2, 1, 0, 1, 0, 0, 1, 1, 0, 1, 2, 2]).db.keys [1] = some v := by
  have hs : Sees [(call .set (some .bytes) [[1], [7]], []), (call .set (some .bytes) [[1], [8]], []), (call .get none [[1]], [])]
      [⟨.set, some .bytes, [[1], [7]]⟩, ⟨.set, some .bytes, [[1], [8]]⟩, ⟨.get, none, [[1]]⟩] :=
    .cons (call_views _ _ _ (by decide) (by decide) (by decide)) (.cons (call_views _ _ _ (by decide) (by decide) (by decide))
      (.cons (call_views _ _ _ (by decide) (by decide) (by decide)) .nil))
  refine (C87_sets_of_one_type_partial (env := sampleEnv .debug) hs [1] (vs := [some (.bytes [7]), some (.bytes [8]), none])
    (.cons ⟨rfl, rfl, [7], [], rfl, rfl⟩ (.cons ⟨rfl, rfl, [8], [], rfl, rfl⟩ (.cons ?_ .nil))) (by decide) ?_ .bytes ?_ _
    (sampleDb_roomy _ _ (by decide)) (by decide) (by decide) _ (finished_of_live (by decide +kernel))).2
  · exact Or.inl (by decide)
  · intro v hv
    simp only [List.mem_cons, Option.some.injEq, List.not_mem_nil, or_false, reduceCtorEq] at hv
    rcases hv with rfl | rfl <;> exact deliverable_bytes _ _ (by decide)
  · intro v hv
    simp only [List.mem_cons, Option.some.injEq, List.not_mem_nil, or_false, reduceCtorEq] at hv
    rcases hv with rfl | rfl <;> rfl

/-! ## A further concrete case -/

/-- Two sets of different types at once, whatever the schedule: one of them is stored. -/
example (sched : List Nat) (hf : ((Pool.start (sampleEnv .debug) [(call .set (some .bytes) [[1], [7]], []), (call .set (some .list) [[1], [8]], [])]
    (sampleDb [([1], .integer 3)])).exec sched).finished) :
    ∃ v, some v ∈ [some (.bytes [7]), some (.list [[8]])] ∧
    ((Pool.start (sampleEnv .debug) [(call .set (some .bytes) [[1], [7]], []), (call .set (some .list) [[1], [8]], [])]
      (sampleDb [([1], .integer 3)])).exec sched).db.keys [1] = some v := by
  obtain ⟨-, i, v, resp, h1, -, -, h2⟩ := C88_concurrent_sets (env := sampleEnv .debug)
    (cs := [⟨.set, some .bytes, [[1], [7]]⟩, ⟨.set, some .list, [[1], [8]]⟩]) (vs := [some (.bytes [7]), some (.list [[8]])])
    (.cons (call_views _ _ _ (by decide) (by decide) (by decide)) (.cons (call_views _ _ _ (by decide) (by decide) (by decide)) .nil)) [1]
    (.cons ⟨rfl, rfl, [7], [], rfl, rfl⟩ (.cons ⟨rfl, rfl, [8], [], rfl, rfl⟩ .nil)) (by decide) (by
      intro v hv
      simp only [List.mem_cons, Option.some.injEq, List.not_mem_nil, or_false] at hv
      rcases hv with rfl | rfl
      · exact ⟨by decide +kernel, by intro _ l h; cases h⟩
      · exact ⟨by decide +kernel, by intro _ l h; cases h; decide⟩) (sampleDb [([1], .integer 3)]) (sampleDb_roomy _ _ (by decide)) (by decide +kernel) (by decide) sched hf
  exact ⟨v, List.mem_of_getElem? h1, h2⟩

end Hop
