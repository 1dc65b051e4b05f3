import Verif.Props.Exclusive

/-! # C104, C105: commands that look at several keys -/

namespace Hop

open Spec Prog

/-- What a call asks about each of its keys: Exists whether it is there, Is whether it has the type. -/
def Spec.question (c : Call) : Option (Option Value → Bool) :=
  match c.cmd, c.kt with
  | .exists, none => some fun o => o.isSome
  | .is, some t => some fun o => o.map Value.kind = some t
  | _, _ => none

/-- What the keys hold after the first `n` steps of a schedule. -/
def Spec.moment (env : Env) (rs : List (Request × Bytes)) (db : Db) (sched : List Nat) (n : Nat) : Store :=
  ((Pool.start env rs db).exec (sched.take n)).db.keys

/-- C104 as stated: a question about several keys is answered as of one moment while it is being asked. -/
def C104_Statement : Prop :=
  ∀ (env : Env) (rs : List (Request × Bytes)) (cs : List Call) (i : Nat) (c : Call) (q : Option Value → Bool) (resp : Bytes)
    (r : Request) (db : Db) (sched : List Nat) (out : Bytes),
    Sees rs cs → cs[i]? = some c → rs[i]? = some (r, resp) → question c = some q → Roomy rs.length db.ctrs →
    ((Pool.start env rs db).exec sched).threads[i]? = some (.done (.ok out)) →
    ∃ n, n ≤ sched.length ∧
      out = resp ++ frame (.value (.boolean (c.args.all fun k => q (moment env rs db sched n k))))

/-- It is false: Exists finds the first key, which is then renamed, and finds the second one. Never are both there. -/
theorem C104_false : ¬ C104_Statement := by
  intro h
  have hs : Sees [(call .exists none [[1], [2]], []), (call .rename none [[1], [2]], [])]
      [⟨.exists, none, [[1], [2]]⟩, ⟨.rename, none, [[1], [2]]⟩] :=
    .cons (call_views _ _ _ (by decide) (by decide) (by decide)) (.cons (call_views _ _ _ (by decide) (by decide) (by decide)) .nil)
  obtain ⟨n, hn, ho⟩ := h (sampleEnv .debug) _ _ 0 _ _ [] _ (sampleDb [([1], .boolean true)]) [0, 1, 1, 1, 1, 1, 0, 0]
    (frame (.value (.boolean true))) hs rfl rfl rfl (sampleDb_roomy _ _ (by decide)) rfl
  have hall : ∀ n, n ≤ 8 → ([[1], [2]].all fun k => (moment (sampleEnv .debug) [(call .exists none [[1], [2]], []), (call .rename none [[1], [2]], [])]
      (sampleDb [([1], .boolean true)]) [0, 1, 1, 1, 1, 1, 0, 0] n k).isSome) = false := by decide +kernel
  have h1 := hall n hn
  simp only at h1 ho
  rw [h1] at ho
  revert ho
  decide

/-- Looking at one key after another until one does not fit. -/
def asking {α : Type} (q : Option Value → Bool) (next : Bool → Prog α) : List Bytes → Prog α
  | [] => next true
  | k :: ks => readKey k fun o => if q o then asking q next ks else next false

theorem asking_exist {α : Type} (next : Bool → Prog α) (ks : List Bytes) : allExist next ks = asking (fun o => o.isSome) next ks := by
  induction ks with
  | nil => rfl
  | cons k ks ih => simp only [allExist, asking, containsKey, ih]

theorem asking_are {α : Type} (t : KeyType) (next : Bool → Prog α) (ks : List Bytes) :
    allAre t next ks = asking (fun o => o.map Value.kind = some t) next ks := by
  induction ks with
  | nil => rfl
  | cons k ks ih =>
    simp only [allAre, asking, keyTypeOf, ih]
    congr 1
    funext o
    cases o with
    | none => simp
    | some v => simp

/-- A question about the given keys, with what follows. -/
def asked (env : Env) (q : Option Value → Bool) (resp : Bytes) (ks : List Bytes) : Prog Bytes :=
  (asking q (fun b => done (.ok (Response.writeBool resp b))) ks).andThen (countOutcome env)

theorem asked_begin {env : Env} {r : Request} {c : Call} {q : Option Value → Bool} (hv : Views r c.cmd c.kt c.args)
    (hq : question c = some q) (hne : c.args ≠ []) (resp : Bytes) : dispatch env r resp = asked env q resp c.args := by
  obtain ⟨cmd, kt, args⟩ := c
  simp only at hv hne
  have ha : r.argsFrom 0 = some args := by rw [argsFrom_eq hv, if_neg hne, List.drop_zero]
  unfold question at hq
  simp only at hq
  split at hq
  · cases hq
    unfold dispatch command
    rw [hv.command]
    dsimp only
    unfold dispatchExists
    rw [hv.keyType, ha, if_neg (by simp)]
    simp only [Prog.orErr, asking_exist]
    rfl
  · cases hq
    unfold dispatch command
    rw [hv.command]
    dsimp only
    unfold dispatchIs
    rw [hv.keyType, ha]
    simp only [Prog.orErr, asking_are]
    rfl
  · cases hq

theorem writeBool_frame (resp : Bytes) (b : Bool) : Response.writeBool resp b = resp ++ frame (.value (.boolean b)) := by
  cases b <;> simp [Response.writeBool] <;> decide

/-- The keys before the first that does not fit, with the steps at which they were looked at. -/
structure Spec.Looked (see : Nat → Store) (q : Option Value → Bool) (turn : Nat → Bool) (steps : List Nat) (ks : List Bytes) : Prop where
  increasing : steps.Pairwise (· < ·)
  mine : ∀ n ∈ steps, turn n = true
  fit : All2 (fun n k => q (see n k) = true) steps ks

theorem all2_snoc {α β : Type} {R : α → β → Prop} {as : List α} {bs : List β} (h : All2 R as bs) {a : α} {b : β} (hr : R a b) :
    All2 R (as ++ [a]) (bs ++ [b]) := by
  induction h with
  | nil => exact .cons hr .nil
  | cons h1 _ ih => exact .cons h1 ih

theorem Spec.Looked.snoc {see : Nat → Store} {q : Option Value → Bool} {turn : Nat → Bool} {steps : List Nat} {ks : List Bytes}
    (h : Looked see q turn steps ks) {n : Nat} {k : Bytes} (hl : ∀ m ∈ steps, m < n) (ht : turn n = true) (hq : q (see n k) = true) :
    Looked see q turn (steps ++ [n]) (ks ++ [k]) := by
  refine ⟨?_, ?_, all2_snoc h.fit hq⟩
  · rw [List.pairwise_append]
    exact ⟨h.increasing, by simp, by intro a ha b hb; simp at hb; subst hb; exact hl a ha⟩
  · intro m hm
    simp only [List.mem_append, List.mem_singleton] at hm
    rcases hm with hm | rfl
    · exact h.mine m hm
    · exact ht

/-- How the answer came about: all keys fitted, each when it was looked at; or one did not when it was looked at, after
those before it had. -/
def Spec.CameAbout (see : Nat → Store) (q : Option Value → Bool) (turn : Nat → Bool) (ks : List Bytes) (answer : Bool) : Prop :=
  (answer = true ∧ ∃ steps, Looked see q turn steps ks) ∨
  (answer = false ∧ ∃ pre k post steps n, ks = pre ++ k :: post ∧ Looked see q turn steps pre ∧ (∀ m ∈ steps, m < n) ∧
    turn n = true ∧ q (see n k) = false)

/-- C105. Exists and Is look at their keys one after another, each at one moment, until a key is missing (or of another
type). The answer is `true` if all fitted at these moments, which are in the order of the keys. It is `false` if a key
did not fit at its moment; so a `false` is right as of that moment. -/
theorem C105_in_order {env : Env} {rs : List (Request × Bytes)} {cs : List Call} (hs : Sees rs cs) (i : Nat) (c : Call)
    (q : Option Value → Bool) (hi : cs[i]? = some c) (r : Request) (resp : Bytes) (hri : rs[i]? = some (r, resp))
    (hq : question c = some q) (hne : c.args ≠ []) (db : Db) (hc : Roomy rs.length db.ctrs) (sched : List Nat)
    (x : Outcome DispatchError Bytes) (hx : ((Pool.start env rs db).exec sched).threads[i]? = some (.done x)) :
    ∃ answer, x = .ok (resp ++ frame (.value (.boolean answer))) ∧
      CameAbout (moment env rs db sched) q (fun n => sched[n]? == some i) c.args answer := by
  have hv : Views r c.cmd c.kt c.args := by
    obtain ⟨c', hc', hv⟩ := (Sees.get hs).2 i _ hri
    rw [hi] at hc'
    cases hc'
    exact hv
  have hbud := Budget.start env rs db hc
  have inv : ∀ n, n ≤ sched.length → ∃ t, ((Pool.start env rs db).exec (sched.take n)).threads[i]? = some t ∧
      ((∃ pre post steps, c.args = pre ++ post ∧ Looked (moment env rs db sched) q (fun n => sched[n]? == some i) steps pre ∧
        (∀ m ∈ steps, m < n) ∧ post ≠ [] ∧ t = asked env q resp post) ∨
      ∃ answer, CameAbout (moment env rs db sched) q (fun n => sched[n]? == some i) c.args answer ∧
        Ends (.ok (resp ++ frame (.value (.boolean answer)))) t) := by
    intro n
    induction n with
    | zero =>
      intro _
      refine ⟨asked env q resp c.args, ?_, Or.inl ⟨[], c.args, [], rfl, ⟨by simp, by simp, .nil⟩, by simp, hne, rfl⟩⟩
      simp only [List.take_zero, Pool.exec_nil, Pool.start, List.getElem?_map, hri, Option.map_some, asked_begin hv hq hne]
    | succ n ih =>
      intro hn
      obtain ⟨t, ht, hst⟩ := ih (by omega)
      have htake : sched.take (n + 1) = sched.take n ++ [sched[n]'(by omega)] := by
        rw [List.take_add_one, List.getElem?_eq_getElem (by omega)]; rfl
      rw [htake, Pool.exec_snoc]
      by_cases hj : sched[n]'(by omega) = i
      · rw [hj]
        obtain ⟨hself, hdb⟩ := Pool.stepAt_self ht
        have hturn : (sched[n]? == some i) = true := by
          rw [List.getElem?_eq_getElem (by omega), hj]; simp
        refine ⟨_, hself, ?_⟩
        rcases hst with ⟨pre, post, steps, h1, h2, h3, h4, rfl⟩ | ⟨answer, h1, h2⟩
        · cases post with
          | nil => exact absurd rfl h4
          | cons k post =>
            have hstep : ((asked env q resp (k :: post)).step ((Pool.start env rs db).exec (sched.take n)).db).1 =
                if q (moment env rs db sched n k) then asked env q resp post
                else countOutcome env (.ok (Response.writeBool resp false)) := by
              simp only [asked, asking, readKey, Prog.andThen, Prog.step]
              show Prog.andThen (if q (moment env rs db sched n k) then _ else _) _ = _
              split <;> rfl
            rw [hstep]
            by_cases hk : q (moment env rs db sched n k) = true
            · rw [if_pos hk]
              have hl := h2.snoc h3 hturn hk
              cases post with
              | nil =>
                right
                refine ⟨true, Or.inl ⟨rfl, _, by rw [h1]; exact hl⟩, ?_⟩
                rw [← writeBool_frame]
                exact ends_count env _
              | cons k' post =>
                left
                refine ⟨pre ++ [k], k' :: post, steps ++ [n], by rw [h1]; simp, hl, ?_, by simp, rfl⟩
                intro m hm
                simp only [List.mem_append, List.mem_singleton] at hm
                rcases hm with hm | rfl
                · have := h3 m hm; omega
                · omega
            · rw [if_neg hk]
              right
              refine ⟨false, Or.inr ⟨rfl, pre, k, post, steps, n, h1, h2, h3, hturn, by simpa using hk⟩, ?_⟩
              rw [← writeBool_frame]
              exact ends_count env _
        · exact Or.inr ⟨answer, h1, (Ends.step (hbud.exec _) ht h2).2⟩
      · refine ⟨t, by rw [Pool.stepAt_other _ (Ne.symm hj)]; exact ht, ?_⟩
        rcases hst with ⟨pre, post, steps, h1, h2, h3, h4, h5⟩ | h
        · exact Or.inl ⟨pre, post, steps, h1, h2, fun m hm => by have := h3 m hm; omega, h4, h5⟩
        · exact Or.inr h
  obtain ⟨t, ht, hst⟩ := inv sched.length (Nat.le_refl _)
  rw [List.take_length, hx] at ht
  cases ht
  rcases hst with ⟨pre, post, steps, h1, h2, h3, h4, h5⟩ | ⟨answer, h1, h2⟩
  · cases post with
    | nil => exact absurd rfl h4
    | cons k post => simp [asked, asking, readKey, Prog.andThen] at h5
  · exact ⟨answer, h2, h1⟩

/-- C104, the part that holds: the answer `false`, and the answer to a question about one key, are right as of one
moment while it is being asked. Missing: the answer `true` about several keys, see C104_false. -/
theorem C104_moment_partial {env : Env} {rs : List (Request × Bytes)} {cs : List Call} (hs : Sees rs cs) (i : Nat) (c : Call)
    (q : Option Value → Bool) (hi : cs[i]? = some c) (r : Request) (resp : Bytes) (hri : rs[i]? = some (r, resp))
    (hq : question c = some q) (hne : c.args ≠ []) (db : Db) (hc : Roomy rs.length db.ctrs) (sched : List Nat)
    (x : Outcome DispatchError Bytes) (hx : ((Pool.start env rs db).exec sched).threads[i]? = some (.done x))
    (hone : c.args.length = 1 ∨ x = .ok (resp ++ frame (.value (.boolean false)))) :
    ∃ n, n ≤ sched.length ∧ x = .ok (resp ++ frame (.value (.boolean (c.args.all fun k => q (moment env rs db sched n k))))) := by
  obtain ⟨answer, rfl, ⟨rfl, steps, hl⟩ | ⟨rfl, pre, k, post, steps, n, h1, h2, h3, h4, h5⟩⟩ :=
    C105_in_order hs i c q hi r resp hri hq hne db hc sched x hx
  · rcases hone with hone | hone
    · obtain ⟨cmd, kt, args⟩ := c
      simp only at hl hone ⊢
      match args, hone with
      | [k], _ =>
        obtain ⟨-, hm, hf⟩ := hl
        cases hf with
        | @cons n _ _ _ h1 _ =>
          refine ⟨n, ?_, by simp [h1]⟩
          have := hm n (by simp)
          simp only [beq_iff_eq] at this
          exact Nat.le_of_lt (List.getElem?_eq_some_iff.mp this).1
    · simp only [Outcome.ok.injEq, List.append_cancel_left_eq] at hone
      exact absurd hone (by decide)
  · simp only [beq_iff_eq] at h4
    refine ⟨n, Nat.le_of_lt (List.getElem?_eq_some_iff.mp h4).1, ?_⟩
    have : (c.args.all fun k => q (moment env rs db sched n k)) = false := by
      rw [h1, List.all_eq_false]
      exact ⟨k, by simp, by simp [h5]⟩
    rw [this]

/-- Beside C105: an Is of three keys overtaken by a Set of the second to another type. -/
example : ∃ answer, (.ok (frame (.value (.boolean false))) : Outcome DispatchError Bytes) = .ok ([] ++ frame (.value (.boolean answer))) ∧
    CameAbout (moment (sampleEnv .debug) [(call .is (some .bytes) [[1], [2], [3]], []), (call .set (some .string) [[2], [65]], [])]
      (sampleDb [([1], .bytes []), ([2], .bytes []), ([3], .bytes [])]) [0, 1, 1, 1, 1, 1, 0, 0])
      (fun o => o.map Value.kind = some .bytes) (fun n => [0, 1, 1, 1, 1, 1, 0, 0][n]? == some 0) [[1], [2], [3]] answer := by
  have hs : Sees [(call .is (some .bytes) [[1], [2], [3]], []), (call .set (some .string) [[2], [65]], [])]
      [⟨.is, some .bytes, [[1], [2], [3]]⟩, ⟨.set, some .string, [[2], [65]]⟩] :=
    .cons (call_views _ _ _ (by decide) (by decide) (by decide)) (.cons (call_views _ _ _ (by decide) (by decide) (by decide)) .nil)
  exact C105_in_order (env := sampleEnv .debug) hs 0 _ _ rfl _ [] rfl rfl (by decide) _ (sampleDb_roomy _ _ (by decide)) _ _ rfl

/-! ## A further concrete case -/

/-- Exists of one key, while another thread deletes the key. -/
example (sched : List Nat) (x : Outcome DispatchError Bytes)
    (hx : ((Pool.start (sampleEnv .debug) [(call .exists none [[1]], []), (call .delete none [[1]], [])] (sampleDb [([1], .bytes [])])).exec
      sched).threads[0]? = some (.done x)) :
    ∃ n, n ≤ sched.length ∧ x = .ok ([] ++ frame (.value (.boolean ([[1]].all fun k => Option.isSome
      (moment (sampleEnv .debug) [(call .exists none [[1]], []), (call .delete none [[1]], [])] (sampleDb [([1], .bytes [])]) sched n k))))) :=
  C104_moment_partial (env := sampleEnv .debug) (cs := [⟨.exists, none, [[1]]⟩, ⟨.delete, none, [[1]]⟩])
    (.cons (call_views _ _ _ (by decide) (by decide) (by decide)) (.cons (call_views _ _ _ (by decide) (by decide) (by decide)) .nil))
    0 _ _ rfl _ [] rfl rfl (by decide) _ (sampleDb_roomy _ _ (by decide)) sched x hx (.inl rfl)

end Hop
