import Verif.Props.CountersAside

/-!
# The same request again and again (C190)
-/

namespace Hop

open Prog Spec

/-- The commands of which a second execution counts again. -/
def Spec.accumulating : List CommandId := [.append, .decrement, .decrementBy, .increment, .incrementBy]

private theorem effective_again {kt : Option KeyType} {o : Option Value} {d : KeyType} {v : Value} (h : v.kind = effectiveType kt o d) :
    effectiveType kt (some v) d = effectiveType kt o d := by
  cases kt with
  | some t => rfl
  | none => exact h

/-- Executing a Set again finds what it left, and answers the same. -/
private theorem set_again (env : Env) (ctrs : Metric → Option Nat) (kt : Option KeyType) (args : List Bytes) (s : Store) :
    execute env ctrs .set kt args (execute env ctrs .set kt args s).2 = execute env ctrs .set kt args s := by
  match args with
  | [] => rfl
  | [_] => rfl
  | k :: a :: items =>
    simp only [execute]
    cases hp : parseValue (effectiveType kt (s k) .bytes) (a :: items) with
    | none => simp only [hp]
    | some v =>
      by_cases hu : unusable env.mode k
      · simp only [if_pos hu, put_apply_self, put_put]
        cases kt with
        | some t => simp only [effectiveType] at hp ⊢; simp only [hp]
        | none => simp only [effectiveType, parseValue]
      · simp only [if_neg hu, put_apply_self, put_put]
        rw [effective_again (parseValue_kind hp), hp]

/-- What reading commands leave is what they found. -/
theorem execute_reads (env : Env) (ctrs : Metric → Option Nat) (c : CommandId)
    (hc : c ∈ [.echo, .exists, .get, .is, .keys, .length, .stats, .type]) (kt : Option KeyType) (args : List Bytes) (s : Store) :
    (execute env ctrs c kt args s).2 = s := by
  cases c <;> first
    | exact absurd hc (by decide)
    | (cases args <;> simp only [execute] <;> repeat' split) <;> rfl

/-- Executing a command that does not accumulate again leaves the store as it is. -/
private theorem execute_again (env : Env) (ctrs : Metric → Option Nat) (c : CommandId) (hc : c ∉ accumulating) (kt : Option KeyType)
    (args : List Bytes) (s : Store) :
    (execute env ctrs c kt args (execute env ctrs c kt args s).2).2 = (execute env ctrs c kt args s).2 := by
  by_cases hr : c ∈ [.echo, .exists, .get, .is, .keys, .length, .stats, .type]
  · rw [execute_reads _ _ _ hr]
  cases c with
  | set => rw [set_again]
  | delete =>
    cases args with
    | nil => rfl
    | cons k more =>
      simp only [execute]
      by_cases h1 : kt.isSome
      · simp only [if_pos h1]
      · simp only [if_neg h1]
        by_cases h2 : (s k).isNone
        · simp only [if_pos h2]
        · simp only [if_neg h2, put_apply_self, Option.isNone_none, if_true]
  | rename =>
    match args with
    | [] => rfl
    | [_] => rfl
    | a :: b :: more =>
      simp only [execute]
      by_cases h1 : kt.isSome
      · simp only [if_pos h1]
      · simp only [if_neg h1]
        by_cases h2 : (s a).isNone
        · simp only [if_pos h2]
        · simp only [if_neg h2]
          by_cases h3 : (s b).isSome
          · simp only [if_pos h3, if_neg h2]
          · simp only [if_neg h3]
            have hab : a ≠ b := by rintro rfl; cases h : s a <;> simp_all
            have : ((s.put a none).put b (s a)) a = none := by rw [put_apply_ne _ _ hab, put_apply_self]
            simp only [this, Option.isNone_none, if_true]
  | append => exact absurd (by decide) hc
  | decrement => exact absurd (by decide) hc
  | decrementBy => exact absurd (by decide) hc
  | increment => exact absurd (by decide) hc
  | incrementBy => exact absurd (by decide) hc
  | _ => exact absurd (by decide) hr

/-- A refusal is repeated. -/
private theorem refused_again {env : Env} {ctrs : Metric → Option Nat} {c : CommandId} {kt : Option KeyType} {args : List Bytes} {s s' : Store}
    {e : DispatchError} (h : execute env ctrs c kt args s = (.error e, s')) : execute env ctrs c kt args s' = (.error e, s') := by
  rcases execute_error h with rfl | ⟨k, more, rfl, hc, rfl, h1, h2, rfl, rfl⟩
  · exact h
  · rcases hc with rfl | rfl <;> simp only [execute, if_true, addFloat, if_neg h2, put_apply_self]

private theorem set_ctrs (env : Env) (ctrs ctrs' : Metric → Option Nat) (kt : Option KeyType) (args : List Bytes) (s : Store) :
    execute env ctrs .set kt args s = execute env ctrs' .set kt args s := by
  match args with
  | [] => rfl
  | [_] => rfl
  | _ :: _ :: _ => rfl

/-- Commands other than Stats take no notice of the counters. -/
theorem execute_ctrs (env : Env) (ctrs ctrs' : Metric → Option Nat) {c : CommandId} (hc : c ≠ .stats) (kt : Option KeyType)
    (args : List Bytes) (s : Store) : execute env ctrs c kt args s = execute env ctrs' c kt args s := by
  cases c <;> first
    | exact absurd rfl hc
    | (match args with
       | [] => rfl
       | [_] => rfl
       | _ :: _ :: _ => rfl)

private theorem repeat_keys {env : Env} {r : Request} {resp : Bytes} {K : Store}
    (h : ∀ db : Db, db.keys = K → ((dispatch env r resp).run db).2.keys = K) :
    ∀ (n : Nat) (db : Db), db.keys = K → (serveAll env (List.replicate n (r, resp)) db).2.keys = K
  | 0, _, hk => hk
  | n + 1, db, hk => by
    rw [List.replicate_succ]
    exact repeat_keys h n _ (h db hk)

private theorem repeat_answers {env : Env} {r : Request} {resp : Bytes} {K : Store} {o : Outcome DispatchError Bytes}
    (h : ∀ db : Db, db.keys = K → Roomy 1 db.ctrs → ((dispatch env r resp).run db).1 = o ∧ ((dispatch env r resp).run db).2.keys = K) :
    ∀ (n : Nat) (db : Db), db.keys = K → Roomy n db.ctrs →
      (serveAll env (List.replicate n (r, resp)) db).1 = List.replicate n o ∧ (serveAll env (List.replicate n (r, resp)) db).2.keys = K
  | 0, _, hk, _ => ⟨rfl, hk⟩
  | n + 1, db, hk, hr => by
    obtain ⟨h1, h2⟩ := h db hk (Roomy.mono hr (by omega))
    obtain ⟨h3, h4⟩ := repeat_answers h n _ h2 (dispatch_roomy env r resp db n hr)
    rw [List.replicate_succ, List.replicate_succ]
    exact ⟨by simp only [serveAll, h1, h3], h4⟩

/-- Keys after one request, by the abstract store. -/
theorem keys_once {env : Env} {r : Request} {c : Call} (hv : Views r c.cmd c.kt c.args) (resp : Bytes) (db : Db) (ctrs : Metric → Option Nat)
    (hd : env.mode = .release ∨ c.cmd ≠ .set ∨ Deliverable env.mode (execute env ctrs c.cmd c.kt c.args db.keys).1) :
    ((dispatch env r resp).run db).2.keys = (execute env (fun _ => none) c.cmd c.kt c.args db.keys).2 := by
  rw [← C182_keys env r resp db fun _ => none]
  refine C48_keys hv resp { db with ctrs := fun _ => none } (roomy_none 1 (by omega)) ?_
  rcases hd with h | h | h
  · exact .inl h
  · exact .inr (.inl h)
  · by_cases hs : c.cmd = .set
    · refine .inr (.inr ?_)
      simp only [perform]
      rw [hs] at h ⊢
      rw [set_ctrs env _ ctrs]
      exact h
    · exact .inr (.inl hs)

/-- **C190, keys.** Sent any number of times in a row, a request that does not accumulate leaves the keys its first
execution left. -/
theorem C190_keys {env : Env} {r : Request} {c : Call} (hv : Views r c.cmd c.kt c.args) (hc : c.cmd ∉ accumulating) (resp : Bytes) (db : Db)
    (hd : env.mode = .release ∨ c.cmd ≠ .set ∨ Deliverable env.mode (perform env c db).1) (n : Nat) :
    (serveAll env (List.replicate (n + 1) (r, resp)) db).2.keys = ((dispatch env r resp).run db).2.keys := by
  rw [List.replicate_succ]
  refine repeat_keys (fun db' hk => ?_) n _ rfl
  have h1 := keys_once hv resp db db.ctrs hd
  rw [keys_once hv resp db' db.ctrs, hk, h1, execute_again _ _ _ hc]
  rcases hd with h | h | h
  · exact .inl h
  · exact .inr (.inl h)
  · by_cases hs : c.cmd = .set
    · refine .inr (.inr ?_)
      simp only [perform] at h
      rw [hk, h1, hs, set_ctrs env db.ctrs fun _ => none, set_again, set_ctrs env _ db.ctrs, ← hs]
      exact h
    · exact .inr (.inl hs)

/-- **C190, answers.** The answers to such a request are also all the same, but for Delete, Rename and Stats. -/
theorem C190_answers {env : Env} {r : Request} {c : Call} (hv : Views r c.cmd c.kt c.args) (hc : c.cmd ∉ accumulating)
    (hm : c.cmd ≠ .delete ∧ c.cmd ≠ .rename ∧ c.cmd ≠ .stats) (resp : Bytes) (db : Db) (n : Nat) (hr : Roomy n db.ctrs)
    (hd : c.cmd ≠ .set ∨ Deliverable env.mode (perform env c db).1) :
    (serveAll env (List.replicate n (r, resp)) db).1 = List.replicate n ((dispatch env r resp).run db).1 := by
  have hid : r.commandId ≠ .stats := by rw [hv.1]; exact hm.2.2
  -- with keys as they are now, the answer is the one now
  have same : ∀ db' : Db, db'.keys = db.keys → Roomy 1 db'.ctrs → Roomy 1 db.ctrs →
      ((dispatch env r resp).run db').1 = ((dispatch env r resp).run db).1 := by
    intro db' hk h1 h2
    rw [C182_outcome env r hid resp db', C182_outcome env r hid resp db, recounted_roomy h1, recounted_roomy h2, hk]
  match n with
  | 0 => rfl
  | n + 1 =>
    have hr1 : Roomy 1 db.ctrs := Roomy.mono hr (by omega)
    rw [List.replicate_succ, List.replicate_succ]
    have hr' := dispatch_roomy env r resp db n hr
    by_cases hs : c.cmd = .set
    · have hdel : Deliverable env.mode (perform env c db).1 := hd.resolve_left (absurd hs)
      have h0 := C48_dispatch hv resp db hr1 hdel
      have hk0 : ((dispatch env r resp).run db).2.keys = (execute env (fun _ => none) .set c.kt c.args db.keys).2 := by
        rw [h0]; simp only [perform]; rw [hs, set_ctrs]
      simp only [serveAll]
      refine congrArg _ (repeat_answers (K := ((dispatch env r resp).run db).2.keys) (fun db' hk h1 => ?_) n _ rfl hr').1
      have hp : (perform env c db').1 = (perform env c db).1 := by
        simp only [perform]
        rw [hk, hk0, hs, set_ctrs env db'.ctrs fun _ => none, set_again, set_ctrs]
      have h := C48_dispatch hv resp db' h1 (by rw [hp]; exact hdel)
      refine ⟨by rw [h, hp, h0], ?_⟩
      rw [h]
      simp only [perform]
      rw [hk, hk0, hs, set_ctrs env db'.ctrs fun _ => none, set_again]
    · have hk0 : ∀ db' : Db, ((dispatch env r resp).run db').2.keys = db'.keys := fun db' => C20_read_only env r resp db' (by
        rw [hv.1]
        revert hc hm hs
        generalize c.cmd = x
        cases x <;> decide)
      simp only [serveAll]
      refine congrArg _ (repeat_answers (K := db.keys) (fun db' hk h1 => ⟨same db' hk h1 hr1, (hk0 db').trans hk⟩) n _ (hk0 db) hr').1

/-- **C190, refusals.** A request of any command that is refused is refused in the same way every time it is sent
again, and the keys are then as the first refusal left them. -/
theorem C190_refused {env : Env} {r : Request} {c : Call} (hv : Views r c.cmd c.kt c.args) (resp : Bytes) (db : Db) (n : Nat)
    (hr : Roomy (n + 1) db.ctrs) {e : DispatchError} (he : ((dispatch env r resp).run db).1 = .err e) :
    (serveAll env (List.replicate (n + 1) (r, resp)) db).1 = List.replicate (n + 1) (.err e) ∧
    (serveAll env (List.replicate (n + 1) (r, resp)) db).2.keys = ((dispatch env r resp).run db).2.keys := by
  have hx := (dispatch_err hv (db' := ((dispatch env r resp).run db).2) (Roomy.mono hr (by omega)) (Prod.ext he rfl)).1
  have hs : c.cmd ≠ .stats ∨ c.cmd = .stats := by by_cases h : c.cmd = .stats <;> simp [h]
  have step : ∀ db' : Db, db'.keys = ((dispatch env r resp).run db).2.keys → Roomy 1 db'.ctrs →
      ((dispatch env r resp).run db').1 = .err e ∧ ((dispatch env r resp).run db').2.keys = ((dispatch env r resp).run db).2.keys := by
    intro db' hk h1
    have h2 := refused_again hx
    have h3 : execute env db'.ctrs c.cmd c.kt c.args db'.keys = (.error e, ((dispatch env r resp).run db).2.keys) := by
      rw [hk]
      rcases hs with hs | hs
      · rw [execute_ctrs env _ db.ctrs hs]; exact h2
      · rw [hs] at h2 ⊢
        cases hk : c.kt <;> simp only [hk, execute, Option.isSome, if_true, Bool.false_eq_true, if_false] at h2 ⊢
        · cases h2
        · exact h2
    rw [dispatch_error hv resp db' h1 h3]
    exact ⟨rfl, rfl⟩
  obtain ⟨h1, h2⟩ := repeat_answers step n _ rfl (dispatch_roomy env r resp db n hr)
  rw [List.replicate_succ, List.replicate_succ]
  exact ⟨by simp only [serveAll, he, h1], h2⟩

/-- What comes of a Delete or a Rename sent again. -/
def Spec.gone : CommandId → DispatchError
  | .delete => .preconditionFailed
  | _ => .keyNonexistent

/-- **C190, once.** A Delete or Rename that succeeded does so once: sent again, any number of times, it is refused and
the keys stay as they are. -/
theorem C190_once {env : Env} {r : Request} {c : Call} (hv : Views r c.cmd c.kt c.args) (hc : c.cmd = .delete ∨ c.cmd = .rename)
    (resp : Bytes) (db : Db) (n : Nat) (hr : Roomy (n + 1) db.ctrs) {out : Bytes} (ho : ((dispatch env r resp).run db).1 = .ok out) :
    (serveAll env (List.replicate (n + 1) (r, resp)) db).1 = .ok out :: List.replicate n (.err (gone c.cmd)) ∧
    (serveAll env (List.replicate (n + 1) (r, resp)) db).2.keys = ((dispatch env r resp).run db).2.keys := by
  obtain ⟨v, hx, -, -⟩ := dispatch_ok hv (db' := ((dispatch env r resp).run db).2) (Roomy.mono hr (by omega)) (Prod.ext ho rfl)
  have h2 : ∀ ctrs, execute env ctrs c.cmd c.kt c.args ((dispatch env r resp).run db).2.keys =
      (.error (gone c.cmd), ((dispatch env r resp).run db).2.keys) := by
    intro ctrs
    generalize ((dispatch env r resp).run db).2.keys = s' at hx ⊢
    generalize c.args = args at hx ⊢
    rcases hc with hc | hc <;> rw [hc] at hx ⊢
    · cases args with
      | nil => simp [execute] at hx
      | cons k more =>
        simp only [execute] at hx ⊢
        split at hx
        · cases hx
        · rename_i h1
          split at hx
          · cases hx
          · cases hx
            simp [h1, gone, put_apply_self]
    · match args, hx with
      | [], hx => simp [execute] at hx
      | [_], hx => simp [execute] at hx
      | a :: b :: more, hx =>
        simp only [execute] at hx ⊢
        split at hx
        · cases hx
        · rename_i h1
          split at hx
          · cases hx
          · rename_i h2
            split at hx
            · cases hx
            · rename_i h3
              cases hx
              have hab : a ≠ b := by rintro rfl; cases h : db.keys a <;> simp_all
              have : (Store.put (Store.put db.keys a none) b (db.keys a)) a = none := by rw [put_apply_ne _ _ hab, put_apply_self]
              simp [h1, gone, this]
  have step : ∀ db' : Db, db'.keys = ((dispatch env r resp).run db).2.keys → Roomy 1 db'.ctrs →
      ((dispatch env r resp).run db').1 = .err (gone c.cmd) ∧
      ((dispatch env r resp).run db').2.keys = ((dispatch env r resp).run db).2.keys := by
    intro db' hk h1
    rw [dispatch_error hv resp db' h1 (by rw [hk]; exact h2 _)]
    exact ⟨rfl, rfl⟩
  obtain ⟨h1, h2⟩ := repeat_answers step n _ rfl (dispatch_roomy env r resp db n hr)
  rw [List.replicate_succ]
  exact ⟨by simp only [serveAll, ho, h1], h2⟩

/-- A request of each of the commands that accumulate. -/
def Spec.again : CommandId → Request
  | .append => call .append (some .bytes) [[107], [1]]
  | .decrement => call .decrement none [[107]]
  | .decrementBy => call .decrementBy none [[107], [3, 0, 0, 0, 0, 0, 0, 0]]
  | .increment => call .increment none [[107]]
  | _ => call .incrementBy none [[107], [3, 0, 0, 0, 0, 0, 0, 0]]

/-- **C190, the others.** Each of the commands set apart does count again: there is a request of it that leaves another
value when sent twice than when sent once, succeeding both times. -/
theorem C190_accumulating (m : Mode) : ∀ c ∈ accumulating,
    (again c).commandId = c ∧
    (serveAll (sampleEnv m) [(again c, []), (again c, [])] (sampleDb [])).2.keys [107] ≠
      ((dispatch (sampleEnv m) (again c) []).run (sampleDb [])).2.keys [107] ∧
    ∀ o ∈ (serveAll (sampleEnv m) [(again c, []), (again c, [])] (sampleDb [])).1, o ≠ .panic ∧ ∀ e, o ≠ .err e := by
  have h : ∀ c ∈ accumulating, (again c).commandId = c ∧
      (serveAll (sampleEnv m) [(again c, []), (again c, [])] (sampleDb [])).2.keys [107] ≠
        ((dispatch (sampleEnv m) (again c) []).run (sampleDb [])).2.keys [107] ∧
      ((serveAll (sampleEnv m) [(again c, []), (again c, [])] (sampleDb [])).1.all fun o => match o with
        | .ok _ => true
        | _ => false) = true := by cases m <;> decide +kernel
  intro c hc
  obtain ⟨h1, h2, h3⟩ := h c hc
  refine ⟨h1, h2, fun o ho => ?_⟩
  have := List.all_eq_true.mp h3 o ho
  cases o <;> simp_all

/-! ## Concrete cases -/

/-- A Set sent a hundred times, over a value of another type. -/
example : (serveAll (sampleEnv .debug) (List.replicate 100 (call .set (some .bytes) [[107], [1, 2]], [])) (sampleDb [([107], .integer 4)])).2.keys =
    ((dispatch (sampleEnv .debug) (call .set (some .bytes) [[107], [1, 2]]) []).run (sampleDb [([107], .integer 4)])).2.keys := by
  rw [C190_keys (env := sampleEnv .debug) (c := ⟨.set, some .bytes, [[107], [1, 2]]⟩) (call_views _ _ _ (by decide) (by decide) (by decide)) (by decide) []
    (sampleDb [([107], .integer 4)]) (.inr (.inr (by
      rw [show (perform (sampleEnv .debug) ⟨.set, some .bytes, [[107], [1, 2]]⟩ (sampleDb [([107], .integer 4)])).1 = .value (.bytes [1, 2]) from by decide +kernel]
      exact ⟨by decide +kernel, by intro _ l h; cases h⟩))) 99]

/-- A Rename sent a hundred times. -/
example : (serveAll (sampleEnv .debug) (List.replicate 100 (call .rename none [[107], [108]], [])) (sampleDb [([107], .integer 4)])).2.keys [108] =
    some (.integer 4) := by
  rw [C190_keys (c := ⟨.rename, none, [[107], [108]]⟩) (call_views _ _ _ (by decide) (by decide) (by decide)) (by decide) []
    (sampleDb [([107], .integer 4)]) (.inr (.inl (by decide))) 99]
  decide +kernel

/-- A Length sent a hundred times. -/
example : (serveAll (sampleEnv .debug) (List.replicate 100 (call .length none [[107]], [])) (sampleDb [([107], .bytes [1, 2])])).1 =
    List.replicate 100 (.ok (frame (.value (.integer 2)))) := by
  rw [C190_answers (c := ⟨.length, none, [[107]]⟩) (call_views _ _ _ (by decide) (by decide) (by decide)) (by decide) (by decide) []
    (sampleDb [([107], .bytes [1, 2])]) 100 (sampleDb_roomy _ _ (by decide)) (.inl (by decide))]
  exact congrArg _ (by decide +kernel)

/-- A Set sent a hundred times, its answers. -/
example : (serveAll (sampleEnv .release) (List.replicate 100 (call .set (some .bytes) [[107], [1, 2]], [])) (sampleDb [])).1 =
    List.replicate 100 (.ok (frame (.value (.bytes [1, 2])))) := by
  rw [C190_answers (env := sampleEnv .release) (c := ⟨.set, some .bytes, [[107], [1, 2]]⟩) (call_views _ _ _ (by decide) (by decide) (by decide)) (by decide) (by decide) []
    (sampleDb []) 100 (sampleDb_roomy _ _ (by decide)) (.inr (by
      rw [show (perform (sampleEnv .release) ⟨.set, some .bytes, [[107], [1, 2]]⟩ (sampleDb [])).1 = .value (.bytes [1, 2]) from by decide +kernel]
      exact ⟨by decide +kernel, by intro _ l h; cases h⟩))]
  exact congrArg _ (by decide +kernel)

/-- An Append to an integer sent a hundred times. -/
example : (serveAll (sampleEnv .release) (List.replicate 100 (call .append none [[107], [1]], [])) (sampleDb [([107], .integer 4)])).1 =
    List.replicate 100 (.err .keyTypeDifferent) :=
  (C190_refused (c := ⟨.append, none, [[107], [1]]⟩) (call_views _ _ _ (by decide) (by decide) (by decide)) []
    (sampleDb [([107], .integer 4)]) 99 (sampleDb_roomy _ _ (by decide)) (by decide +kernel)).1

/-- A Delete sent a hundred times. -/
example : (serveAll (sampleEnv .release) (List.replicate 100 (call .delete none [[107]], [])) (sampleDb [([107], .integer 4)])).1 =
    .ok (frame (.value (.bytes [107]))) :: List.replicate 99 (.err .preconditionFailed) :=
  (C190_once (c := ⟨.delete, none, [[107]]⟩) (call_views _ _ _ (by decide) (by decide) (by decide)) (.inl rfl) []
    (sampleDb [([107], .integer 4)]) 99 (sampleDb_roomy _ _ (by decide)) (by decide +kernel)).1

end Hop
