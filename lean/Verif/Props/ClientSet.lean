import Verif.Props.Client

/-! # Setting and getting through the client; typed requests; key lists -/

namespace Hop

open Spec Prog

/-! ## Helper lemmas -/

theorem same_trans {a b c : Value} (h1 : Same a b) (h2 : Same b c) : Same a c := by
  cases a <;> cases b <;> simp only [Same, reduceCtorEq] at h1 <;> cases c <;>
    simp only [Same, reduceCtorEq] at h2 ⊢ <;> first | exact h1.trans h2 | exact h1.trans h2 | simp_all

theorem same_symm {a b : Value} (h : Same a b) : Same b a := by
  cases a <;> cases b <;> simp only [Same, reduceCtorEq] at h ⊢ <;> first | exact h.symm | simp_all

theorem sum_listItem (l : List Bytes) : (l.flatMap listItem).length = (l.map fun i => 4 + i.length).sum := by
  induction l with
  | nil => rfl
  | cons x l ih => simp [listItem, ih]; omega

theorem sum_mapItem (l : BMap) :
    (l.flatMap mapItem).length = (l.map fun e => 5 + e.1.length + e.2.length).sum := by
  induction l with
  | nil => rfl
  | cons x l ih => simp [mapItem, ih]; omega

theorem sum_setItem (l : List Bytes) : (l.flatMap setItem).length = (l.map fun i => 2 + i.length).sum := by
  induction l with
  | nil => rfl
  | cons x l ih => simp [setItem, ih]; omega

theorem body_weight (v : Value) : (body (.value v)).length = weight v := by
  cases v <;> simp [body, payload, weight, -List.length_flatMap, sum_listItem, sum_mapItem, sum_setItem] <;> omega

theorem carried_iff (m : Mode) (v : Value) (hwf : WF v) :
    Carried v ↔ hollow v = false ∧ argsOf v ≤ 254 ∧ FitsValue m v := by
  cases v with
  | boolean b => simp [Carried, hollow, argsOf, FitsValue]
  | float b => simp [Carried, hollow, argsOf, FitsValue]
  | integer b => simp [Carried, hollow, argsOf, FitsValue]
  | bytes b =>
    simp only [Carried, hollow, argsOf, FitsValue, List.isEmpty_eq_false_iff]
    exact ⟨fun h => ⟨h.1, by omega, h.2, fun _ => h.1⟩, fun h => ⟨h.1, h.2.2.1⟩⟩
  | string b =>
    simp only [Carried, hollow, argsOf, FitsValue, List.isEmpty_eq_false_iff]
    exact ⟨fun h => ⟨h.1, by omega, h.2⟩, fun h => ⟨h.1, h.2.2⟩⟩
  | list l =>
    simp only [Carried, hollow, argsOf, FitsValue, sum_listItem]
    have hh : (l.any List.isEmpty = false) ↔ ∀ i ∈ l, i ≠ [] := by simp
    rw [hh]
    exact ⟨fun h => ⟨h.2.2.1, h.2.1, h.1, by omega, h.2.2.2⟩, fun h => ⟨h.2.2.1, h.2.1, h.1, h.2.2.2.2⟩⟩
  | map mp =>
    simp only [Carried, hollow, argsOf, FitsValue, sum_mapItem, List.isEmpty_eq_false_iff]
    exact ⟨fun h => ⟨h.1, by omega, hwf, by omega, h.2.2.1, h.2.2.2⟩,
      fun h => ⟨h.1, by omega, h.2.2.2.2.1, h.2.2.2.2.2⟩⟩
  | set s =>
    simp only [Carried, hollow, argsOf, FitsValue, sum_setItem, List.isEmpty_eq_false_iff]
    exact ⟨fun h => ⟨h.1, by omega, hwf, h.1, by omega, h.2.2.1, h.2.2.2⟩,
      fun h => ⟨h.1, h.2.1, h.2.2.2.2.2.1, h.2.2.2.2.2.2⟩⟩

theorem parse_spelled (env : Env) (v : Value) (hwf : WF v) :
    parseValue v.kind (spelled env v) = some (orderedValue env v) := by
  cases v with
  | boolean b => cases b <;> rfl
  | bytes b => rfl
  | float f =>
    simp only [spelled, Value.kind, parseValue, orderedValue, beBytes_length, Nat.le_refl, if_true]
    rw [List.take_of_length_le (by simp)]
    exact congrArg (fun x => some (Value.float x)) (F64.ofBytes_toBytes f)
  | integer i =>
    simp only [spelled, Value.kind, parseValue, orderedValue, beBytes_length, Nat.le_refl, if_true]
    rw [List.take_of_length_le (by simp)]
    exact congrArg (fun x => some (Value.integer x)) (i64OfBytes_i64Bytes i)
  | list l => rfl
  | string s => simp only [spelled, Value.kind, parseValue, orderedValue, fromUtf8_strBytes]; rfl
  | map m =>
    have : ((env.mapOrd m).map Prod.fst).Nodup :=
      ((env.mapOrd_perm m).map Prod.fst).nodup_iff.mpr hwf
    simp only [spelled, Value.kind, parseValue, orderedValue, alternating_eq, convMap_flattenPairs _ this]
  | set s =>
    have : (env.setOrd s).Nodup := (env.setOrd_perm s).nodup_iff.mpr hwf
    simp only [spelled, Value.kind, parseValue, orderedValue, convSet_of_nodup _ this]

/-- Setting on the abstract store. -/
theorem perform_set (env : Env) (k : Bytes) (v : Value) (db : Db) (hk : k ≠ []) (hr : ¬ reserved k)
    (hwf : WF v) (hne : spelled env v ≠ []) :
    perform env ((Api.set k v).call env) db = (.value (orderedValue env v),
      { keys := Store.put db.keys k (some (orderedValue env v)), ctrs := counted db.ctrs .commandsSuccessful }) := by
  have hu : ¬ unusable env.mode k := by
    rintro (h | h)
    · exact hr h
    · exact hk h.2
  have hp := parse_spelled env v hwf
  have : execute env db.ctrs .set (some v.kind) (k :: spelled env v) db.keys =
      (.value (orderedValue env v), Store.put db.keys k (some (orderedValue env v))) := by
    cases hl : spelled env v with
    | nil => exact absurd hl hne
    | cons x l =>
      rw [hl] at hp
      simp only [execute, effectiveType, hp, if_neg hu]
  simp only [perform, Api.call, this]
  rfl

theorem spelled_ne_nil (env : Env) (v : Value) (h : hollow v = false) (hl : v ≠ .list []) : spelled env v ≠ [] := by
  have := spelled_length env v
  cases v with
  | list l => intro h'; simp only [spelled] at h'; subst h'; exact hl rfl
  | map m =>
    intro h'; rw [h'] at this
    simp only [hollow, List.isEmpty_eq_false_iff] at h
    simp only [argsOf, List.length_nil] at this
    exact h (List.length_eq_zero_iff.mp (by omega))
  | set s =>
    intro h'; rw [h'] at this
    simp only [hollow, List.isEmpty_eq_false_iff] at h
    simp only [argsOf, List.length_nil] at this
    exact h (List.length_eq_zero_iff.mp (by omega))
  | _ => simp [spelled]

theorem perform_get (env : Env) (k : Bytes) (v : Value) (db : Db) (hk : k ≠ []) (hr : ¬ reserved k)
    (h : db.keys k = some v) :
    perform env ((Api.get k).call env) db =
      (.value v, { keys := db.keys, ctrs := counted db.ctrs .commandsSuccessful }) := by
  have hu : ¬ unusable env.mode k := by
    rintro (h | h)
    · exact hr h
    · exact hk h.2
  simp only [perform, Api.call, execute, if_neg hu, h]
  simp [tally]

/-! ## C42 Set and get -/

/-- C42, the part that holds: for every key that is neither empty nor reserved and every value that can be
carried, `set` resolves to the value and stores it, changing no other key, and a following `get` resolves to
the value and changes nothing. Missing: values that cannot be carried are not always rejected with an error
(`C42_false`); what happens to them is stated in C64. -/
theorem C42_set_get_partial (env : Env) (k : Bytes) (v : Value) (db : Db) (hk : k ≠ []) (hr : ¬ reserved k)
    (hwf : WF v) (hv : Carried v) (hc : Roomy 2 db.ctrs) :
    ∃ w db1 w' db2, ((Api.set k v).start env).run db = (.ok (.ok (.value w)), db1) ∧ Same w v ∧
      (∃ u, db1.keys k = some u ∧ Same u v) ∧ (∀ k', k' ≠ k → db1.keys k' = db.keys k') ∧
      ((Api.get k).start env).run db1 = (.ok (.ok (.value w')), db2) ∧ Same w' v ∧ db2.keys = db1.keys := by
  obtain ⟨h1, h2, h3⟩ := (carried_iff env.mode v hwf).mp hv
  have hl : v ≠ .list [] := by rintro rfl; exact h3.1 rfl
  have hset := perform_set env k v db hk hr hwf (spelled_ne_nil env v h1 hl)
  have hf : FitsValue env.mode (orderedValue env v) := fits_ordered env env.mode (.value v) h3
  have hrun := C65_answered env (.set k v) db (by simp [Api.call, spelled_length]; omega)
    (by simp [Api.refusal, hk, h1]) (fun m => by have := hc m; omega) (by rw [hset]; exact hf)
  rw [hset] at hrun
  have hs1 := orderedValue_same env v
  have hget := perform_get env k (orderedValue env v)
    { keys := Store.put db.keys k (some (orderedValue env v)), ctrs := counted db.ctrs .commandsSuccessful }
    hk hr (by simp [Store.put])
  have hrun2 := C65_answered env (.get k)
    { keys := Store.put db.keys k (some (orderedValue env v)), ctrs := counted db.ctrs .commandsSuccessful }
    (by simp [Api.call]) (by simp [Api.refusal, hk]) (Roomy.counted hc _) (by rw [hget]; exact hf)
  rw [hget] at hrun2
  exact ⟨orderedValue env (orderedValue env v), _, orderedValue env (orderedValue env v), _, hrun,
    same_trans (orderedValue_same env _) hs1, ⟨_, by simp [Store.put], hs1⟩,
    fun k' hk' => by simp [Store.put, hk'], hrun2, same_trans (orderedValue_same env _) hs1, rfl⟩

example : ∃ w db1 w' db2, ((Api.set [107] (.map [([1], [2]), ([3], [])])).start (sampleEnv .debug)).run
    (sampleDb []) = (.ok (.ok (.value w)), db1) ∧ Same w (.map [([1], [2]), ([3], [])]) ∧
    ((Api.get [107]).start (sampleEnv .debug)).run db1 = (.ok (.ok (.value w')), db2) := by
  obtain ⟨w, db1, w', db2, h1, h2, -, -, h3, -⟩ := C42_set_get_partial (sampleEnv .debug) [107]
    (.map [([1], [2]), ([3], [])]) (sampleDb []) (by decide) (by decide) (by simp [WF]) (by simp [Carried])
    (by intro m; simp [sampleDb])
  exact ⟨w, db1, w', db2, h1, h2, h3⟩

/-- C42 as stated, for keys that can be used at all. -/
def C42_Statement : Prop :=
  ∀ (env : Env) (k : Bytes) (v : Value) (db : Db), k ≠ [] → ¬ reserved k → WF v → Roomy 2 db.ctrs →
    (∃ w db1 w' db2, ((Api.set k v).start env).run db = (.ok (.ok (.value w)), db1) ∧ Same w v ∧
      ((Api.get k).start env).run db1 = (.ok (.ok (.value w')), db2) ∧ Same w' v) ∨
    (∃ e db1, ((Api.set k v).start env).run db = (.ok (.error e), db1))

/-! ## C64 Exactly which values survive -/

theorem pushArgument_positions {m : Mode} {b b' : Builder} {a : Bytes} (h : b.pushArgument m a = some b') :
    b'.positions.length = b.positions.length + 1 ∧ b.positions.length < 256 := by
  simp only [Builder.pushArgument] at h
  split at h
  · simp at h
  · split at h
    · split at h
      · rename_i hp
        simp only [Option.some.injEq] at h
        subst h
        exact ⟨by simp, hp⟩
      · simp at h
    · simp at h

theorem pushAll_positions {m : Mode} {b b' : Builder} {as : List Bytes} (hb : b.positions.length ≤ 256)
    (h : b.pushAll m as = (.ok (), b')) : b.positions.length + as.length ≤ 256 := by
  induction as generalizing b with
  | nil => simpa using hb
  | cons a as ih =>
    simp only [Builder.pushAll] at h
    split at h
    · simp at h
    · rename_i b1 h1
      obtain ⟨h2, h3⟩ := pushArgument_positions h1
      have := ih (by omega) h
      simp only [List.length_cons]
      omega

theorem pushItems_positions {m : Mode} {b b' : Builder} {as : List Bytes} (hb : b.positions.length ≤ 256)
    (h : b.pushItems m as = (.ok (), b')) : b.positions.length + as.length ≤ 256 := by
  induction as generalizing b with
  | nil => simpa using hb
  | cons a as ih =>
    simp only [Builder.pushItems] at h
    split at h
    · simp at h
    · split at h
      · simp at h
      · rename_i b1 h1
        obtain ⟨h2, h3⟩ := pushArgument_positions h1
        have := ih (by omega) h
        simp only [List.length_cons]
        omega

/-- A value whose arguments do not fit after the key is not accepted. -/
theorem value_limit {env : Env} {b b' : Builder} {c kt} {k : Bytes} (h : BInv b c kt [k]) (v : Value)
    (hb : b.value env v = (.ok (), b')) : argsOf v ≤ 254 := by
  have hc : b.argumentCount = 1 := h.count
  have hp : b.positions.length = 1 := by rw [h.positions]; rfl
  cases v with
  | list l =>
    simp only [Builder.value] at hb
    split at hb
    · simp at hb
    · rename_i ho
      have := pushItems_positions (by omega) hb
      simp only [Builder.wouldOverfill, hc, decide_eq_true_eq] at ho
      simp only [argsOf]
      omega
  | map mp =>
    simp only [Builder.value] at hb
    split at hb
    · simp at hb
    · split at hb
      · simp at hb
      · have := pushAll_positions (by omega) hb
        rw [flattenPairs_length, (env.mapOrd_perm mp).length_eq] at this
        simp only [argsOf]
        omega
  | set s =>
    simp only [Builder.value] at hb
    split at hb
    · simp at hb
    · split at hb
      · simp at hb
      · rename_i ho _
        have := pushAll_positions (by omega) hb
        rw [(env.setOrd_perm s).length_eq] at this
        simp only [Builder.wouldOverfill, hc, decide_eq_true_eq] at ho
        simp only [argsOf]
        omega
  | _ => simp [argsOf]

theorem run_send_ok {env : Env} {b : Builder} {db db' : Db} {w : Value}
    (h : (Client.send env b).run db = (.ok (.ok w), db')) :
    ∃ resp, (dispatch env b.intoRequest []).run db = (.ok resp, db') ∧
      (RespParser.feed env.mode .new resp).1 = .concluded (.value w) := by
  rw [Client.send, run_andThen] at h
  generalize hd : (dispatch env b.intoRequest []).run db = x at h
  obtain ⟨o, db1⟩ := x
  cases o with
  | ok resp =>
    simp only at h
    generalize hf : (RespParser.feed env.mode .new resp).1 = y at h
    cases y with
    | concluded r =>
      cases r with
      | value v =>
        simp only [Client.ret, Prog.run, Prod.mk.injEq, Outcome.ok.injEq, Except.ok.injEq] at h
        obtain ⟨rfl, rfl⟩ := h
        exact ⟨resp, rfl, hf⟩
      | dispatchError e => simp [Client.throw, Prog.run] at h
      | parseError e => simp [Client.throw, Prog.run] at h
    | readBytes n => simp [Client.panic, Prog.run] at h
    | error e => simp [Client.panic, Prog.run] at h
    | panic => simp [Client.panic, Prog.run] at h
    | stuck => simp [Prog.run] at h
  | err e => simp [Client.throw, Prog.run] at h
  | panic => simp [Client.panic, Prog.run] at h
  | stuck => simp [Prog.run] at h

theorem run_bind_ok_inv {α β} {p : Client.Job α} {f : α → Client.Job β} {db db' : Db} {y : β}
    (h : (Client.bind p f).run db = (.ok (.ok y), db')) :
    ∃ a db1, p.run db = (.ok (.ok a), db1) ∧ (f a).run db1 = (.ok (.ok y), db') := by
  rw [Client.bind, run_andThen] at h
  generalize hp : p.run db = x at h
  obtain ⟨o, db1⟩ := x
  rcases o with ⟨_ | a⟩ | _ | _ | _
  · simp [Client.throw, Prog.run] at h
  · exact ⟨a, db1, rfl, h⟩
  · simp [Prog.run] at h
  · simp [Client.panic, Prog.run] at h
  · simp [Prog.run] at h

/-- C64. For a key that is neither empty nor reserved and any value below 4 GiB: `set` resolves to the value
it was given exactly if the value is non-empty without empty list items and within the limits of `Carried`. -/
theorem C64_set_resolves_iff (env : Env) (k : Bytes) (v : Value) (db : Db) (hk : k ≠ []) (hr : ¬ reserved k)
    (hwf : WF v) (hw : weight v < 2 ^ 32) (hc : Roomy 2 db.ctrs) :
    (∃ w db', ((Api.set k v).start env).run db = (.ok (.ok (.value w)), db') ∧ Same w v) ↔ Carried v := by
  constructor
  · rintro ⟨w, db', hrun, hsame⟩
    obtain ⟨b1, h1, h2⟩ := one_arg env.mode .set (some v.kind) k rfl hk
    have hstart : (Api.set k v).start env = Client.built (b1.value env v) (fun b => wrap Got.value (Client.send env b)) := by
      simp only [Api.start, Client.set, built_ok h1, wrap_built]
    have hn : argsOf v ≤ 254 := by
      rw [hstart] at hrun
      cases hb : b1.value env v with
      | mk o b2 =>
        rw [hb] at hrun
        cases o with
        | ok u => exact value_limit h2 v hb
        | err e => simp [Client.built, Client.throw, Prog.run] at hrun
        | panic => simp [Client.built, Client.panic, Prog.run] at hrun
        | stuck => simp [Client.built, Prog.run] at hrun
    have hst := Api.start_eq env (.set k v) (by simp [Api.call, spelled_length]; omega)
    cases hrf : (Api.set k v).refusal with
    | some e =>
      rw [hrf] at hst
      rw [hst] at hrun
      simp [Client.throw, Prog.run] at hrun
    | none =>
      rw [hrf] at hst
      have hho : hollow v = false := by
        cases h : hollow v with
        | false => rfl
        | true => simp [Api.refusal, hk, h] at hrf
      obtain ⟨b, f, hviews, hs, hread⟩ := hst
      rw [hs] at hrun
      obtain ⟨u, db1, hsend, hf⟩ := run_bind_ok_inv hrun
      rw [hread u (by rintro k' ⟨⟩)] at hf
      have hu : u = w := by
        have : (Outcome.ok (Except.ok (Got.value u)) : Outcome DispatchError (Except Client.Error Got)) =
          .ok (.ok (.value w)) := congrArg Prod.fst hf
        simpa using this
      subst hu
      obtain ⟨resp, hd, hfeed⟩ := run_send_ok hsend
      obtain ⟨v0, hx, hwr, -⟩ := dispatch_ok hviews (fun m => by have := hc m; omega) hd
      have hl : v ≠ .list [] := by
        rintro rfl
        simp [Api.call, spelled, execute] at hx
      have hset := perform_set env k v db hk hr hwf (spelled_ne_nil env v hho hl)
      have hv0 : v0 = orderedValue env v := by
        have h := congrArg Prod.fst hset
        simp only [perform] at h
        rw [hx] at h
        simpa using h
      subst hv0
      have hwf0 : WF (orderedValue env v) := by
        cases v with
        | map m => exact ((env.mapOrd_perm m).map Prod.fst).nodup_iff.mpr hwf
        | set s => exact (env.setOrd_perm s).nodup_iff.mpr hwf
        | _ => trivial
      have hb0 : (body (.value (orderedValue env v))).length < 2 ^ 32 := by
        have := body_ordered_length env (.value v)
        simp only [ordered] at this
        rw [this, body_weight]; exact hw
      have hfit := (C50_round_trip_iff env (.value (orderedValue env v)) resp []
        (by rintro x ⟨⟩; exact hwf0) hb0 hwr).mp
        ⟨.value u, (RespParser.feed env.mode .new resp).2, by rw [List.append_nil, ← hfeed],
          same_trans hsame (same_symm (orderedValue_same env v))⟩
      refine (carried_iff env.mode v hwf).mpr ⟨hho, hn, ?_⟩
      cases v with
      | map m =>
        have hp := env.mapOrd_perm m
        have h2 := (List.Perm.flatMap_right mapItem hp).length_eq
        simp only [Fits, FitsValue, orderedValue] at hfit ⊢
        exact ⟨hwf, by rw [← hp.length_eq]; exact hfit.2.1, fun e he => hfit.2.2.1 e (hp.mem_iff.mpr he),
          by rw [← h2]; exact hfit.2.2.2⟩
      | set s =>
        have hp := env.setOrd_perm s
        have h2 := (List.Perm.flatMap_right setItem hp).length_eq
        simp only [Fits, FitsValue, orderedValue] at hfit ⊢
        refine ⟨hwf, ?_, by rw [← hp.length_eq]; exact hfit.2.2.1, fun e he => hfit.2.2.2.1 e (hp.mem_iff.mpr he),
          by rw [← h2]; exact hfit.2.2.2.2⟩
        rintro rfl
        simp [hollow] at hho
      | _ => exact hfit
  · intro hv
    obtain ⟨w, db1, w', db2, h1, h2, -⟩ := C42_set_get_partial env k v db hk hr hwf hv hc
    exact ⟨w, db1, h1, h2⟩

/-- The result of a call is an error. -/
def isError {α} : Outcome DispatchError (Except Client.Error α) → Bool
  | .ok (.error _) => true
  | _ => false

/-- The statement of C42 is false: a map with a 256-byte key is accepted, stored, and neither returned nor
refused with an error. -/
theorem C42_false : ¬ C42_Statement := by
  intro h
  obtain ⟨big, hb⟩ : ∃ big : Bytes, big = List.replicate 256 1 := ⟨_, rfl⟩
  have hl : big.length = 256 := by rw [hb, List.length_replicate]
  rcases h (sampleEnv .release) [107] (.map [(big, [2])]) (sampleDb []) (by decide)
    (by decide) (by simp [WF]) (by intro m; simp [sampleDb]) with ⟨w, db1, w', db2, h1, h2, -⟩ | ⟨e, db1, h1⟩
  · have hcar := (C64_set_resolves_iff (sampleEnv .release) [107] (.map [(big, [2])]) (sampleDb [])
      (by decide) (by decide) (by simp [WF]) (by simp [weight, hl]) (by intro m; simp [sampleDb])).mp
      ⟨w, db1, h1, h2⟩
    have := hcar.2.2.1 _ (List.mem_singleton.mpr rfl)
    simp [hl] at this
  · have h2 : ∀ big, big = List.replicate 256 1 → isError (((Api.set [107] (.map [(big, [2])])).start
        (sampleEnv .release)).run (sampleDb [])).1 = false := by
      rintro big rfl
      decide +kernel
    have := h2 big hb
    rw [h1] at this
    simp [isError] at this

/-! ## C66 Typed requests -/

theorem run_wrap {α} (F : α → Got) (p : Client.Job α) (db : Db) :
    (wrap F p).run db = ((match (p.run db).1 with
      | .ok (.ok a) => .ok (.ok (F a))
      | .ok (.error e) => .ok (.error e)
      | .err e => .err e
      | .panic => .panic
      | .stuck => .stuck), (p.run db).2) := by
  unfold wrap Client.bind
  rw [run_andThen]
  rcases p.run db with ⟨⟨_ | _⟩ | _ | _ | _, db'⟩ <;> rfl

theorem typed_ok {p : Client.Job Value} {db db' : Db} {v : Value} {t : KeyType}
    (h : (wrap Got.value p).run db = (.ok (.ok (.value v)), db')) :
    (Client.typed t p).run db = (if v.kind = t then .ok (.ok v) else .panic, db') := by
  rw [run_wrap] at h
  generalize hp : p.run db = x at h
  obtain ⟨o, d⟩ := x
  rcases o with ⟨_ | w⟩ | _ | _ | _ <;>
    simp only [Prod.mk.injEq, Outcome.ok.injEq, Except.ok.injEq, Got.value.injEq, reduceCtorEq, false_and] at h
  obtain ⟨rfl, rfl⟩ := h
  rw [Client.typed, run_bind_ok _ _ _ hp]
  split <;> rfl

theorem typed_error {p : Client.Job Value} {db db' : Db} {e : Client.Error} {t : KeyType}
    (h : (wrap Got.value p).run db = (.ok (.error e), db')) :
    (Client.typed t p).run db = (.ok (.error e), db') := by
  rw [run_wrap] at h
  generalize hp : p.run db = x at h
  obtain ⟨o, d⟩ := x
  rcases o with ⟨_ | w⟩ | _ | _ | _ <;>
    simp only [Prod.mk.injEq, Outcome.ok.injEq, Except.error.injEq, reduceCtorEq, false_and] at h
  obtain ⟨rfl, rfl⟩ := h
  rw [Client.typed, run_bind_error _ _ _ hp]

theorem typed_panic {p : Client.Job Value} {db db' : Db} {t : KeyType}
    (h : (wrap Got.value p).run db = (.panic, db')) :
    (Client.typed t p).run db = (.panic, db') := by
  rw [run_wrap] at h
  generalize hp : p.run db = x at h
  obtain ⟨o, d⟩ := x
  rcases o with ⟨_ | w⟩ | _ | _ | _ <;>
    simp only [Prod.mk.injEq, reduceCtorEq, false_and, true_and] at h
  subst h
  rw [Client.typed, run_bind_panic _ _ _ hp]

/-- C66. `get(key).<type>()` on a stored key resolves to the value if it has that type and panics if it has
another; stored keys are unchanged either way. -/
theorem C66_get_hit (env : Env) (t : KeyType) (k : Bytes) (v : Value) (db : Db) (hk : k ≠ []) (hr : ¬ reserved k)
    (hc : Roomy 1 db.ctrs) (hs : db.keys k = some v) (hf : FitsValue env.mode v) :
    ∃ w db', Same w v ∧ db'.keys = db.keys ∧
      (Client.getTyped env t k).run db = (if v.kind = t then .ok (.ok w) else .panic, db') := by
  have hp := perform_get env k v db hk hr hs
  have hrun := C65_answered env (.get k) db (by simp [Api.call]) (by simp [Api.refusal, hk]) hc (by rw [hp]; exact hf)
  rw [hp] at hrun
  have hkind : (orderedValue env v).kind = v.kind := by cases v <;> rfl
  have := typed_ok (t := t) hrun
  rw [hkind] at this
  exact ⟨orderedValue env v, { keys := db.keys, ctrs := counted db.ctrs .commandsSuccessful },
    orderedValue_same env v, rfl, this⟩

/-- C66. `get(key).<type>()` on a missing key resolves to an error whatever the type. -/
theorem C66_get_miss (env : Env) (t : KeyType) (k : Bytes) (db : Db) (hk : k ≠ []) (hr : ¬ reserved k)
    (hc : Roomy 1 db.ctrs) (hs : db.keys k = none) :
    ∃ db', db'.keys = db.keys ∧
      (Client.getTyped env t k).run db = (.ok (.error (.runningCommand .keyNonexistent)), db') := by
  have hu : ¬ unusable env.mode k := by
    rintro (h | h)
    · exact hr h
    · exact hk h.2
  have hp : perform env ((Api.get k).call env) db =
      (.error .keyNonexistent, { keys := db.keys, ctrs := tally db.ctrs (.error .keyNonexistent) }) := by
    simp only [perform, Api.call, execute, if_neg hu, hs]
  have hrun := C65_answered env (.get k) db (by simp [Api.call]) (by simp [Api.refusal, hk]) hc (by rw [hp]; trivial)
  rw [hp] at hrun
  exact ⟨{ keys := db.keys, ctrs := tally db.ctrs (.error .keyNonexistent) }, rfl, typed_error (t := t) hrun⟩

example : ∃ w db', Same w (.integer 7) ∧ (Client.getTyped (sampleEnv .debug) .bytes [107]).run
    (sampleDb [([107], .integer 7)]) = (if (Value.integer 7).kind = .bytes then .ok (.ok w) else .panic, db') := by
  obtain ⟨w, db', h1, -, h2⟩ := C66_get_hit (sampleEnv .debug) .bytes [107] (.integer 7)
    (sampleDb [([107], .integer 7)]) (by decide) (by decide) (by intro m; simp [sampleDb]) (by decide) trivial
  exact ⟨w, db', h1, h2⟩

/-- C66. `set(key).<type>(value)` resolves to the value and stores it, for values that can be carried. -/
theorem C66_set (env : Env) (k : Bytes) (v : Value) (db : Db) (hk : k ≠ []) (hr : ¬ reserved k)
    (hwf : WF v) (hv : Carried v) (hc : Roomy 2 db.ctrs) :
    ∃ w db', (Client.setTyped env k v).run db = (.ok (.ok w), db') ∧ Same w v ∧
      (∃ u, db'.keys k = some u ∧ Same u v) ∧ ∀ k', k' ≠ k → db'.keys k' = db.keys k' := by
  obtain ⟨w, db1, -, -, h1, h2, h3, h4, -⟩ := C42_set_get_partial env k v db hk hr hwf hv hc
  refine ⟨w, db1, ?_, h2, h3, h4⟩
  have := typed_ok (t := v.kind) h1
  rwa [if_pos] at this
  cases w <;> cases v <;> simp only [Same, reduceCtorEq] at h2 <;> rfl

/-- C66. `increment(key).float().by(x)` on an integer key, or on a missing one, adds the 64 bits of the
float to the integer, stores the sum, and panics. -/
theorem C66_increment_float_corrupts (env : Env) (k : Bytes) (f : F64) (i : Int64) (db : Db) (hk : k ≠ [])
    (hr : ¬ reserved k) (hc : Roomy 1 db.ctrs) (hs : (db.keys k).getD (.integer 0) = .integer i)
    (ho : inRange (i.toInt + (Int64.ofUInt64 f.bits).toInt) ∨ env.mode = .release) :
    ∃ db', (Client.incrementTyped env k (.float f)).run db = (.panic, db') ∧
      db'.keys = Store.put db.keys k (some (.integer (Int64.ofInt (i.toInt + (Int64.ofUInt64 f.bits).toInt)))) := by
  have hu : ¬ unusable env.mode k := by
    rintro (h | h)
    · exact hr h
    · exact hk h.2
  have hx : execute env db.ctrs .incrementBy (some .float) (k :: spelled env (.float f)) db.keys =
      addInteger env.mode k (amount (.float f)) db.keys := by
    obtain ⟨x, hx, hl, ha⟩ := spelled_amount env k (.float f) rfl
    rw [hx]
    simp only [execute, hl, Nat.le_refl, if_true, ha]
  have ha : addInteger env.mode k (amount (.float f)) db.keys =
      (.value (.integer (Int64.ofInt (i.toInt + (Int64.ofUInt64 f.bits).toInt))),
        Store.put db.keys k (some (.integer (Int64.ofInt (i.toInt + (Int64.ofUInt64 f.bits).toInt))))) := by
    simp only [addInteger, if_neg hu, hs, amount]
    exact if_pos ho
  have hp : perform env ((Api.incrementBy k (.float f)).call env) db =
      (.value (.integer (Int64.ofInt (i.toInt + (Int64.ofUInt64 f.bits).toInt))),
        { keys := Store.put db.keys k (some (.integer (Int64.ofInt (i.toInt + (Int64.ofUInt64 f.bits).toInt)))),
          ctrs := counted db.ctrs .commandsSuccessful }) := by
    have := hx.trans ha
    simp only [perform, Api.call, Value.kind, this]
    rfl
  have hrun := C65_answered env (.incrementBy k (.float f)) db (by simp [Api.call, spelled_length, argsOf])
    (by simp [Api.refusal, hk, numeric, Value.kind]) hc (by rw [hp]; trivial)
  rw [hp] at hrun
  exact ⟨_, typed_ok (t := .float) hrun, rfl⟩

/-- The answer to `increment_by` is an integer. -/
theorem perform_incrementBy_integer (env : Env) (k : Bytes) (v w : Value) (db : Db) (hv : numeric v.kind = true)
    (h : (perform env ((Api.incrementBy k v).call env) db).1 = .value w) : ∃ i, w = .integer i := by
  obtain ⟨x, hx, hl, ha⟩ := spelled_amount env k v hv
  have : execute env db.ctrs .incrementBy (some v.kind) (k :: spelled env v) db.keys =
      addInteger env.mode k (amount v) db.keys := by
    rw [hx]
    simp only [execute, hl, Nat.le_refl, if_true, ha]
  simp only [perform, Api.call, this] at h
  exact addInteger_shape (s' := (addInteger env.mode k (amount v) db.keys).2) (by rw [← h])

/-- C66. `increment(key).float().by(x)` never resolves to a number: whatever is stored, it is an error or a
panic. -/
theorem C66_increment_float_never (env : Env) (k : Bytes) (f : F64) (db : Db) (hc : Roomy 1 db.ctrs) (w : Value)
    (db' : Db) : (Client.incrementTyped env k (.float f)).run db ≠ (.ok (.ok w), db') := by
  intro h
  rw [Client.incrementTyped, Value.kind] at h
  cases hr : (Api.incrementBy k (.float f)).refusal with
  | some e =>
    have := typed_error (t := .float) (C65_refused env (.incrementBy k (.float f)) db
      (by simp [Api.call, spelled_length, argsOf]) hr)
    rw [this] at h
    simp at h
  | none =>
    have hint := perform_incrementBy_integer env k (.float f) (db := db) (hv := rfl)
    have hrun := C65_answered env (.incrementBy k (.float f)) db (by simp [Api.call, spelled_length, argsOf]) hr hc
    generalize perform env ((Api.incrementBy k (.float f)).call env) db = x at hrun hint
    obtain ⟨x, d⟩ := x
    cases x with
    | value u =>
      obtain ⟨i, rfl⟩ := hint u rfl
      rw [typed_ok (t := .float) (hrun trivial)] at h
      simp [orderedValue, Value.kind] at h
    | error e =>
      rw [typed_error (t := .float) (hrun trivial)] at h
      simp at h
    | crash =>
      rw [typed_panic (t := .float) (hrun trivial)] at h
      simp at h

example : ∃ db', (Client.incrementTyped (sampleEnv .debug) [107] (.float ⟨5⟩)).run (sampleDb []) = (.panic, db') ∧
    db'.keys [107] = some (.integer 5) := by
  obtain ⟨db', h1, h2⟩ := C66_increment_float_corrupts (sampleEnv .debug) [107] ⟨5⟩ 0 (sampleDb []) (by decide)
    (by decide) (by intro m; simp [sampleDb]) (by decide) (.inl (by decide))
  exact ⟨db', h1, by rw [h2]; decide⟩

/-- The same for decrements: the answer is an integer. -/
theorem perform_decrementBy_integer (env : Env) (k : Bytes) (v w : Value) (db : Db) (hv : numeric v.kind = true)
    (h : (perform env ((Api.decrementBy k v).call env) db).1 = .value w) : ∃ i, w = .integer i := by
  obtain ⟨x, hx, hl, ha⟩ := spelled_amount env k v hv
  simp only [perform, Api.call, hx, execute, hl, Nat.le_refl, if_true, ha] at h
  split at h
  · simp at h
  · exact addInteger_shape (s' := (addInteger env.mode k (-amount v) db.keys).2) (by rw [← h])

/-- C66. `decrement(key).float().by(x)` never resolves to a number either. -/
theorem C66_decrement_float_never (env : Env) (k : Bytes) (f : F64) (db : Db) (hc : Roomy 1 db.ctrs) (w : Value)
    (db' : Db) : (Client.decrementTyped env k (.float f)).run db ≠ (.ok (.ok w), db') := by
  intro h
  rw [Client.decrementTyped, Value.kind] at h
  cases hr : (Api.decrementBy k (.float f)).refusal with
  | some e =>
    have := typed_error (t := .float) (C65_refused env (.decrementBy k (.float f)) db
      (by simp [Api.call, spelled_length, argsOf]) hr)
    rw [this] at h
    simp at h
  | none =>
    have hint := perform_decrementBy_integer env k (.float f) (db := db) (hv := rfl)
    have hrun := C65_answered env (.decrementBy k (.float f)) db (by simp [Api.call, spelled_length, argsOf]) hr hc
    generalize perform env ((Api.decrementBy k (.float f)).call env) db = x at hrun hint
    obtain ⟨x, d⟩ := x
    cases x with
    | value u =>
      obtain ⟨i, rfl⟩ := hint u rfl
      rw [typed_ok (t := .float) (hrun trivial)] at h
      simp [orderedValue, Value.kind] at h
    | error e =>
      rw [typed_error (t := .float) (hrun trivial)] at h
      simp at h
    | crash =>
      rw [typed_panic (t := .float) (hrun trivial)] at h
      simp at h

/-- C66. `increment(key).int().by(n)` on an integer key, or on a missing one (taken for 0), stores the sum
and resolves to it. -/
theorem C66_increment_int (env : Env) (k : Bytes) (n i : Int64) (db : Db) (hk : k ≠ [])
    (hr : ¬ reserved k) (hc : Roomy 1 db.ctrs) (hs : (db.keys k).getD (.integer 0) = .integer i)
    (ho : inRange (i.toInt + n.toInt)) :
    ∃ db', (Client.incrementTyped env k (.integer n)).run db =
        (.ok (.ok (.integer (Int64.ofInt (i.toInt + n.toInt)))), db') ∧
      db'.keys = Store.put db.keys k (some (.integer (Int64.ofInt (i.toInt + n.toInt)))) := by
  have hu : ¬ unusable env.mode k := by
    rintro (h | h)
    · exact hr h
    · exact hk h.2
  have hx : execute env db.ctrs .incrementBy (some .integer) (k :: spelled env (.integer n)) db.keys =
      addInteger env.mode k (amount (.integer n)) db.keys := by
    obtain ⟨x, hx, hl, ha⟩ := spelled_amount env k (.integer n) rfl
    rw [hx]
    simp only [execute, hl, Nat.le_refl, if_true, ha]
  have ha : addInteger env.mode k (amount (.integer n)) db.keys =
      (.value (.integer (Int64.ofInt (i.toInt + n.toInt))),
        Store.put db.keys k (some (.integer (Int64.ofInt (i.toInt + n.toInt))))) := by
    simp only [addInteger, if_neg hu, hs, amount]
    exact if_pos (.inl ho)
  have hp : perform env ((Api.incrementBy k (.integer n)).call env) db =
      (.value (.integer (Int64.ofInt (i.toInt + n.toInt))),
        { keys := Store.put db.keys k (some (.integer (Int64.ofInt (i.toInt + n.toInt)))),
          ctrs := counted db.ctrs .commandsSuccessful }) := by
    have := hx.trans ha
    simp only [perform, Api.call, Value.kind, this]
    rfl
  have hrun := C65_answered env (.incrementBy k (.integer n)) db (by simp [Api.call, spelled_length, argsOf])
    (by simp [Api.refusal, hk, numeric, Value.kind]) hc (by rw [hp]; trivial)
  rw [hp] at hrun
  exact ⟨_, typed_ok (t := .integer) hrun, rfl⟩

/-- C66. The answer to `append(key).<type>(value)` has that type, so unless the append itself panics the
typed request does not. -/
theorem C66_append_kind (env : Env) (k : Bytes) (v w : Value) (db : Db)
    (h : (perform env ((Api.append k v).call env) db).1 = .value w) : w.kind = v.kind := by
  obtain ⟨s', h⟩ : ∃ s', execute env db.ctrs .append (some v.kind) (k :: spelled env v) db.keys = (.value w, s') :=
    ⟨(perform env ((Api.append k v).call env) db).2.keys, by rw [← h]; rfl⟩
  simp only [execute] at h
  have ht : effectiveType (some v.kind) (db.keys k) .bytes = v.kind := rfl
  rw [← ht]
  generalize effectiveType (some v.kind) (db.keys k) .bytes = t at h
  split at h
  · simp at h
  · split at h
    · simp at h
    · split at h
      · simp at h
      · rename_i hk
        simp only [ne_eq, Decidable.not_not] at hk
        generalize (db.keys k).getD (.default t) = u at h hk
        generalize hx : appended u (spelled env v) = x at h
        cases x with
        | none => simp at h
        | some y =>
          simp only [Prod.mk.injEq, Answer.value.injEq] at h
          obtain ⟨rfl, -⟩ := h
          rw [← hk]
          cases u <;> simp only [appended, Option.some.injEq, reduceCtorEq] at hx <;> subst hx <;> rfl

example : (perform (sampleEnv .debug) ((Api.append [107] (.string ['a'])).call (sampleEnv .debug))
    (sampleDb [([107], .string ['b'])])).1 = .value (.string ['b', 'a']) := by decide +kernel

/-- C66. `append(key).<type>(value)` that is refused before it reaches the engine resolves to that error;
any other resolves to the engine's answer (the value it appended to, or the engine's error) with the effect of
the command on the stored keys and the statistics, and panics only if the command does. -/
theorem C66_append (env : Env) (k : Bytes) (v : Value) (db : Db)
    (hn : ((Api.append k v).call env).args.length ≤ 255) :
    (∀ e, (Api.append k v).refusal = some e → (Client.appendTyped env k v).run db = (.ok (.error e), db)) ∧
    ((Api.append k v).refusal = none → Roomy 1 db.ctrs →
      match perform env ((Api.append k v).call env) db with
      | (.value w, db') => FitsValue env.mode w →
          ∃ u, Same u w ∧ (Client.appendTyped env k v).run db = (.ok (.ok u), db')
      | (.error e, db') => (Client.appendTyped env k v).run db = (.ok (.error (.runningCommand e)), db')
      | (.crash, db') => (Client.appendTyped env k v).run db = (.panic, db')) := by
  refine ⟨fun e h => typed_error (C65_refused env (.append k v) db hn h), fun h hc => ?_⟩
  have hkind := C66_append_kind env k v (db := db)
  have hrun := C65_answered env (.append k v) db hn h hc
  generalize perform env ((Api.append k v).call env) db = x at hrun hkind
  obtain ⟨x, d⟩ := x
  cases x with
  | value w =>
    intro hf
    have hw : (orderedValue env w).kind = v.kind := (by cases w <;> rfl : _ = w.kind).trans (hkind w rfl)
    have := typed_ok (t := v.kind) (hrun hf)
    rw [if_pos hw] at this
    exact ⟨_, orderedValue_same env w, this⟩
  | error e => exact typed_error (hrun trivial)
  | crash => exact typed_panic (hrun trivial)

example : ∃ u db', Same u (.string ['b', 'a']) ∧
    (Client.appendTyped (sampleEnv .debug) [107] (.string ['a'])).run (sampleDb [([107], .string ['b'])]) =
      (.ok (.ok u), db') := by
  have h := (C66_append (sampleEnv .debug) [107] (.string ['a']) (sampleDb [([107], .string ['b'])])
    (by decide)).2 (by decide) (by intro m; simp [sampleDb])
  have hx : (perform (sampleEnv .debug) ((Api.append [107] (.string ['a'])).call (sampleEnv .debug))
    (sampleDb [([107], .string ['b'])])).1 = .value (.string ['b', 'a']) := by decide +kernel
  generalize perform (sampleEnv .debug) ((Api.append [107] (.string ['a'])).call (sampleEnv .debug))
    (sampleDb [([107], .string ['b'])]) = x at h hx
  obtain ⟨x, d⟩ := x
  simp only at hx
  subst hx
  obtain ⟨u, h1, h2⟩ := h (by simp [FitsValue]; decide)
  exact ⟨u, d, h1, h2⟩

/-! ## C47 Key lists -/

/-- C47. `keys` refuses an empty list of keys and one with more than 255 keys, and accepts any other
unchanged. -/
theorem C47_checked (ks : List Bytes) :
    Client.checkKeys ks =
      if ks.length = 0 then .error .noKeys
      else if 256 ≤ ks.length then .error .tooManyKeys
      else .ok ks := by
  cases ks with
  | nil => rfl
  | cons k ks => simp [Client.checkKeys, Nat.lt_iff_add_one_le]

/-- C47. For a list of keys that was accepted, `exists` and `is` either hand the engine a command whose
arguments are exactly these keys, or, if a key is empty, resolve to the error saying so: building the request
neither panics nor runs out of arguments. -/
theorem C47_accepted (env : Env) (ks ks' : List Bytes) (t : KeyType) (h : Client.checkKeys ks = .ok ks') :
    ks' = ks ∧ ∀ a : Api, a = .exists ks' ∨ a = .is t ks' →
      (a.call env).args = ks ∧
      (([] ∈ ks ∧ ∀ db, (a.start env).run db = (.ok (.error (.buildingRequest .argumentEmpty)), db)) ∨
       ([] ∉ ks ∧ ∃ b f, Views b.intoRequest (a.call env).cmd (a.call env).kt ks ∧
          a.start env = Client.bind (Client.send env b) f)) := by
  rw [C47_checked] at h
  split at h
  · simp at h
  · split at h
    · simp at h
    · rename_i h1 h2
      simp only [Except.ok.injEq] at h
      subst h
      refine ⟨rfl, ?_⟩
      rintro a (rfl | rfl)
      · refine ⟨rfl, ?_⟩
        by_cases hm : [] ∈ ks
        · exact .inl ⟨hm, fun db => C65_refused env _ db (by simp only [Api.call]; omega) (by simp [Api.refusal, hm])⟩
        · have := Api.start_eq env (.exists ks) (by simp only [Api.call]; omega)
          rw [show (Api.exists ks).refusal = none by simp [Api.refusal, hm]] at this
          obtain ⟨b, f, h3, h4, -⟩ := this
          exact .inr ⟨hm, b, f, h3, h4⟩
      · refine ⟨rfl, ?_⟩
        by_cases hm : [] ∈ ks
        · exact .inl ⟨hm, fun db => C65_refused env _ db (by simp only [Api.call]; omega) (by simp [Api.refusal, hm])⟩
        · have := Api.start_eq env (.is t ks) (by simp only [Api.call]; omega)
          rw [show (Api.is t ks).refusal = none by simp [Api.refusal, hm]] at this
          obtain ⟨b, f, h3, h4, -⟩ := this
          exact .inr ⟨hm, b, f, h3, h4⟩

example : Client.checkKeys [[1], [2]] = .ok [[1], [2]] := by decide

/-! ## C68 Statistics through the client -/

/-- The counters that Stats reports. -/
def shown (m : Metric) : Prop := m = .commandsErrored ∨ m = .commandsSuccessful ∨ m = .sessionsStarted

instance (m : Metric) : Decidable (shown m) := by unfold shown; infer_instance

theorem lookup_iff_mem (l : BMap) (h : (l.map Prod.fst).Nodup) (k v : Bytes) :
    List.lookup k l = some v ↔ (k, v) ∈ l := by
  induction l with
  | nil => simp
  | cons e l ih =>
    obtain ⟨k', v'⟩ := e
    simp only [List.map_cons, List.nodup_cons] at h
    by_cases hk : k = k'
    · subst hk
      simp only [List.lookup_cons_self, Option.some.injEq, List.mem_cons, Prod.mk.injEq, true_and]
      refine ⟨fun h => .inl h.symm, fun h' => ?_⟩
      rcases h' with h' | h'
      · exact h'.symm
      · exact absurd (List.mem_map_of_mem (f := Prod.fst) h') h.1
    · have : (k == k') = false := by simpa using hk
      simp only [List.lookup, this, List.mem_cons, Prod.mk.injEq, hk, false_and, false_or]
      exact ih h.2

theorem lookup_perm {l l' : BMap} (hp : l.Perm l') (h : (l'.map Prod.fst).Nodup) (k : Bytes) :
    List.lookup k l = List.lookup k l' := by
  have h' : (l.map Prod.fst).Nodup := (hp.map Prod.fst).nodup_iff.mpr h
  apply Option.ext
  intro v
  rw [lookup_iff_mem l h', lookup_iff_mem l' h, hp.mem_iff]

theorem lookup_statistics (ctrs : Metric → Option Nat) (x : Metric) :
    List.lookup (ascii x.name) (statistics ctrs) = if shown x then reported ctrs x else none := by
  have e1 : (ascii "commands_errored" == ascii "commands_successful") = false := by decide
  have e2 : (ascii "commands_errored" == ascii "sessions_started") = false := by decide
  have e4 : (ascii "commands_successful" == ascii "commands_errored") = false := by decide
  have e5 : (ascii "commands_successful" == ascii "sessions_started") = false := by decide
  have e6 : (ascii "sessions_started" == ascii "commands_errored") = false := by decide
  have e7 : (ascii "sessions_started" == ascii "commands_successful") = false := by decide
  have e8 : (ascii "sessions_ended" == ascii "commands_errored") = false := by decide
  have e9 : (ascii "sessions_ended" == ascii "commands_successful") = false := by decide
  have e10 : (ascii "sessions_ended" == ascii "sessions_started") = false := by decide
  cases x <;> rcases h1 : reported ctrs .commandsErrored with _ | a <;>
    rcases h2 : reported ctrs .commandsSuccessful with _ | b <;>
    rcases h3 : reported ctrs .sessionsStarted with _ | c <;>
    simp [statistics, h1, h2, h3, shown, Metric.name, List.lookup, e1, e2, e4, e5, e6, e7, e8, e9, e10]

theorem statistics_nodup (ctrs : Metric → Option Nat) : ((statistics ctrs).map Prod.fst).Nodup :=
  (statistics_fits .debug ctrs).1

/-- C68. What `stats()` resolves to: for a counter that Stats reports and that is below 2^63, the accessor
returns the counter's value before the call (0 if it was never counted), in whatever order the map arrives.
The accessor of any other counter (`sessions_ended`) returns 0 whatever was counted. -/
theorem C68_stats (env : Env) (db : Db) (hc : Roomy 1 db.ctrs) :
    ∃ m db', (Api.stats.start env).run db = (.ok (.ok (.stats m)), db') ∧ db'.keys = db.keys ∧
      (∀ x, shown x → (db.ctrs x).getD 0 < 2 ^ 63 →
        (Client.statsInt m x).toInt = ((db.ctrs x).getD 0 : Nat)) ∧
      (∀ x, ¬ shown x → Client.statsInt m x = 0) := by
  have hp : perform env (Api.stats.call env) db =
      (.value (.map (statistics db.ctrs)), { keys := db.keys, ctrs := counted db.ctrs .commandsSuccessful }) := rfl
  have hrun := C65_answered env .stats db (by simp [Api.call]) rfl hc (by rw [hp]; exact statistics_fits env.mode db.ctrs)
  rw [hp] at hrun
  refine ⟨env.mapOrd (statistics db.ctrs),
    { keys := db.keys, ctrs := counted db.ctrs .commandsSuccessful }, hrun, rfl, ?_, ?_⟩
  · intro x hx hlt
    rw [Client.statsInt, lookup_perm (env.mapOrd_perm _) (statistics_nodup _), lookup_statistics, if_pos hx, reported]
    cases hv : db.ctrs x with
    | none => rfl
    | some n =>
      rw [hv] at hlt
      simp only [Option.getD_some] at hlt ⊢
      simp only [hlt, if_true, beBytes_length]
      rw [← i64Bytes_ofNat n hlt, i64OfBytes_i64Bytes]
      exact Int64.toInt_ofNat_of_lt hlt
  · intro x hx
    rw [Client.statsInt, lookup_perm (env.mapOrd_perm _) (statistics_nodup _), lookup_statistics, if_neg hx]

example : ∃ m db', (Api.stats.start (sampleEnv .debug)).run
    { keys := fun _ => none, ctrs := fun x => if x = .commandsErrored then some 3 else none } =
      (.ok (.ok (.stats m)), db') ∧ (Client.statsInt m .commandsErrored).toInt = 3 ∧
      (Client.statsInt m .commandsSuccessful).toInt = 0 := by
  obtain ⟨m, db', h1, -, h2, -⟩ := C68_stats (sampleEnv .debug)
    { keys := fun _ => none, ctrs := fun x => if x = .commandsErrored then some 3 else none }
    (by intro m; cases m <;> decide)
  exact ⟨m, db', h1, h2 .commandsErrored (.inl rfl) (by decide), h2 .commandsSuccessful (.inr (.inl rfl)) (by decide)⟩

/-! ## Further concrete cases -/

example (db : Db) : ((Api.exists [[1], []]).start (sampleEnv .debug)).run db = (.ok (.error (.buildingRequest .argumentEmpty)), db) := by
  rcases ((C47_accepted (sampleEnv .debug) [[1], []] [[1], []] .map rfl).2 (.exists [[1], []]) (.inl rfl)).2 with ⟨-, h⟩ | ⟨h, -⟩
  · exact h db
  · exact absurd (by simp) h

/-- The empty string does not resolve. -/
example (w : Value) (db' : Db) : ¬ (((Api.set [107] (.string [])).start (sampleEnv .debug)).run (sampleDb []) =
    (.ok (.ok (.value w)), db') ∧ Same w (.string [])) := by
  intro h
  have := (C64_set_resolves_iff (sampleEnv .debug) [107] (.string []) (sampleDb []) (by decide) (by decide) (by simp [WF]) (by decide +kernel)
    (by intro m; simp [sampleDb])).mp ⟨w, db', h⟩
  simp [Carried] at this

example (w : Value) (h : (perform (sampleEnv .debug) ((Api.append [107] (.list [[3]])).call (sampleEnv .debug)) (sampleDb [([107], .list [[1]])])).1 =
    .value w) : w.kind = .list := C66_append_kind _ [107] (.list [[3]]) w _ h

example (f : F64) (w : Value) (db' : Db) : (Client.decrementTyped (sampleEnv .debug) [107] (.float f)).run (sampleDb [([107], .float f)]) ≠ (.ok (.ok w), db') :=
  C66_decrement_float_never _ _ _ _ (by intro m; simp [sampleDb]) w db'

example (f : F64) (w : Value) (db' : Db) : (Client.incrementTyped (sampleEnv .debug) [107] (.float f)).run (sampleDb [([107], .float f)]) ≠ (.ok (.ok w), db') :=
  C66_increment_float_never _ _ _ _ (by intro m; simp [sampleDb]) w db'

example : ∃ db', db'.keys = (sampleDb [([1], .integer 5)]).keys ∧ (Client.getTyped (sampleEnv .debug) .list [107]).run (sampleDb [([1], .integer 5)]) =
    (.ok (.error (.runningCommand .keyNonexistent)), db') :=
  C66_get_miss _ .list [107] _ (by decide) (by decide) (by intro m; simp [sampleDb]) (by decide)

example : ∃ db', (Client.incrementTyped (sampleEnv .debug) [107] (.integer 3)).run (sampleDb [([107], .integer 5)]) = (.ok (.ok (.integer 8)), db') ∧
    db'.keys = Store.put (sampleDb [([107], .integer 5)]).keys [107] (some (.integer 8)) :=
  C66_increment_int (sampleEnv .debug) [107] 3 5 (sampleDb [([107], .integer 5)]) (by decide) (by decide) (by intro m; simp [sampleDb]) (by decide) (by decide)

example : ∃ w db', (Client.setTyped (sampleEnv .debug) [107] (.map [([1], [2]), ([3], [])])).run (sampleDb [([1], .integer 5)]) = (.ok (.ok w), db') ∧
    Same w (.map [([1], [2]), ([3], [])]) := by
  obtain ⟨w, db', h1, h2, -⟩ := C66_set (sampleEnv .debug) [107] (.map [([1], [2]), ([3], [])]) (sampleDb [([1], .integer 5)]) (by decide) (by decide)
    (by simp [WF]) (by simp [Carried]) (by intro m; simp [sampleDb])
  exact ⟨w, db', h1, h2⟩

end Hop
