import Verif.Lemmas.Client
import Verif.Spec.Sample

/-! # The client and its in-memory backend -/

namespace Hop

open Spec Prog

/-! ## C65 An in-memory client call is the engine command it stands for -/

theorem Api.keyType_expected (env : Env) (a : Api) (db : Db) (v : Value)
    (h : (perform env (a.call env) db).1 = .value v) : Expected a (orderedValue env v) := by
  rintro k rfl
  simp only [perform, Api.call, execute, Option.isSome_none, Bool.false_eq_true, if_false] at h
  cases hk : db.keys k with
  | none => rw [hk] at h; simp at h
  | some w =>
    rw [hk] at h
    simp only [Answer.value.injEq] at h
    subst h
    exact ⟨w.kind, rfl⟩

/-- C65. A call that is refused (an empty key, an empty value or item, a value of an unsupported kind)
resolves to the error saying so and changes nothing, not even the statistics. -/
theorem C65_refused (env : Env) (a : Api) (db : Db) (hn : (a.call env).args.length ≤ 255) {e : Client.Error}
    (h : a.refusal = some e) : (a.start env).run db = (.ok (.error e), db) := by
  have := Api.start_eq env a hn
  rw [h] at this
  rw [this]
  rfl

/-- C65. Any other call has exactly the effect of the engine command it stands for on the stored keys and on
the statistics, and resolves to the command's answer, provided the answer is within the limits of a
response. -/
theorem C65_answered (env : Env) (a : Api) (db : Db) (hn : (a.call env).args.length ≤ 255)
    (h : a.refusal = none) (hc : Roomy 1 db.ctrs) (hf : Carriable env.mode (perform env (a.call env) db).1) :
    (a.start env).run db = (a.given env (perform env (a.call env) db).1, (perform env (a.call env) db).2) := by
  have := Api.start_eq env a hn
  rw [h] at this
  obtain ⟨b, f, hv, hs, hr⟩ := this
  have hsend := run_send (c := a.call env) hv db hc hf
  have hexp := Api.keyType_expected env a db
  rw [hs]
  generalize (perform env (a.call env) db).1 = x at *
  cases x with
  | value v =>
    rw [run_bind_ok _ _ _ hsend, hr _ (hexp v rfl)]
    simp only [reading, Api.given]
    cases a.understood (orderedValue env v) <;> rfl
  | error e => rw [run_bind_error _ _ _ hsend]; rfl
  | crash => rw [run_bind_panic _ _ _ hsend]; rfl

theorem addInteger_shape {m : Mode} {k : Bytes} {n : Int} {s s' : Store} {v : Value}
    (h : addInteger m k n s = (.value v, s')) : ∃ i, v = .integer i := by
  simp only [addInteger] at h
  split at h
  · simp at h
  · split at h
    · split at h
      · simp only [Prod.mk.injEq, Answer.value.injEq] at h; exact ⟨_, h.1.symm⟩
      · simp at h
    · simp at h

theorem addFloat_shape {m : Mode} {k : Bytes} {g : F64 → F64} {s s' : Store} {v : Value}
    (h : addFloat m g k s = (.value v, s')) : ∃ i, v = .float i := by
  simp only [addFloat] at h
  split at h
  · simp at h
  · split at h
    · simp only [Prod.mk.injEq, Answer.value.injEq] at h; exact ⟨_, h.1.symm⟩
    · simp at h
    · simp at h

/-- C65. The engine's answer always has the shape the call promises. -/
theorem C65_shape (env : Env) (a : Api) (db : Db) (v : Value)
    (h : (perform env (a.call env) db).1 = .value v) : a.understood (orderedValue env v) ≠ none := by
  obtain ⟨s', h⟩ : ∃ s', execute env db.ctrs (a.call env).cmd (a.call env).kt (a.call env).args db.keys = (.value v, s') :=
    ⟨(perform env (a.call env) db).2.keys, by rw [← h]; rfl⟩
  have num : ∀ (k : Bytes) (n : Int), addInteger env.mode k n db.keys = (.value v, s') →
      (if numeric (orderedValue env v).kind then some (Got.value (orderedValue env v)) else none) ≠ none := by
    intro k n h
    obtain ⟨i, rfl⟩ := addInteger_shape h
    simp [orderedValue, Value.kind, numeric]
  have flo : ∀ (k : Bytes) (g : F64 → F64), addFloat env.mode g k db.keys = (.value v, s') →
      (if numeric (orderedValue env v).kind then some (Got.value (orderedValue env v)) else none) ≠ none := by
    intro k n h
    obtain ⟨i, rfl⟩ := addFloat_shape h
    simp [orderedValue, Value.kind, numeric]
  cases a with
  | append k w => simp [Api.understood]
  | get k => simp [Api.understood]
  | set k w => simp [Api.understood]
  | increment k t =>
    change execute env db.ctrs .increment t [k] db.keys = (.value v, s') at h
    simp only [execute] at h
    by_cases ht : t = some .float
    · rw [if_pos ht] at h; exact flo _ _ h
    · rw [if_neg ht] at h; exact num _ _ h
  | decrement k t =>
    change execute env db.ctrs .decrement t [k] db.keys = (.value v, s') at h
    simp only [execute] at h
    by_cases ht : t = some .float
    · rw [if_pos ht] at h; exact flo _ _ h
    · rw [if_neg ht] at h; exact num _ _ h
  | incrementBy k w =>
    simp only [Api.call] at h
    generalize spelled env w = l at h
    cases l with
    | nil => simp [execute] at h
    | cons x l =>
      simp only [execute] at h
      split at h
      · exact num _ _ h
      · simp at h
  | decrementBy k w =>
    simp only [Api.call] at h
    generalize spelled env w = l at h
    cases l with
    | nil => simp [execute] at h
    | cons x l =>
      simp only [execute] at h
      split at h
      · split at h
        · simp at h
        · exact num _ _ h
      · simp at h
  | delete k =>
    change execute env db.ctrs .delete none [k] db.keys = (.value v, s') at h
    simp only [execute, Option.isSome_none, Bool.false_eq_true, if_false] at h
    split at h
    · simp at h
    · simp only [Prod.mk.injEq, Answer.value.injEq] at h; obtain ⟨rfl, -⟩ := h; simp [orderedValue, Api.understood]
  | echo k =>
    change execute env db.ctrs .echo none [k] db.keys = (.value v, s') at h
    simp only [execute, Prod.mk.injEq, Answer.value.injEq] at h
    obtain ⟨rfl, -⟩ := h; simp [orderedValue, Api.understood]
  | «exists» ks =>
    change execute env db.ctrs .exists none ks db.keys = (.value v, s') at h
    simp only [execute, Option.isSome_none, Bool.false_eq_true, if_false] at h
    split at h
    · simp at h
    · simp only [Prod.mk.injEq, Answer.value.injEq] at h; obtain ⟨rfl, -⟩ := h; simp [orderedValue, Api.understood]
  | is t ks =>
    change execute env db.ctrs .is (some t) ks db.keys = (.value v, s') at h
    simp only [execute] at h
    split at h
    · simp at h
    · simp only [Prod.mk.injEq, Answer.value.injEq] at h; obtain ⟨rfl, -⟩ := h; simp [orderedValue, Api.understood]
  | keyType k =>
    obtain ⟨t, ht⟩ := Api.keyType_expected env (.keyType k) db v (by simp only [perform, h]) k rfl
    rw [ht]
    cases t <;> exact Option.some_ne_none _
  | keys k =>
    change execute env db.ctrs .keys none [k] db.keys = (.value v, s') at h
    simp only [execute] at h
    by_cases h1 : effectiveType none (db.keys k) KeyType.map ≠ KeyType.map
    · rw [if_pos h1] at h; simp at h
    rw [if_neg h1] at h
    by_cases h2 : unusable env.mode k
    · rw [if_pos h2] at h; simp at h
    rw [if_neg h2] at h
    split at h
    · simp at h
    · simp only [Prod.mk.injEq, Answer.value.injEq] at h; obtain ⟨rfl, -⟩ := h; simp [orderedValue, Api.understood]
    · simp at h
  | length k t =>
    change execute env db.ctrs .length t [k] db.keys = (.value v, s') at h
    simp only [execute] at h
    by_cases h1 : sized (effectiveType t (db.keys k) KeyType.bytes) = false
    · rw [if_pos h1] at h; simp at h
    rw [if_neg h1] at h
    by_cases h2 : unusable env.mode k
    · rw [if_pos h2] at h; simp at h
    rw [if_neg h2] at h
    cases hk : db.keys k with
    | none => rw [hk] at h; simp at h
    | some w =>
      rw [hk] at h
      dsimp only at h
      by_cases h3 : w.kind ≠ effectiveType t (some w) KeyType.bytes
      · rw [if_pos h3] at h; simp at h
      rw [if_neg h3] at h
      cases hs : size w with
      | none => rw [hs] at h; simp at h
      | some n =>
        rw [hs] at h
        simp only [Prod.mk.injEq, Answer.value.injEq] at h; obtain ⟨rfl, -⟩ := h; simp [orderedValue, Api.understood]
  | rename x y =>
    change execute env db.ctrs .rename none [x, y] db.keys = (.value v, s') at h
    simp only [execute, Option.isSome_none, Bool.false_eq_true, if_false] at h
    split at h
    · simp at h
    · split at h
      · simp at h
      · simp only [Prod.mk.injEq, Answer.value.injEq] at h; obtain ⟨rfl, -⟩ := h; simp [orderedValue, Api.understood]
  | stats =>
    change execute env db.ctrs .stats none [] db.keys = (.value v, s') at h
    simp only [execute, Option.isSome_none, Bool.false_eq_true, if_false,
      Prod.mk.injEq, Answer.value.injEq] at h
    obtain ⟨rfl, -⟩ := h
    simp [orderedValue, Api.understood]

example : ((Api.length [107] (some .list)).start (sampleEnv .debug)).run
      (sampleDb [([107], .list [[1], [2, 3]])]) =
    (.ok (.ok (.int 2)), (perform (sampleEnv .debug) ⟨.length, some .list, [[107]]⟩
      (sampleDb [([107], .list [[1], [2, 3]])])).2) :=
  C65_answered (sampleEnv .debug) (.length [107] (some .list)) _ (by decide) rfl (by intro m; simp [sampleDb]) trivial

example : ((Api.set [107] (.string [])).start (sampleEnv .debug)).run (sampleDb []) =
    (.ok (.error (.buildingRequest .valueEmpty)), sampleDb []) :=
  C65_refused (sampleEnv .debug) (.set [107] (.string [])) _ (by decide) rfl

/-! ## C43 Client calls on the in-memory backend and panics -/

/-- C43 as stated. -/
def C43_Statement : Prop :=
  ∀ (env : Env) (a : Api) (db : Db), ((a.start env).run db).1 ≠ .panic

/-- C43 is false: appending no items to a list that does not exist stores an empty list, whose response the
client cannot read, and panics. -/
theorem C43_false : ¬ C43_Statement := by
  intro h
  exact h (sampleEnv .debug) (.append [107] (.list [])) (sampleDb []) (by decide +kernel)

/-- The same call in a release build, what it leaves behind, and a call on a reserved key. -/
theorem C43_witnesses :
    (((Api.append [107] (.list [])).start (sampleEnv .release)).run (sampleDb [])).1 = .panic ∧
    (((Api.append [107] (.list [])).start (sampleEnv .release)).run (sampleDb [])).2.keys [107] = some (.list []) ∧
    (((Api.get (ascii "__hop__:")).start (sampleEnv .release)).run (sampleDb [])).1 = .panic := by
  refine ⟨?_, ?_, ?_⟩ <;> decide +kernel

theorem addInteger_crash_why {m : Mode} {k : Bytes} {n : Int} {s s' : Store}
    (h : addInteger m k n s = (.crash, s')) :
    unusable m k ∨ (m = .debug ∧ ∃ i, (s k).getD (.integer 0) = .integer i ∧ ¬ inRange (i.toInt + n)) := by
  simp only [addInteger] at h
  split at h
  · rename_i hu; exact .inl hu
  · split at h
    · rename_i i hi
      split at h
      · simp at h
      · rename_i hr
        rw [not_or] at hr
        exact .inr ⟨by cases m <;> simp_all, i, hi, hr.1⟩
    · simp at h

theorem addFloat_crash_why {m : Mode} {k : Bytes} {g : F64 → F64} {s s' : Store}
    (h : addFloat m g k s = (.crash, s')) : unusable m k := by
  simp only [addFloat] at h
  split at h
  · rename_i hu; exact hu
  · split at h <;> simp at h

theorem spelled_amount (env : Env) (k : Bytes) (v : Value) (h : numeric v.kind = true) :
    ∃ x, spelled env v = [x] ∧ x.length = 8 ∧ (i64OfBytes (x.take 8)).toInt = amount v := by
  cases v with
  | integer i =>
    refine ⟨_, rfl, by simp, ?_⟩
    rw [List.take_of_length_le (by simp)]
    exact congrArg Int64.toInt (i64OfBytes_i64Bytes i)
  | float f =>
    refine ⟨_, rfl, by simp, ?_⟩
    rw [List.take_of_length_le (by simp)]
    simp only [amount]
    congr 1
    have := i64OfBytes_i64Bytes (Int64.ofUInt64 f.bits)
    simpa [i64Bytes] using this
  | _ => simp [numeric, Value.kind] at h

/-- When the engine crashes on a call that was not refused. -/
theorem Api.crash_why (env : Env) (a : Api) (db : Db) (hr : a.refusal = none)
    (h : (perform env (a.call env) db).1 = .crash) :
    (∃ k ∈ a.named, reserved k) ∨ ¬ CounterFits env.mode a db := by
  obtain ⟨s', h⟩ : ∃ s', execute env db.ctrs (a.call env).cmd (a.call env).kt (a.call env).args db.keys =
      (.crash, s') := ⟨(perform env (a.call env) db).2.keys, by rw [← h]; rfl⟩
  have un : ∀ {k : Bytes}, unusable env.mode k → k ≠ [] → reserved k := by
    intro k hu hk
    rcases hu with hu | hu
    · exact hu
    · exact absurd hu.2 hk
  have hkey : ∀ k ∈ a.named, k ≠ [] := by
    rintro k hk rfl
    cases a <;> simp_all [Api.named, Api.refusal]
  have int : ∀ k n, a.delta = some (k, n) → k ∈ a.named →
      addInteger env.mode k n db.keys = (.crash, s') →
      (∃ k ∈ a.named, reserved k) ∨ ¬ CounterFits env.mode a db := by
    intro k n hd hk h
    rcases addInteger_crash_why h with hu | ⟨hm, i, hi, hir⟩
    · exact .inl ⟨k, hk, un hu (hkey k hk)⟩
    · exact .inr (fun hno => hir ((hno hm k n hd).2 i hi))
  cases a with
  | delete k =>
    change execute env db.ctrs .delete none [k] db.keys = _ at h
    simp only [execute, Option.isSome_none, Bool.false_eq_true, if_false] at h
    split at h <;> simp at h
  | echo k =>
    change execute env db.ctrs .echo none [k] db.keys = _ at h
    simp [execute] at h
  | «exists» ks =>
    change execute env db.ctrs .exists none ks db.keys = _ at h
    simp only [execute, Option.isSome_none, Bool.false_eq_true, if_false] at h
    split at h <;> simp at h
  | is t ks =>
    change execute env db.ctrs .is (some t) ks db.keys = _ at h
    simp only [execute] at h
    split at h <;> simp at h
  | keyType k =>
    change execute env db.ctrs .type none [k] db.keys = _ at h
    simp only [execute, Option.isSome_none, Bool.false_eq_true, if_false] at h
    split at h <;> simp at h
  | rename x y =>
    change execute env db.ctrs .rename none [x, y] db.keys = _ at h
    simp only [execute, Option.isSome_none, Bool.false_eq_true, if_false] at h
    split at h
    · simp at h
    · split at h <;> simp at h
  | stats =>
    change execute env db.ctrs .stats none [] db.keys = _ at h
    simp [execute] at h
  | get k =>
    refine .inl ⟨k, by simp [Api.named], un ?_ (hkey k (by simp [Api.named]))⟩
    change execute env db.ctrs .get none [k] db.keys = _ at h
    simp only [execute] at h
    by_cases hu : unusable env.mode k
    · exact hu
    · rw [if_neg hu] at h
      split at h
      · simp at h
      · split at h <;> simp at h
  | keys k =>
    refine .inl ⟨k, by simp [Api.named], un ?_ (hkey k (by simp [Api.named]))⟩
    change execute env db.ctrs .keys none [k] db.keys = _ at h
    simp only [execute] at h
    split at h
    · simp at h
    · by_cases hu : unusable env.mode k
      · exact hu
      · rw [if_neg hu] at h
        split at h <;> simp at h
  | length k t =>
    refine .inl ⟨k, by simp [Api.named], un ?_ (hkey k (by simp [Api.named]))⟩
    change execute env db.ctrs .length t [k] db.keys = _ at h
    simp only [execute] at h
    split at h
    · simp at h
    · by_cases hu : unusable env.mode k
      · exact hu
      · rw [if_neg hu] at h
        split at h
        · simp at h
        · split at h
          · simp at h
          · split at h <;> simp at h
  | append k v =>
    refine .inl ⟨k, by simp [Api.named], un ?_ (hkey k (by simp [Api.named]))⟩
    change execute env db.ctrs .append (some v.kind) (k :: spelled env v) db.keys = _ at h
    simp only [execute] at h
    split at h
    · simp at h
    · by_cases hu : unusable env.mode k
      · exact hu
      · rw [if_neg hu] at h
        split at h
        · simp at h
        · split at h <;> simp at h
  | set k v =>
    refine .inl ⟨k, by simp [Api.named], un ?_ (hkey k (by simp [Api.named]))⟩
    change execute env db.ctrs .set (some v.kind) (k :: spelled env v) db.keys = _ at h
    generalize spelled env v = l at h
    cases l with
    | nil => simp [execute] at h
    | cons x l =>
      simp only [execute] at h
      split at h
      · simp at h
      · by_cases hu : unusable env.mode k
        · exact hu
        · rw [if_neg hu] at h; simp at h
  | increment k t =>
    change execute env db.ctrs .increment t [k] db.keys = _ at h
    simp only [execute] at h
    split at h
    · exact .inl ⟨k, by simp [Api.named], un (addFloat_crash_why h) (hkey k (by simp [Api.named]))⟩
    · rename_i ht
      exact int k 1 (by simp [Api.delta, ht]) (by simp [Api.named]) h
  | decrement k t =>
    change execute env db.ctrs .decrement t [k] db.keys = _ at h
    simp only [execute] at h
    split at h
    · exact .inl ⟨k, by simp [Api.named], un (addFloat_crash_why h) (hkey k (by simp [Api.named]))⟩
    · rename_i ht
      exact int k (-1) (by simp [Api.delta, ht]) (by simp [Api.named]) h
  | incrementBy k v =>
    change execute env db.ctrs .incrementBy (some v.kind) (k :: spelled env v) db.keys = _ at h
    obtain ⟨x, hx, hlen, hval⟩ := spelled_amount env k v (by
      by_cases hk : k = [] <;> simp_all [Api.refusal])
    rw [hx] at h
    simp only [execute, hlen, Nat.le_refl, if_true, hval] at h
    exact int k (amount v) rfl (by simp [Api.named]) h
  | decrementBy k v =>
    change execute env db.ctrs .decrementBy (some v.kind) (k :: spelled env v) db.keys = _ at h
    obtain ⟨x, hx, hlen, hval⟩ := spelled_amount env k v (by
      by_cases hk : k = [] <;> simp_all [Api.refusal])
    rw [hx] at h
    simp only [execute, hlen, Nat.le_refl, if_true, hval] at h
    split at h
    · rename_i hmin
      refine .inr (fun hno => ?_)
      have := (hno hmin.1 k _ rfl).1
      rw [hmin.2] at this
      exact this (by decide)
    · exact int k (-amount v) rfl (by simp [Api.named]) h

theorem statistics_fits (m : Mode) (ctrs : Metric → Option Nat) : FitsValue m (.map (statistics ctrs)) := by
  have key : ∀ x : Metric × String, x ∈ [(Metric.commandsErrored, "commands_errored"),
      (Metric.commandsSuccessful, "commands_successful"), (Metric.sessionsStarted, "sessions_started")] →
      (ascii x.2).length < 20 := by decide
  have hlen : ∀ b, ∀ n, reported ctrs b = some n → n.length = 8 := by
    intro b n h
    simp only [reported] at h
    split at h
    · split at h
      · simp only [Option.some.injEq] at h; subst h; simp
      · simp at h
    · simp at h
  refine ⟨?_, ?_, ?_, ?_⟩
  · have hs : ((statistics ctrs).map Prod.fst).Sublist
        [ascii "commands_errored", ascii "commands_successful", ascii "sessions_started"] := by
      have gen : ∀ l : List (Metric × String),
          ((l.filterMap fun e => (reported ctrs e.1).map fun n => (ascii e.2, n)).map Prod.fst).Sublist
            (l.map fun e => ascii e.2) := by
        intro l
        induction l with
        | nil => simp
        | cons x l ih =>
          simp only [List.filterMap_cons, List.map_cons]
          cases reported ctrs x.1 with
          | none => exact ih.trans (List.sublist_cons_self _ _)
          | some n => exact ih.cons_cons _
      exact gen _
    exact hs.nodup (by decide)
  · have : (statistics ctrs).length ≤ 3 := List.length_filterMap_le _ _
    omega
  · intro e he
    simp only [statistics, List.mem_filterMap, Option.map_eq_some_iff] at he
    obtain ⟨x, hx, n, hn, rfl⟩ := he
    have := key x hx
    simp only; omega
  · have : ∀ l : List (Metric × String), (∀ x ∈ l, (ascii x.2).length < 20) →
        ((l.filterMap fun e => (reported ctrs e.1).map fun n => (ascii e.2, n)).flatMap mapItem).length ≤ 33 * l.length := by
      intro l hl
      induction l with
      | nil => simp
      | cons x l ih =>
        have ih := ih (fun y hy => hl y (List.mem_cons_of_mem _ hy))
        have hx := hl x List.mem_cons_self
        simp only [List.filterMap_cons]
        cases hr : reported ctrs x.1 with
        | none => simp only [Option.map_none, List.length_cons]; omega
        | some n =>
          have := hlen _ _ hr
          simp only [Option.map_some, List.flatMap_cons, List.length_append, List.length_cons, mapItem,
            beBytes_length]
          omega
    have := this _ key
    simp only [List.length_cons, List.length_nil] at this
    simp only [statistics]
    omega

/-- What the engine answers to a moderate call can be carried. -/
theorem moderate_carriable {env : Env} {a : Api} {db : Db} (h : Moderate env a db) (hr : a.refusal = none) :
    Carriable env.mode (perform env (a.call env) db).1 := by
  obtain ⟨hx, hm⟩ := h
  cases hv : (perform env (a.call env) db).1 with
  | error e => trivial
  | crash => trivial
  | value v =>
    have hshape := C65_shape env a db v hv
    simp only [Carriable]
    have simple : ∀ w : Value, numeric w.kind = true → FitsValue env.mode w := by
      intro w hw; cases w <;> simp_all [numeric, Value.kind, FitsValue]
    obtain ⟨s', h⟩ : ∃ s', execute env db.ctrs (a.call env).cmd (a.call env).kt (a.call env).args db.keys =
        (.value v, s') := ⟨(perform env (a.call env) db).2.keys, by rw [← hv]; rfl⟩
    cases a with
    | append k w => rw [hv] at hm; exact hm
    | get k => rw [hv] at hm; exact hm
    | set k w => rw [hv] at hm; exact hm
    | keys k => rw [hv] at hm; exact hm
    | decrementBy k w =>
      cases v <;> first | trivial | (simp [Api.understood, orderedValue, Value.kind, numeric] at hshape)
    | incrementBy k w =>
      cases v <;> first | trivial | (simp [Api.understood, orderedValue, Value.kind, numeric] at hshape)
    | decrement k w =>
      cases v <;> first | trivial | (simp [Api.understood, orderedValue, Value.kind, numeric] at hshape)
    | increment k w =>
      cases v <;> first | trivial | (simp [Api.understood, orderedValue, Value.kind, numeric] at hshape)
    | «exists» ks => cases v <;> first | trivial | (simp [Api.understood, orderedValue] at hshape)
    | is t ks => cases v <;> first | trivial | (simp [Api.understood, orderedValue] at hshape)
    | keyType k => cases v <;> first | trivial | (simp [Api.understood, orderedValue] at hshape)
    | length k t => cases v <;> first | trivial | (simp [Api.understood, orderedValue] at hshape)
    | delete k =>
      change execute env db.ctrs .delete none [k] db.keys = _ at h
      simp only [execute, Option.isSome_none, Bool.false_eq_true, if_false] at h
      split at h
      · simp at h
      · simp only [Prod.mk.injEq, Answer.value.injEq] at h
        obtain ⟨rfl, -⟩ := h
        have := hx k (by simp [Api.call])
        refine ⟨by omega, fun _ hk => ?_⟩
        subst hk
        simp [Api.refusal] at hr
    | rename x y =>
      change execute env db.ctrs .rename none [x, y] db.keys = _ at h
      simp only [execute, Option.isSome_none, Bool.false_eq_true, if_false] at h
      split at h
      · simp at h
      · split at h
        · simp at h
        · simp only [Prod.mk.injEq, Answer.value.injEq] at h
          obtain ⟨rfl, -⟩ := h
          have := hx y (by simp [Api.call])
          refine ⟨by omega, fun _ hk => ?_⟩
          subst hk
          simp [Api.refusal] at hr
    | echo c =>
      change execute env db.ctrs .echo none [c] db.keys = _ at h
      simp only [execute, Prod.mk.injEq, Answer.value.injEq] at h
      obtain ⟨rfl, -⟩ := h
      have := hx c (by simp [Api.call])
      refine ⟨by simp, by simp, ?_⟩
      simp only [List.flatMap_cons, List.flatMap_nil, listItem, List.length_append, beBytes_length, List.length_nil]
      omega
    | stats =>
      change execute env db.ctrs .stats none [] db.keys = _ at h
      simp only [execute, Option.isSome_none, Bool.false_eq_true, if_false, Prod.mk.injEq, Answer.value.injEq] at h
      obtain ⟨rfl, -⟩ := h
      exact statistics_fits _ _

/-- C43, the part that holds: a call that names no reserved key, whose answer is within the limits of a
response (for calls that do not return stored data this only asks that key names are below 4 GiB), and
which (in a debug build) does not take a counter out of its 64 bits, does not panic; it resolves to a value
or an error. Missing: exactly those calls, see `C43_witnesses`. -/
theorem C43_no_panic_partial (env : Env) (a : Api) (db : Db) (hn : (a.call env).args.length ≤ 255)
    (hc : Roomy 1 db.ctrs) (hm : Moderate env a db) (hk : ∀ k ∈ a.named, ¬ reserved k)
    (ho : CounterFits env.mode a db) :
    ∃ x db', (a.start env).run db = (.ok x, db') := by
  cases hr : a.refusal with
  | some e => exact ⟨_, _, C65_refused env a db hn hr⟩
  | none =>
    rw [C65_answered env a db hn hr hc (moderate_carriable hm hr)]
    cases hv : (perform env (a.call env) db).1 with
    | error e => exact ⟨_, _, rfl⟩
    | crash =>
      rcases Api.crash_why env a db hr hv with ⟨k, h1, h2⟩ | h
      · exact absurd h2 (hk k h1)
      · exact absurd ho h
    | value v =>
      simp only [Api.given]
      cases hu : a.understood (orderedValue env v) with
      | some g => exact ⟨_, _, rfl⟩
      | none => exact absurd hu (C65_shape env a db v hv)

example : ∃ x db', ((Api.incrementBy [107] (.integer 5)).start (sampleEnv .debug)).run
    (sampleDb [([107], .integer 7)]) = (.ok x, db') :=
  C43_no_panic_partial (sampleEnv .debug) (.incrementBy [107] (.integer 5)) _ (by decide)
    (by intro m; simp [sampleDb]) ⟨by decide, trivial⟩ (by decide)
    (by
      intro _ k n h
      simp only [Api.delta, Option.some.injEq, Prod.mk.injEq] at h
      obtain ⟨rfl, rfl⟩ := h
      refine ⟨by decide, ?_⟩
      intro i hi
      simp only [sampleDb, List.lookup, BEq.rfl, Option.getD_some, Value.integer.injEq] at hi
      subst hi
      decide)

/-- C43. Conversely a call that was not refused panics whenever the engine crashes on the command it stands
for, which it does for every reserved key in `get`, `keys` and `length` of stored data. -/
theorem C43_reserved_panics (env : Env) (k : Bytes) (db : Db) (hc : Roomy 1 db.ctrs) (hk : reserved k) :
    ((Api.get k).start env).run db = (.panic, db) := by
  have hne : k ≠ [] := by rintro rfl; revert hk; decide
  have hp : perform env ((Api.get k).call env) db = (.crash, db) := by
    have : unusable env.mode k := .inl hk
    simp only [perform, Api.call, execute, if_pos this]
    rfl
  rw [C65_answered env (.get k) db (by simp [Api.call]) (by simp [Api.refusal, hne]) hc (by rw [hp]; trivial), hp]
  rfl

/-! ## Further concrete cases -/

example : ((Api.get (ascii "__hop__:a")).start (sampleEnv .release)).run (sampleDb [(ascii "__hop__:a", .integer 5)]) =
    (.panic, sampleDb [(ascii "__hop__:a", .integer 5)]) :=
  C43_reserved_panics _ _ _ (by intro m; simp [sampleDb]) (by decide)

example : (Api.keys [107]).understood (orderedValue (sampleEnv .debug) (.list [[3], [1]])) ≠ none :=
  C65_shape (sampleEnv .debug) (.keys [107]) (sampleDb [([107], .map [([1], [2]), ([3], [])])]) (.list [[3], [1]]) (by decide +kernel)

end Hop
