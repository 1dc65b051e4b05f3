import Verif.Spec.Steps
import Verif.Lemmas.Refine
import Verif.Lemmas.Concurrent
import Verif.Props.Store

/-! # C125: how commands are interleaved, exactly -/

namespace Hop

open Spec Prog

section

variable {env : Env} {resp : Bytes} {c : Call}

/-- The program has ended exactly if the request is answered, and with that answer. -/
def Alike (env : Env) (resp : Bytes) (p : Prog Bytes) (ph : Phase) : Prop :=
  ∀ o, p = .done o ↔ ∃ a, ph = .answered a ∧ o = render env resp a

/-- For `n` steps, whatever others do in between, the program does what the request does. -/
def Mimics (env : Env) (resp : Bytes) (c : Call) : Nat → Prog Bytes → Phase → Prop
  | 0, p, ph => Alike env resp p ph
  | n + 1, p, ph => Alike env resp p ph ∧
      ∀ db, (p.step db).2 = (advance env resp c ph db).2 ∧ Mimics env resp c n (p.step db).1 (advance env resp c ph db).1

theorem Mimics.alike {n : Nat} {p : Prog Bytes} {ph : Phase} (h : Mimics env resp c n p ph) : Alike env resp p ph := by
  cases n with
  | zero => exact h
  | succ n => exact h.1

theorem alike_onKey {k : Bytes} {upd : Option Value → Option Value} {next : Option Value → Prog Bytes} {ph : Phase}
    (h : ∀ a, ph ≠ .answered a) : Alike env resp (.onKey k upd next) ph :=
  fun o => ⟨fun h => (by cases h), fun ⟨a, ha, _⟩ => absurd ha (h a)⟩

theorem alike_onCtr {m : Metric} {upd : Option Nat → Option Nat} {next : Option Nat → Prog Bytes} {ph : Phase}
    (h : ∀ a, ph ≠ .answered a) : Alike env resp (.onCtr m upd next) ph :=
  fun o => ⟨fun h => (by cases h), fun ⟨a, ha, _⟩ => absurd ha (h a)⟩

/-- A step on a key. -/
theorem Mimics.onKey {n : Nat} {k : Bytes} {upd : Option Value → Option Value} {next : Option Value → Prog Bytes} {ph : Phase}
    (h : ∀ a, ph ≠ .answered a)
    (hs : ∀ db : Db, (advance env resp c ph db).2 = db.setKey k (upd (db.keys k)) ∧
      ∀ m < n, Mimics env resp c m (next (db.keys k)) (advance env resp c ph db).1) :
    Mimics env resp c n (.onKey k upd next) ph := by
  cases n with
  | zero => exact alike_onKey h
  | succ n => exact ⟨alike_onKey h, fun db => ⟨(hs db).1.symm, (hs db).2 n (Nat.lt_succ_self n)⟩⟩

/-- A look at a key. -/
theorem Mimics.readKey {n : Nat} {k : Bytes} {next : Option Value → Prog Bytes} {ph : Phase}
    (h : ∀ a, ph ≠ .answered a)
    (hs : ∀ db : Db, (advance env resp c ph db).2 = db ∧
      ∀ m < n, Mimics env resp c m (next (db.keys k)) (advance env resp c ph db).1) :
    Mimics env resp c n (.onKey k (fun o => o) next) ph :=
  Mimics.onKey h fun db => ⟨by rw [(hs db).1, Db.setKey_self], (hs db).2⟩

theorem mimics_answered (n : Nat) (a : Answer) : Mimics env resp c n (.done (render env resp a)) (.answered a) := by
  induction n with
  | zero =>
    intro o
    constructor
    · intro h; cases h; exact ⟨a, rfl, rfl⟩
    · rintro ⟨b, hb, rfl⟩; cases hb; rfl
  | succ n ih => exact ⟨ih.alike, fun db => ⟨rfl, ih⟩⟩

theorem mimics_crash (n : Nat) : Mimics env resp c n (.done .panic) (.answered .crash) :=
  mimics_answered n .crash

theorem mimics_counted {n : Nat} {a : Answer} :
    Mimics env resp c n (incrementMetric env (outcomeCounter a) (.done (render env resp a))) (.settled a) := by
  cases n with
  | zero => exact alike_onCtr (fun a h => by cases h)
  | succ n =>
    refine ⟨alike_onCtr (fun a h => by cases h), fun db => ?_⟩
    simp only [incrementMetric, Prog.step, advance, addU]
    by_cases hlt : (db.ctrs (outcomeCounter a)).getD 0 + 1 < 2 ^ 64
    · simp only [if_pos hlt, Option.getD_some]
      exact ⟨trivial, mimics_answered n a⟩
    · simp only [if_neg hlt]
      cases hm : env.mode with
      | release =>
        simp only [if_true, Option.getD_some]
        exact ⟨trivial, mimics_answered n a⟩
      | debug =>
        simp only [Option.getD_none, reduceCtorEq, if_false]
        refine ⟨?_, mimics_crash n⟩
        have : some ((db.ctrs (outcomeCounter a)).getD 0) = db.ctrs (outcomeCounter a) := by
          cases h : db.ctrs (outcomeCounter a) with
          | none => rw [h] at hlt; simp at hlt
          | some x => rfl
        rw [this, Db.setCtr_self]

theorem mimics_count (n : Nat) (a : Answer) :
    Mimics env resp c n (countOutcome env (render env resp a)) (concluded env resp a) := by
  cases a with
  | value v =>
    simp only [render, concluded]
    cases hw : Response.writeValue env resp v with
    | none => exact mimics_crash n
    | some out =>
      have := mimics_counted (env := env) (resp := resp) (c := c) (n := n) (a := .value v)
      simp only [render, hw, Outcome.ofOption] at this
      exact this
  | error e => exact mimics_counted (a := .error e)
  | crash => exact mimics_crash n

theorem mimics_err (n : Nat) (e : DispatchError) :
    Mimics env resp c n (countOutcome env (.err e)) (.settled (.error e)) := mimics_count n (.error e)

theorem keyRef_unusable {α} (env : Env) (k : Bytes) (next : Option Value → Prog α) :
    keyRef env k next = if unusable env.mode k then done .panic else readKey k next := by
  unfold keyRef unusable
  by_cases h1 : isInternal k = true
  · simp [h1, (isInternal_iff k).1 h1]
  · have h2 : ¬ reserved k := fun h => h1 ((isInternal_iff k).2 h)
    simp [h1, h2]

theorem keyOrInsertWith_unusable {α} (env : Env) (k : Bytes) (mk : Value) (body : Value → Value × Outcome DispatchError α) :
    keyOrInsertWith env k mk body =
      if unusable env.mode k then done .panic else keyOrInsertLoop k mk body (env.spins + 2) := by
  unfold keyOrInsertWith unusable
  by_cases h1 : isInternal k = true
  · simp [h1, (isInternal_iff k).1 h1]
  · have h2 : ¬ reserved k := fun h => h1 ((isInternal_iff k).2 h)
    simp [h1, h2]

/-- The loop that creates missing keys. -/
theorem mimics_loop {k : Bytes} {t : KeyType} {body : Value → Value × Outcome DispatchError Bytes} (hk : mainKey c = k)
    (hb : ∀ v, body v = ((workOn env resp c t v).2, render env resp (workOn env resp c t v).1)) (n : Nat) :
    ∀ m, n < m → Mimics env resp c n ((keyOrInsertLoop k (.default t) body m).andThen (countOutcome env)) (.working t) := by
  induction n using Nat.strongRecOn with
  | _ n ih =>
    intro m hm
    obtain ⟨m, rfl⟩ : ∃ m', m = m' + 1 := ⟨m - 1, by omega⟩
    refine Mimics.onKey (fun a h => by cases h) fun db => ?_
    simp only [advance, hk]
    cases hkk : db.keys k with
    | none =>
      have e : db.setKey k none = db := by rw [← hkk, Db.setKey_self]
      refine ⟨e.symm, fun n' hn' => ?_⟩
      refine Mimics.onKey (fun a h => by cases h) fun db' => ?_
      simp only [advance, hk]
      exact ⟨rfl, fun n'' hn'' => ih n'' (by omega) m (by omega)⟩
    | some v =>
      refine ⟨by rw [Option.map_some, hb v]; rfl, fun n' hn' => ?_⟩
      simp only [hb v]
      exact mimics_count n' _

theorem mimics_create {k : Bytes} {t : KeyType} {body : Value → Value × Outcome DispatchError Bytes} (hk : mainKey c = k)
    (hb : ¬ unusable env.mode k → ∀ v, body v = ((workOn env resp c t v).2, render env resp (workOn env resp c t v).1)) {n : Nat}
    (hn : n ≤ env.spins) :
    Mimics env resp c n ((keyOrInsertWith env k (.default t) body).andThen (countOutcome env)) (usable env c (.working t)) := by
  rw [keyOrInsertWith_unusable, usable, hk]
  by_cases hu : unusable env.mode k
  · simp only [if_pos hu]; exact mimics_crash n
  · simp only [if_neg hu]; exact mimics_loop hk (hb hu) n _ (by omega)

/-- A request that does all its work in one step. -/
theorem mimics_ready {k : Bytes} {upd : Option Value → Option Value} {next : Option Value → Prog Bytes}
    {kt : Option KeyType} (n : Nat) (hd : ∀ o, ∃ r, next o = .done r)
    (h : ∀ db : Db, Refines env resp (.onKey k upd next) db (execute env db.ctrs c.cmd kt c.args db.keys) True) :
    Mimics env resp c n ((Prog.onKey k upd next).andThen (countOutcome env)) (.ready kt) := by
  refine Mimics.onKey (fun a h => by cases h) fun db => ?_
  have h := h db
  obtain ⟨g, hg⟩ := hd (db.keys k)
  simp only [Refines, run, hg, true_or, true_implies] at h
  refine ⟨h.2.symm, fun m _ => ?_⟩
  rw [hg]
  show Mimics env resp c m (countOutcome env g) _
  rw [h.1]
  exact mimics_count m _

theorem counter_body {k : Bytes} {rest : List Bytes} {cmd : CommandId} {kt : Option KeyType}
    {body : Value → Value × Outcome DispatchError Bytes} (hc : cmd ≠ .set ∧ cmd ≠ .append) (hu : ¬ unusable env.mode k)
    (h : ∀ db : Db, Refines env resp (keyOrInsertWith env k (.default .integer) body) db
      (execute env db.ctrs cmd kt (k :: rest) db.keys) True) (v : Value) :
    body v = ((workOn env resp ⟨cmd, kt, k :: rest⟩ .integer v).2, render env resp (workOn env resp ⟨cmd, kt, k :: rest⟩ .integer v).1) := by
  have h := h ⟨fun k' => if k' = k then some v else none, fun _ => none⟩
  rw [Refines, run_keyOrInsertWith, if_neg hu] at h
  simp only [if_true, Option.getD_some, true_implies, true_or] at h
  simp only [workOn, if_neg hc.1, if_neg hc.2]
  change body v = (((execute env (fun _ => none) cmd kt (k :: rest) fun k' => if k' = k then some v else none).2 k).getD v,
    render env resp (execute env (fun _ => none) cmd kt (k :: rest) fun k' => if k' = k then some v else none).1)
  have h2 := congrArg (fun d : Db => d.keys k) h.2
  simp only [Db.setKey_keys_self] at h2
  rw [← h2, ← h.1]
  rfl


variable {r : Request}

theorem mimics_resolve {cmd : CommandId} {args : List Bytes} {kt : Option KeyType} {k : Bytes} {d : KeyType}
    {next : KeyType → Prog Bytes} {n : Nat} (hv : Views r cmd kt (k :: args)) (hd : d = if cmd = .keys then .map else .bytes)
    (hnext : ∀ t, ∀ m ≤ n, (kt = some t ∨ kt = none) →
      Mimics env resp ⟨cmd, kt, k :: args⟩ m ((next t).andThen (countOutcome env)) (typed env ⟨cmd, kt, k :: args⟩ t)) :
    Mimics env resp ⟨cmd, kt, k :: args⟩ n ((resolveKeyType r k d next).andThen (countOutcome env))
      (match kt with
        | some t => typed env ⟨cmd, kt, k :: args⟩ t
        | none => .choosing) := by
  unfold resolveKeyType
  rw [hv.keyType]
  cases kt with
  | some t => exact hnext t n (Nat.le_refl n) (.inl rfl)
  | none =>
    refine Mimics.readKey (fun a h => by cases h) fun db => ⟨rfl, fun m hm => ?_⟩
    simp only [advance, mainKey, List.headD_cons]
    have e : effectiveType none (db.keys k) (if cmd = .keys then .map else .bytes) = ((db.keys k).map Value.kind).getD d := by
      rw [hd]; cases db.keys k <;> rfl
    rw [e]
    exact hnext _ m (by omega) (.inr rfl)

theorem mimics_append {kt : Option KeyType} {args : List Bytes} (h : Views r .append kt args) {n : Nat} (hn : n ≤ env.spins) :
    Mimics env resp ⟨.append, kt, args⟩ n ((dispatchAppend env r resp).andThen (countOutcome env))
      (opening env resp ⟨.append, kt, args⟩) := by
  unfold dispatchAppend
  rw [h.arg]
  cases args with
  | nil => exact mimics_err n .keyUnspecified
  | cons k rest =>
    simp only [List.getElem?_cons_zero, argsFrom_eq h, List.cons_ne_nil, if_false, List.drop_succ_cons,
      List.drop_zero, orErr]
    have key : ∀ t, ∀ m ≤ n, (kt = some t ∨ kt = none) → Mimics env resp ⟨.append, kt, k :: rest⟩ m
        ((match (motive := KeyType → Prog Bytes) t with
          | .bytes => appendBytes env rest resp k
          | .list => appendList env rest resp k
          | .string => appendString env rest resp k
          | _ => fail .keyTypeDifferent).andThen (countOutcome env)) (typed env ⟨.append, kt, k :: rest⟩ t) := by
      intro t m hm _
      cases t with
      | bytes =>
        refine mimics_create rfl (fun hu v => ?_) (by omega)
        have hu : ¬ unusable env.mode k := hu
        cases v <;> simp [workOn, execute, effectiveType, mainKey, hu, Value.kind, appended, foldl_append, render, Response.writeValue, Store.put]
      | list =>
        refine mimics_create rfl (fun hu v => ?_) (by omega)
        have hu : ¬ unusable env.mode k := hu
        cases v <;> simp [workOn, execute, effectiveType, mainKey, hu, Value.kind, appended, render, Response.writeValue, Store.put]
      | string =>
        refine mimics_create rfl (fun hu v => ?_) (by omega)
        have hu : ¬ unusable env.mode k := hu
        cases v <;> simp [workOn, execute, effectiveType, mainKey, hu, Value.kind, appended, pushStrs_eq, render, Response.writeValue, Store.put]
      | _ => exact mimics_err m .keyTypeDifferent
    have := mimics_resolve (resp := resp) h (d := .bytes) rfl key
    cases kt with
    | none => exact this
    | some t => cases t <;> first | exact this | exact mimics_err n .keyTypeDifferent


theorem mimics_increment {kt : Option KeyType} {args : List Bytes} (h : Views r .increment kt args) {n : Nat} (hn : n ≤ env.spins) :
    Mimics env resp ⟨.increment, kt, args⟩ n ((dispatchIncrement env r resp).andThen (countOutcome env))
      (opening env resp ⟨.increment, kt, args⟩) := by
  have hr := fun db => refine_increment (env := env) (resp := resp) (db := db) (strict := True) h
  unfold dispatchIncrement at hr ⊢
  rw [key_eq h (by decide)] at hr ⊢
  cases args with
  | nil => exact mimics_err n .keyUnspecified
  | cons k rest =>
    simp only [List.getElem?_cons_zero, h.keyType, orErr] at hr ⊢
    by_cases hf : kt = some .float
    · simp only [if_pos hf] at hr ⊢
      exact mimics_create rfl (fun hu => counter_body (by decide) hu hr) hn
    · simp only [if_neg hf] at hr ⊢
      exact mimics_create rfl (fun hu => counter_body (by decide) hu hr) hn

theorem mimics_decrement {kt : Option KeyType} {args : List Bytes} (h : Views r .decrement kt args) {n : Nat} (hn : n ≤ env.spins) :
    Mimics env resp ⟨.decrement, kt, args⟩ n ((dispatchDecrement env r resp).andThen (countOutcome env))
      (opening env resp ⟨.decrement, kt, args⟩) := by
  have hr := fun db => refine_decrement (env := env) (resp := resp) (db := db) (strict := True) h
  unfold dispatchDecrement at hr ⊢
  rw [key_eq h (by decide)] at hr ⊢
  cases args with
  | nil => exact mimics_err n .keyUnspecified
  | cons k rest =>
    simp only [List.getElem?_cons_zero, h.keyType, orErr] at hr ⊢
    by_cases hf : kt = some .float
    · simp only [if_pos hf] at hr ⊢
      exact mimics_create rfl (fun hu => counter_body (by decide) hu hr) hn
    · simp only [if_neg hf] at hr ⊢
      exact mimics_create rfl (fun hu => counter_body (by decide) hu hr) hn


theorem mimics_incrementBy {kt : Option KeyType} {args : List Bytes} (h : Views r .incrementBy kt args) {n : Nat}
    (hn : n ≤ env.spins) :
    Mimics env resp ⟨.incrementBy, kt, args⟩ n ((dispatchIncrementBy env r resp).andThen (countOutcome env))
      (opening env resp ⟨.incrementBy, kt, args⟩) := by
  have hr := fun db => refine_incrementBy (env := env) (resp := resp) (db := db) (strict := True) h
  unfold dispatchIncrementBy at hr ⊢
  rw [key_eq h (by decide)] at hr ⊢
  match args, h with
  | [], _ => exact mimics_err n .keyUnspecified
  | [k], h =>
    simp only [List.getElem?_cons_zero, h.arg, orErr]
    exact mimics_err n .argumentRetrieval
  | k :: a :: rest, h =>
    simp only [List.getElem?_cons_zero, h.arg, orErr, List.getElem?_cons_succ, Option.bind_some, convInt_eq,
      convFloat_eq] at hr ⊢
    by_cases h8 : 8 ≤ a.length
    · simp only [if_pos h8] at hr ⊢
      have ho : opening env resp ⟨.incrementBy, kt, k :: a :: rest⟩ = usable env ⟨.incrementBy, kt, k :: a :: rest⟩ (.working .integer) := by
        simp [opening, malformed, wrong, noNumber, Nat.not_lt.2 h8]
      rw [ho]
      exact mimics_create rfl (fun hu => counter_body (by decide) hu hr) hn
    · simp only [if_neg h8]
      have ho : opening env resp ⟨.incrementBy, kt, k :: a :: rest⟩ = .settled (.error .argumentRetrieval) := by
        simp [opening, malformed, wrong, noNumber, Nat.not_le.1 h8]
      rw [ho]
      exact mimics_err n .argumentRetrieval

theorem mimics_decrementBy {kt : Option KeyType} {args : List Bytes} (h : Views r .decrementBy kt args) {n : Nat}
    (hn : n ≤ env.spins) :
    Mimics env resp ⟨.decrementBy, kt, args⟩ n ((dispatchDecrementBy env r resp).andThen (countOutcome env))
      (opening env resp ⟨.decrementBy, kt, args⟩) := by
  have hr := fun db => refine_decrementBy (env := env) (resp := resp) (db := db) (strict := True) h
  unfold dispatchDecrementBy at hr ⊢
  rw [key_eq h (by decide)] at hr ⊢
  match args, h with
  | [], _ => exact mimics_err n .keyUnspecified
  | [k], h =>
    simp only [List.getElem?_cons_zero, h.arg, orErr]
    exact mimics_err n .argumentRetrieval
  | k :: a :: rest, h =>
    simp only [List.getElem?_cons_zero, h.arg, orErr, List.getElem?_cons_succ, Option.bind_some, convInt_eq,
      convFloat_eq] at hr ⊢
    by_cases h8 : 8 ≤ a.length
    · simp only [if_pos h8, negI64_eq] at hr ⊢
      by_cases hm : env.mode = .debug ∧ (i64OfBytes (a.take 8)).toInt = -2 ^ 63
      · have ho : opening env resp ⟨.decrementBy, kt, k :: a :: rest⟩ = .answered .crash := by
          simp only [opening, malformed, wrong, noNumber, newName]
          simp [Nat.not_lt.2 h8]
          intro hm'
          exact absurd hm.2 (hm' hm.1)
        rw [ho]
        simp only [if_pos hm]
        exact mimics_crash n
      · have ho : opening env resp ⟨.decrementBy, kt, k :: a :: rest⟩ = usable env ⟨.decrementBy, kt, k :: a :: rest⟩ (.working .integer) := by
          simp only [opening, malformed, wrong, noNumber, newName]
          simp [Nat.not_lt.2 h8]
          intro h1 h2
          exact absurd ⟨h1, h2⟩ hm
        rw [ho]
        simp only [if_neg hm] at hr ⊢
        exact mimics_create rfl (fun hu => counter_body (by decide) hu hr) hn
    · simp only [if_neg h8]
      have ho : opening env resp ⟨.decrementBy, kt, k :: a :: rest⟩ = .settled (.error .argumentRetrieval) := by
        simp [opening, malformed, wrong, noNumber, Nat.not_le.1 h8]
      rw [ho]
      exact mimics_err n .argumentRetrieval

theorem mimics_delete {kt : Option KeyType} {args : List Bytes} (h : Views r .delete kt args) {n : Nat} :
    Mimics env resp ⟨.delete, kt, args⟩ n ((dispatchDelete env r resp).andThen (countOutcome env))
      (opening env resp ⟨.delete, kt, args⟩) := by
  have hr := fun db => refine_delete (env := env) (resp := resp) (db := db) (strict := True) h
  unfold dispatchDelete at hr ⊢
  rw [key_eq h (by decide), h.keyType] at hr ⊢
  cases kt with
  | some t => exact mimics_err n .keyTypeUnexpected
  | none =>
    cases args with
    | nil => exact mimics_err n .keyUnspecified
    | cons k rest =>
      simp only [List.getElem?_cons_zero, orErr, Option.isSome_none, Bool.false_eq_true, if_false] at hr ⊢
      exact mimics_ready n (fun o => by cases o <;> exact ⟨_, rfl⟩) hr

theorem mimics_type {kt : Option KeyType} {args : List Bytes} (h : Views r .type kt args) {n : Nat} :
    Mimics env resp ⟨.type, kt, args⟩ n ((dispatchType env r resp).andThen (countOutcome env))
      (opening env resp ⟨.type, kt, args⟩) := by
  have hr := fun db => refine_type (env := env) (resp := resp) (db := db) (strict := True) h
  unfold dispatchType at hr ⊢
  rw [key_eq h (by decide), h.keyType] at hr ⊢
  cases args with
  | nil => exact mimics_err n .keyUnspecified
  | cons k rest =>
    cases kt with
    | some t => exact mimics_err n .keyTypeUnexpected
    | none =>
      simp only [List.getElem?_cons_zero, orErr, Option.isSome_none, Bool.false_eq_true, if_false] at hr ⊢
      exact mimics_ready n (fun o => by cases o <;> exact ⟨_, rfl⟩) hr

theorem mimics_get {kt : Option KeyType} {args : List Bytes} (h : Views r .get kt args) {n : Nat} :
    Mimics env resp ⟨.get, kt, args⟩ n ((dispatchGet env r resp).andThen (countOutcome env))
      (opening env resp ⟨.get, kt, args⟩) := by
  have hr := fun db => refine_get (env := env) (resp := resp) (db := db) (strict := True) h
  unfold dispatchGet at hr ⊢
  rw [key_eq h (by decide), h.keyType] at hr ⊢
  cases args with
  | nil => exact mimics_err n .keyUnspecified
  | cons k rest =>
    simp only [List.getElem?_cons_zero, orErr, keyRef_unusable] at hr ⊢
    show Mimics _ _ _ _ _ (usable env ⟨.get, kt, k :: rest⟩ (.ready kt))
    by_cases hu : unusable env.mode k
    · rw [usable, if_pos (show unusable env.mode (mainKey ⟨.get, kt, k :: rest⟩) from hu), if_pos hu]; exact mimics_crash n
    · rw [usable, if_neg (show ¬ unusable env.mode (mainKey ⟨.get, kt, k :: rest⟩) from hu), if_neg hu]
      simp only [if_neg hu] at hr
      refine mimics_ready n (fun o => ?_) hr
      cases o with
      | none => exact ⟨_, rfl⟩
      | some v =>
        cases kt with
        | none => exact ⟨_, rfl⟩
        | some t => dsimp only; split <;> exact ⟨_, rfl⟩

theorem mimics_echo {kt : Option KeyType} {args : List Bytes} (h : Views r .echo kt args) {n : Nat} :
    Mimics env resp ⟨.echo, kt, args⟩ n ((dispatchEcho env r resp).andThen (countOutcome env))
      (opening env resp ⟨.echo, kt, args⟩) := by
  have : dispatchEcho env r resp = done (render env resp (.value (.list args))) := by
    unfold dispatchEcho
    rw [argsFrom_eq h]
    cases args <;> rfl
  rw [this]
  exact mimics_count n (.value (.list args))

theorem mimics_rename {kt : Option KeyType} {args : List Bytes} (h : Views r .rename kt args) {n : Nat} :
    Mimics env resp ⟨.rename, kt, args⟩ n ((dispatchRename env r resp).andThen (countOutcome env))
      (opening env resp ⟨.rename, kt, args⟩) := by
  unfold dispatchRename
  rw [h.keyType, h.arg, h.arg]
  cases kt with
  | some t => exact mimics_err n .keyTypeUnexpected
  | none =>
    match args with
    | [] => exact mimics_err n .keyUnspecified
    | [a] => exact mimics_err n .argumentRetrieval
    | a :: b :: rest =>
      have ho : opening env resp ⟨.rename, none, a :: b :: rest⟩ = .leaving := by
        simp [opening, malformed, wrong]
      rw [ho]
      refine Mimics.readKey (fun a h => by cases h) fun db => ⟨rfl, fun n1 _ => ?_⟩
      have e : (advance env resp ⟨.rename, none, a :: b :: rest⟩ .leaving db).1 =
        if db.keys a = none then .settled (.error .keyNonexistent) else .arriving := rfl
      rw [e]
      cases db.keys a with
      | none => exact mimics_err n1 .keyNonexistent
      | some v =>
        rw [if_neg (by simp)]
        refine Mimics.readKey (fun a h => by cases h) fun db => ⟨rfl, fun n2 _ => ?_⟩
        have e : (advance env resp ⟨.rename, none, a :: b :: rest⟩ .arriving db).1 =
          if db.keys b = none then .taking else .settled (.error .preconditionFailed) := rfl
        rw [e]
        cases db.keys b with
        | some w => rw [if_neg (by simp)]; exact mimics_err n2 .preconditionFailed
        | none =>
          rw [if_pos rfl]
          refine Mimics.onKey (fun a h => by cases h) fun db => ?_
          simp only [advance, mainKey, List.headD_cons]
          cases hk : db.keys a with
          | none =>
            have e : db.setKey a none = db := by rw [← hk, Db.setKey_self]
            exact ⟨e.symm, fun n3 _ => mimics_err n3 .keyNonexistent⟩
          | some v =>
            refine ⟨rfl, fun n3 _ => ?_⟩
            refine Mimics.onKey (fun a h => by cases h) fun db => ?_
            exact ⟨rfl, fun n4 _ => mimics_count n4 (.value (.bytes b))⟩


theorem getElem?_drop_cons {k : Bytes} {ks : List Bytes} {l : List Bytes} {i : Nat} (h : l.drop i = k :: ks) :
    l[i]? = some k ∧ l.drop (i + 1) = ks ∧ (ks = [] ↔ ¬ i + 1 < l.length) := by
  have h1 : l[i]? = some k := by
    have := congrArg (fun x => x[0]?) h
    simpa using this
  have h2 : l.drop (i + 1) = ks := by
    have := congrArg (List.drop 1) h
    simpa [List.drop_drop, Nat.add_comm] using this
  refine ⟨h1, h2, ?_⟩
  rw [← h2, List.drop_eq_nil_iff]
  omega

theorem mimics_bool {n : Nat} (b : Bool) :
    Mimics env resp c n ((done (.ok (Response.writeBool resp b))).andThen (countOutcome env)) (.settled (.value (.boolean b))) :=
  mimics_count n (.value (.boolean b))

theorem mimics_allExist {args : List Bytes} (ks : List Bytes) (k : Bytes) (i : Nat) (h : args.drop i = k :: ks) (n : Nat) :
    Mimics env resp ⟨.exists, none, args⟩ n
      ((allExist (fun b => done (.ok (Response.writeBool resp b))) (k :: ks)).andThen (countOutcome env)) (.seen i) := by
  induction ks generalizing k i n with
  | nil =>
    obtain ⟨h1, _, h3⟩ := getElem?_drop_cons h
    refine Mimics.readKey (fun a h => by cases h) fun db => ⟨rfl, fun m _ => ?_⟩
    simp only [advance, h1, Option.bind_some, if_neg (h3.1 rfl)]
    cases db.keys k with
    | none => exact mimics_bool false
    | some v => exact mimics_bool true
  | cons k' ks ih =>
    obtain ⟨h1, h2, h3⟩ := getElem?_drop_cons h
    have h3 : i + 1 < args.length := by
      apply Classical.byContradiction
      intro hh
      exact absurd (h3.2 hh) (by simp)
    refine Mimics.readKey (fun a h => by cases h) fun db => ⟨rfl, fun m _ => ?_⟩
    simp only [advance, h1, Option.bind_some, if_pos h3]
    cases db.keys k with
    | none => exact mimics_bool false
    | some v => exact ih k' (i + 1) h2 m

theorem mimics_allAre {args : List Bytes} (t : KeyType) (ks : List Bytes) (k : Bytes) (i : Nat) (h : args.drop i = k :: ks) (n : Nat) :
    Mimics env resp ⟨.is, some t, args⟩ n
      ((allAre t (fun b => done (.ok (Response.writeBool resp b))) (k :: ks)).andThen (countOutcome env)) (.seen i) := by
  induction ks generalizing k i n with
  | nil =>
    obtain ⟨h1, _, h3⟩ := getElem?_drop_cons h
    refine Mimics.readKey (fun a h => by cases h) fun db => ⟨rfl, fun m _ => ?_⟩
    simp only [advance, h1, Option.bind_some, if_neg (h3.1 rfl)]
    cases db.keys k with
    | none => exact mimics_bool false
    | some v =>
      by_cases hv : v.kind = t
      · subst hv
        simp only [Option.map_some, beq_self_eq_true, Option.getD_some, if_true, decide_true, Bool.not_true, Bool.false_eq_true,
          if_false]
        exact mimics_bool true
      · simp [hv]
        exact mimics_bool false
  | cons k' ks ih =>
    obtain ⟨h1, h2, h3⟩ := getElem?_drop_cons h
    have h3 : i + 1 < args.length := by
      apply Classical.byContradiction
      intro hh
      exact absurd (h3.2 hh) (by simp)
    refine Mimics.readKey (fun a h => by cases h) fun db => ⟨rfl, fun m _ => ?_⟩
    simp only [advance, h1, Option.bind_some, if_pos h3]
    cases db.keys k with
    | none => exact mimics_bool false
    | some v =>
      by_cases hv : v.kind = t
      · subst hv
        simp only [Option.map_some, beq_self_eq_true, Option.getD_some, if_true, decide_true, Bool.not_true, Bool.false_eq_true,
          if_false]
        exact ih k' (i + 1) h2 m
      · simp [hv]
        exact mimics_bool false

theorem mimics_exists {kt : Option KeyType} {args : List Bytes} (h : Views r .exists kt args) {n : Nat} :
    Mimics env resp ⟨.exists, kt, args⟩ n ((dispatchExists env r resp).andThen (countOutcome env))
      (opening env resp ⟨.exists, kt, args⟩) := by
  unfold dispatchExists
  rw [h.keyType, argsFrom_eq h]
  cases kt with
  | some t => exact mimics_err n .keyTypeUnexpected
  | none =>
    cases args with
    | nil => exact mimics_err n .argumentRetrieval
    | cons k rest => exact mimics_allExist rest k 0 rfl n

theorem mimics_is {kt : Option KeyType} {args : List Bytes} (h : Views r .is kt args) {n : Nat} :
    Mimics env resp ⟨.is, kt, args⟩ n ((dispatchIs env r resp).andThen (countOutcome env))
      (opening env resp ⟨.is, kt, args⟩) := by
  unfold dispatchIs
  rw [h.keyType, argsFrom_eq h]
  cases kt with
  | none => exact mimics_err n .keyTypeRequired
  | some t =>
    cases args with
    | nil => exact mimics_err n .argumentRetrieval
    | cons k rest => exact mimics_allAre t rest k 0 rfl n

theorem insert_absent (m : BMap) (k v : Bytes) (h : ∀ e ∈ m, e.1 ≠ k) : m.insert k v = m ++ [(k, v)] := by
  induction m with
  | nil => rfl
  | cons e m ih =>
    obtain ⟨k', v'⟩ := e
    simp only [BMap.insert, if_neg (h (k', v') (.head _)), ih fun e he => h e (.tail _ he), List.cons_append]

/-- The counters that are left when Stats has looked at some. -/
theorem mimics_statsLoop (x : Metric) (cs : List Metric) (m : BMap)
    (h : ((x :: cs).map fun x => ascii x.name).Pairwise (· ≠ ·)) (hm : ∀ e ∈ m, ∀ y ∈ x :: cs, e.1 ≠ ascii y.name)
    (hc : c.cmd = .stats) (n : Nat) :
    Mimics env resp c n
      ((statsLoop (fun m => done (.ofOption (Response.writeMap env resp m))) (x :: cs) m).andThen (countOutcome env))
      (.told m ((x :: cs).map fun x => (x, x.name))) := by
  induction cs generalizing x m n with
  | nil =>
    cases n with
    | zero => exact alike_onCtr fun a h => by cases h
    | succ n =>
      refine ⟨alike_onCtr (fun a h => by cases h), fun db => ⟨Db.setCtr_self db x, ?_⟩⟩
      have hi := fun v => insert_absent m (ascii x.name) v fun e he => hm e he x (.head _)
      simp only [advance, statsLoop, List.map_cons, List.map_nil, if_true, reported, readCtr, andThen, Prog.step]
      cases db.ctrs x with
      | none => exact mimics_count n (.value (.map m))
      | some v =>
        dsimp only
        by_cases hv : v < 2 ^ 63
        · simp only [if_pos hv, hi, i64Bytes_ofNat v hv]
          exact mimics_count n (.value (.map _))
        · simp only [if_neg hv]
          exact mimics_count n (.value (.map m))
  | cons y cs ih =>
    rw [List.map_cons, List.pairwise_cons] at h
    cases n with
    | zero => exact alike_onCtr fun a h => by cases h
    | succ n =>
      refine ⟨alike_onCtr (fun a h => by cases h), fun db => ⟨Db.setCtr_self db x, ?_⟩⟩
      have hi := fun v => insert_absent m (ascii x.name) v fun e he => hm e he x (.head _)
      have h1 := ih y m h.2 (fun e he y' hy' => hm e he y' (.tail _ hy')) n
      have h2 := fun v => ih y (m ++ [(ascii x.name, v)]) h.2 (fun e he y' hy' => by
        rcases List.mem_append.1 he with he | he
        · exact hm e he y' (.tail _ hy')
        · rw [List.mem_singleton.1 he]
          exact h.1 _ (List.mem_map.2 ⟨y', hy', rfl⟩)) n
      have e : (advance env resp c (.told m ((x :: y :: cs).map fun x => (x, x.name))) db).1 =
          .told (match reported db.ctrs x with
            | some n => m ++ [(ascii x.name, n)]
            | none => m) ((y :: cs).map fun x => (x, x.name)) := by
        cases hrep : reported db.ctrs x <;> simp [advance, hrep]
      rw [e]
      show Mimics env resp c n ((match db.ctrs x with
        | some n => if n < 2 ^ 63 then statsLoop _ (y :: cs) (m.insert (ascii x.name) (i64Bytes (Int64.ofNat n)))
          else statsLoop _ (y :: cs) m
        | none => statsLoop _ (y :: cs) m).andThen (countOutcome env)) _
      simp only [reported]
      cases db.ctrs x with
      | none => exact h1
      | some v =>
        dsimp only
        by_cases hv : v < 2 ^ 63
        · simp only [if_pos hv, hi, i64Bytes_ofNat v hv]
          exact h2 _
        · simp only [if_neg hv]
          exact h1

theorem mimics_stats {kt : Option KeyType} {args : List Bytes} (h : Views r .stats kt args) {n : Nat} :
    Mimics env resp ⟨.stats, kt, args⟩ n ((dispatchStats env r resp).andThen (countOutcome env))
      (opening env resp ⟨.stats, kt, args⟩) := by
  unfold dispatchStats
  rw [h.keyType]
  cases kt with
  | some t => exact mimics_err n .keyTypeUnexpected
  | none => exact mimics_statsLoop _ _ [] (by decide +kernel) (fun e he => by cases he) rfl n

theorem mimics_keys {kt : Option KeyType} {args : List Bytes} (h : Views r .keys kt args) {n : Nat} :
    Mimics env resp ⟨.keys, kt, args⟩ n ((dispatchKeys env r resp).andThen (countOutcome env))
      (opening env resp ⟨.keys, kt, args⟩) := by
  unfold dispatchKeys
  rw [key_eq h (by decide)]
  cases args with
  | nil => exact mimics_err n .keyUnspecified
  | cons k rest =>
    simp only [List.getElem?_cons_zero, orErr]
    have key : ∀ t, ∀ m ≤ n, (kt = some t ∨ kt = none) → Mimics env resp ⟨.keys, kt, k :: rest⟩ m
        ((match (motive := KeyType → Prog Bytes) t with
          | .map => keysMap env k resp
          | _ => fail .keyTypeInvalid).andThen (countOutcome env)) (typed env ⟨.keys, kt, k :: rest⟩ t) := by
      intro t m _ _
      cases t with
      | map =>
        show Mimics _ _ _ _ _ (usable env ⟨.keys, kt, k :: rest⟩ (.ready (some .map)))
        simp only [keysMap, keyRef_unusable]
        by_cases hu : unusable env.mode k
        · rw [usable, if_pos (show unusable env.mode (mainKey ⟨.keys, kt, k :: rest⟩) from hu), if_pos hu]; exact mimics_crash m
        · rw [usable, if_neg (show ¬ unusable env.mode (mainKey ⟨.keys, kt, k :: rest⟩) from hu), if_neg hu]
          refine mimics_ready m (fun o => ?_) fun db => ?_
          · cases o with
            | none => exact ⟨_, rfl⟩
            | some v => cases v <;> exact ⟨_, rfl⟩
          · apply refines_of_eq
            show (readKey _ _).run _ = _
            rw [run_readKey]
            simp only [execute, effectiveType, ne_eq, not_true, if_false, if_neg hu]
            cases db.keys k with
            | none => rfl
            | some v => cases v <;> rfl
      | _ => exact mimics_err m .keyTypeInvalid
    have := mimics_resolve (resp := resp) h (d := .map) rfl key
    cases kt with
    | none => exact this
    | some t => cases t <;> first | exact this | exact mimics_err n .keyTypeInvalid

theorem mimics_lengthAs {kt : Option KeyType} {rest : List Bytes} {k : Bytes} {t : KeyType} (ht : sized t = true) (n : Nat) :
    Mimics env resp ⟨.length, kt, k :: rest⟩ n ((lengthAs env t k resp).andThen (countOutcome env))
      (typed env ⟨.length, kt, k :: rest⟩ t) := by
  have e : typed env ⟨.length, kt, k :: rest⟩ t = usable env ⟨.length, kt, k :: rest⟩ (.ready (some t)) := by
    cases t <;> first | rfl | (cases ht; done)
  rw [e]
  simp only [lengthAs, keyRef_unusable]
  by_cases hu : unusable env.mode k
  · rw [usable, if_pos (show unusable env.mode (mainKey ⟨.length, kt, k :: rest⟩) from hu), if_pos hu]; exact mimics_crash n
  · rw [usable, if_neg (show ¬ unusable env.mode (mainKey ⟨.length, kt, k :: rest⟩) from hu), if_neg hu]
    refine mimics_ready n (fun o => ?_) fun db => ?_
    · cases o with
      | none => exact ⟨_, rfl⟩
      | some v => dsimp only; split <;> exact ⟨_, rfl⟩
    · apply refines_of_eq
      show (readKey _ _).run _ = _
      rw [run_readKey]
      simp only [execute, effectiveType, ht, Bool.true_eq_false, if_false, if_neg hu]
      cases db.keys k with
      | none => rfl
      | some v => cases t <;> cases v <;> first | rfl | (cases ht; done)

theorem mimics_length {kt : Option KeyType} {args : List Bytes} (h : Views r .length kt args) {n : Nat} :
    Mimics env resp ⟨.length, kt, args⟩ n ((dispatchLength env r resp).andThen (countOutcome env))
      (opening env resp ⟨.length, kt, args⟩) := by
  unfold dispatchLength
  rw [key_eq h (by decide)]
  cases args with
  | nil => exact mimics_err n .keyUnspecified
  | cons k rest =>
    simp only [List.getElem?_cons_zero, orErr]
    have key : ∀ t, ∀ m ≤ n, (kt = some t ∨ kt = none) → Mimics env resp ⟨.length, kt, k :: rest⟩ m
        ((match (motive := KeyType → Prog Bytes) t with
          | .bytes => lengthAs env .bytes k resp
          | .list => lengthAs env .list k resp
          | .map => lengthAs env .map k resp
          | .set => lengthAs env .set k resp
          | .string => lengthAs env .string k resp
          | _ => fail .keyTypeInvalid).andThen (countOutcome env)) (typed env ⟨.length, kt, k :: rest⟩ t) := by
      intro t m _ _
      cases t <;> first | exact mimics_lengthAs rfl m | exact mimics_err m .keyTypeInvalid
    have := mimics_resolve (resp := resp) h (d := .bytes) rfl key
    cases kt with
    | none => exact this
    | some t => cases t <;> first | exact this | exact mimics_err n .keyTypeInvalid

theorem mimics_setting {kt : Option KeyType} {k a : Bytes} {rest : List Bytes} {t : KeyType} {w : Value}
    {body : Value → Value × Outcome DispatchError Bytes} (hp : parseValue t (a :: rest) = some w)
    (hb : ∀ v, body v = if v.kind ≠ t then (v, .err .keyTypeDifferent)
      else if (t = .map ∨ t = .set) ∧ Response.writeValue env resp w = none then (v, .panic)
      else (w, .ofOption (Response.writeValue env resp w))) {n : Nat} (hn : n ≤ env.spins) :
    Mimics env resp ⟨.set, kt, k :: a :: rest⟩ n
      ((removeKey k fun _ => keyOrInsertWith env k (.default t) body).andThen (countOutcome env))
      (typed env ⟨.set, kt, k :: a :: rest⟩ t) := by
  have e : typed env ⟨.set, kt, k :: a :: rest⟩ t = .clearing t := by
    simp [typed, malformed, wrong, hp]
  rw [e]
  refine Mimics.onKey (fun a h => by cases h) fun db => ⟨rfl, fun m hm => ?_⟩
  refine mimics_create rfl (fun _ v => ?_) (by omega)
  rw [hb]
  simp only [workOn, if_true, List.drop_succ_cons, List.drop_zero, hp]
  by_cases h1 : v.kind ≠ t
  · simp only [if_pos h1]; rfl
  · simp only [if_neg h1]
    by_cases h2 : (t = .map ∨ t = .set) ∧ Response.writeValue env resp w = none
    · simp only [if_pos h2]; rfl
    · simp only [if_neg h2]; rfl

theorem mimics_unset {kt : Option KeyType} {k a : Bytes} {rest : List Bytes} {t : KeyType}
    (hp : parseValue t (a :: rest) = none) {n : Nat} :
    Mimics env resp ⟨.set, kt, k :: a :: rest⟩ n ((fail .argumentRetrieval).andThen (countOutcome env))
      (typed env ⟨.set, kt, k :: a :: rest⟩ t) := by
  have e : typed env ⟨.set, kt, k :: a :: rest⟩ t = .settled (.error .argumentRetrieval) := by
    simp [typed, malformed, wrong, hp]
  rw [e]
  exact mimics_err n _

theorem mimics_set {kt : Option KeyType} {args : List Bytes} (h : Views r .set kt args) {n : Nat} (hn : n ≤ env.spins) :
    Mimics env resp ⟨.set, kt, args⟩ n ((dispatchSet env r resp).andThen (countOutcome env))
      (opening env resp ⟨.set, kt, args⟩) := by
  unfold dispatchSet
  rw [key_eq h (by decide)]
  match args, h with
  | [], h => exact mimics_err n .keyUnspecified
  | [k], h =>
    simp only [h.arg]
    exact mimics_err n .argumentRetrieval
  | k :: a :: rest, h =>
    have ha : r.arg 1 = some a := by rw [h.arg]; rfl
    have has : r.argsFrom 1 = some (a :: rest) := by rw [argsFrom_eq h]; simp
    simp only [ha, orErr, Option.isNone_some, Bool.false_eq_true, if_false, List.getElem?_cons_zero]
    have key : ∀ t, ∀ m ≤ n, (kt = some t ∨ kt = none) → Mimics env resp ⟨.set, kt, k :: a :: rest⟩ m
        ((match (motive := KeyType → Prog Bytes) t with
          | .bytes => setBytes env r resp k
          | .boolean => setBoolean env r resp k
          | .float => setFloat env r resp k
          | .integer => setInteger env r resp k
          | .list => setList env r resp k
          | .map => setMap env r resp k
          | .set => setSet env r resp k
          | .string => setString env r resp k).andThen (countOutcome env)) (typed env ⟨.set, kt, k :: a :: rest⟩ t) := by
      intro t m hm _
      have hm : m ≤ env.spins := by omega
      cases t with
      | bytes =>
        simp only [setBytes, ha, orErr]
        exact mimics_setting (w := .bytes a) rfl (fun v => by cases v <;> simp [Value.kind, Response.writeValue]) hm
      | boolean =>
        simp only [setBoolean, ha, orErr, Option.bind_some]
        have hc := convBool_eq a
        cases hb : convBool a with
        | none => rw [hb] at hc; exact mimics_unset (t := .boolean) (by simpa [parseValue] using hc.symm)
        | some b =>
          rw [hb] at hc
          exact mimics_setting (t := .boolean) (w := .boolean b) (by simpa [parseValue] using hc.symm)
            (fun v => by cases v <;> simp [Value.kind, Response.writeValue, Outcome.ofOption]) hm
      | float =>
        simp only [setFloat, ha, orErr, Option.bind_some, convFloat_eq]
        by_cases h8 : 8 ≤ a.length
        · simp only [if_pos h8]
          exact mimics_setting (w := .float (F64.ofBytes (a.take 8))) (by simp [parseValue, h8])
            (fun v => by cases v <;> simp [Value.kind, Response.writeValue, Outcome.ofOption]) hm
        · simp only [if_neg h8]
          exact mimics_unset (by simp [parseValue, h8])
      | integer =>
        simp only [setInteger, ha, orErr, Option.bind_some, convInt_eq]
        by_cases h8 : 8 ≤ a.length
        · simp only [if_pos h8]
          exact mimics_setting (w := .integer (i64OfBytes (a.take 8))) (by simp [parseValue, h8])
            (fun v => by cases v <;> simp [Value.kind, Response.writeValue, Outcome.ofOption]) hm
        · simp only [if_neg h8]
          exact mimics_unset (by simp [parseValue, h8])
      | string =>
        simp only [setString, ha, orErr, Option.bind_some, convStr]
        cases hs : fromUtf8 a with
        | none => exact mimics_unset (by simp [parseValue, hs])
        | some t =>
          exact mimics_setting (w := .string t) (by simp [parseValue, hs])
            (fun v => by cases v <;> simp [Value.kind, Response.writeValue, Outcome.ofOption]) hm
      | list =>
        simp only [setList, has, orErr]
        exact mimics_setting (w := .list (a :: rest)) rfl (fun v => by cases v <;> simp [Value.kind, Response.writeValue]) hm
      | map =>
        simp only [setMap, has, orErr, Option.map_some]
        exact mimics_setting (w := .map (convMap (a :: rest))) rfl (fun v => by
          cases v <;> simp [Value.kind, Response.writeValue]
          cases Response.writeMap env resp (convMap (a :: rest)) <;> simp [Outcome.ofOption]) hm
      | set =>
        simp only [setSet, has, orErr, Option.map_some]
        exact mimics_setting (w := .set (convSet (a :: rest))) rfl (fun v => by
          cases v <;> simp [Value.kind, Response.writeValue]
          cases Response.writeSet env resp (convSet (a :: rest)) <;> simp [Outcome.ofOption]) hm
    have := mimics_resolve (resp := resp) h (d := .bytes) rfl key
    cases kt with
    | none => exact this
    | some t =>
      by_cases hp : parseValue t (a :: rest) = none
      · have e : opening env resp ⟨.set, some t, k :: a :: rest⟩ = typed env ⟨.set, some t, k :: a :: rest⟩ t := by
          simp [opening, typed, malformed, wrong, hp]
        rw [e]; exact this
      · have e : opening env resp ⟨.set, some t, k :: a :: rest⟩ = typed env ⟨.set, some t, k :: a :: rest⟩ t := by
          simp [opening, malformed, wrong, hp]
        rw [e]; exact this

/-- Whatever happens in between, a request does what the specification says, for as many steps as its loop has rounds
(in the program the loop has no bound). -/
theorem mimics_dispatch (hv : Views r c.cmd c.kt c.args) {n : Nat} (hn : n ≤ env.spins) :
    Mimics env resp c n (dispatch env r resp) (opening env resp c) := by
  obtain ⟨cmd, kt, args⟩ := c
  unfold dispatch command
  rw [hv.command]
  cases cmd with
  | append => exact mimics_append hv hn
  | decrementBy => exact mimics_decrementBy hv hn
  | decrement => exact mimics_decrement hv hn
  | delete => exact mimics_delete hv
  | echo => exact mimics_echo hv
  | «exists» => exact mimics_exists hv
  | get => exact mimics_get hv
  | increment => exact mimics_increment hv hn
  | incrementBy => exact mimics_incrementBy hv hn
  | is => exact mimics_is hv
  | keys => exact mimics_keys hv
  | rename => exact mimics_rename hv
  | set => exact mimics_set hv hn
  | stats => exact mimics_stats hv
  | type => exact mimics_type hv
  | length => exact mimics_length hv

end


theorem Mimics.mono {env : Env} {resp : Bytes} {c : Call} {n : Nat} {p : Prog Bytes} {ph : Phase}
    (h : Mimics env resp c (n + 1) p ph) : Mimics env resp c n p ph := by
  induction n generalizing p ph with
  | zero => exact h.1
  | succ n ih => exact ⟨h.1, fun db => ⟨(h.2 db).1, ih (h.2 db).2⟩⟩

/-- Programs and requests that do the same from now on; request `i` for `n i` steps at least. -/
structure Tandem (env : Env) (n : Nat → Nat) (p : Pool Bytes) (d : Desk) : Prop where
  db : p.db = d.db
  length : p.threads.length = d.served.length
  mimics : ∀ (i : Nat) t c resp ph, p.threads[i]? = some t → d.served[i]? = some (c, resp, ph) → Mimics env resp c (n i) t ph

theorem Tandem.start {env : Env} {rs : List (Request × Bytes)} {cs : List Call} (hs : Sees rs cs) (db : Db) :
    Tandem env (fun _ => env.spins) (Pool.start env rs db) (Desk.start env (cs.zip (rs.map Prod.snd)) db) := by
  obtain ⟨hl, hg⟩ := Sees.get hs
  refine ⟨rfl, by simp [Pool.start, Desk.start, hl], fun i t c resp ph ht hd => ?_⟩
  simp only [Pool.start, List.getElem?_map, Option.map_eq_some_iff] at ht
  obtain ⟨r, hr, rfl⟩ := ht
  obtain ⟨c', hc, hv⟩ := hg i r hr
  simp only [Desk.start, List.getElem?_map, Option.map_eq_some_iff] at hd
  obtain ⟨x, hx, hd⟩ := hd
  rw [List.getElem?_zip_eq_some, hc, List.getElem?_map, hr] at hx
  obtain ⟨h1, h2⟩ := hx
  simp only [Option.some.injEq, Option.map_some] at h1 h2
  obtain ⟨x1, x2⟩ := x
  simp only at h1 h2
  subst h1 h2
  simp only [Prod.mk.injEq] at hd
  obtain ⟨rfl, rfl, rfl⟩ := hd
  exact mimics_dispatch hv (Nat.le_refl _)

theorem Tandem.step {env : Env} {n : Nat → Nat} {p : Pool Bytes} {d : Desk} (h : Tandem env n p d) {i : Nat} {m : Nat}
    (hm : n i = m + 1) : Tandem env (fun j => if j = i then m else n j) (p.stepAt i) (d.stepAt env i) := by
  cases ht : p.threads[i]? with
  | none =>
    have hd : d.served[i]? = none := by
      rw [List.getElem?_eq_none_iff] at ht ⊢
      rw [← h.length]; exact ht
    rw [Pool.stepAt_none ht]
    simp only [Desk.stepAt, hd]
    refine ⟨h.db, h.length, fun j t c resp ph h1 h2 => ?_⟩
    rw [if_neg (by rintro rfl; rw [ht] at h1; cases h1)]
    exact h.mimics j t c resp ph h1 h2
  | some t =>
    have hi : i < p.threads.length := by rw [List.getElem?_eq_some_iff] at ht; exact ht.1
    have hi' : i < d.served.length := by rw [← h.length]; exact hi
    obtain ⟨c, resp, ph, hd⟩ : ∃ c resp ph, d.served[i]? = some (c, resp, ph) :=
      ⟨_, _, _, List.getElem?_eq_getElem hi'⟩
    have hmi := h.mimics i t c resp ph ht hd
    rw [hm] at hmi
    have hst := hmi.2 d.db
    rw [Pool.stepAt_some ht]
    simp only [Desk.stepAt, hd]
    refine ⟨by rw [h.db]; exact hst.1, by simp [h.length], fun j t' c' resp' ph' h1 h2 => ?_⟩
    by_cases hj : j = i
    · subst hj
      simp only [List.getElem?_set_self hi, List.getElem?_set_self hi', Option.some.injEq, Prod.mk.injEq] at h1 h2
      obtain ⟨rfl, rfl, rfl⟩ := h2
      rw [if_pos rfl, ← h1, h.db]
      exact hst.2
    · simp only [List.getElem?_set_ne (fun e => hj e.symm)] at h1 h2
      rw [if_neg hj]
      exact h.mimics j t' c' resp' ph' h1 h2

theorem Tandem.exec {env : Env} {n : Nat → Nat} {p : Pool Bytes} {d : Desk} (h : Tandem env n p d) (sched : List Nat)
    (hn : ∀ i, sched.count i ≤ n i) :
    Tandem env (fun i => n i - sched.count i) (p.exec sched) (d.exec env sched) := by
  induction sched generalizing n p d with
  | nil => exact h
  | cons i s ih =>
    have h1 : n i = (n i - 1) + 1 := by have := hn i; simp at this; omega
    have h2 := ih (h.step h1) (fun j => by
      have := hn j
      by_cases hj : j = i
      · subst hj; simp at this ⊢; omega
      · rw [List.count_cons_of_ne (fun e => hj e.symm)] at this; simpa [hj] using this)
    have e : (fun j => (if j = i then n i - 1 else n j) - s.count j) = fun j => n j - (i :: s).count j := by
      funext j
      by_cases hj : j = i
      · subst hj; simp; omega
      · rw [List.count_cons_of_ne (fun e => hj e.symm), if_neg hj]
    rw [e] at h2
    exact h2

/-- C125. Requests served concurrently behave, under every schedule and at every moment, exactly like the machine of
`Spec.advance`: the same keys and counters, and the same requests answered in the same way. The loop of a
request, which in the program has no bound, is given at least as many rounds as the request makes steps. -/
theorem C125_machine {env : Env} {rs : List (Request × Bytes)} {cs : List Call} (hs : Sees rs cs) (db : Db) (sched : List Nat)
    (hn : ∀ i, sched.count i ≤ env.spins) :
    ((Pool.start env rs db).exec sched).db = ((Desk.start env (cs.zip (rs.map Prod.snd)) db).exec env sched).db ∧
    ∀ (i : Nat) o, ((Pool.start env rs db).exec sched).threads[i]? = some (.done o) ↔ ∃ c resp a,
      ((Desk.start env (cs.zip (rs.map Prod.snd)) db).exec env sched).served[i]? = some (c, resp, .answered a) ∧
        o = render env resp a := by
  have h := (Tandem.start (env := env) hs db).exec sched hn
  refine ⟨h.db, fun i o => ?_⟩
  cases ht : ((Pool.start env rs db).exec sched).threads[i]? with
  | none =>
    have hd : ((Desk.start env (cs.zip (rs.map Prod.snd)) db).exec env sched).served[i]? = none := by
      rw [List.getElem?_eq_none_iff] at ht ⊢
      rw [← h.length]; exact ht
    rw [hd]
    simp
  | some t =>
    have hi' : i < ((Desk.start env (cs.zip (rs.map Prod.snd)) db).exec env sched).served.length := by
      rw [← h.length]; rw [List.getElem?_eq_some_iff] at ht; exact ht.1
    obtain ⟨c, resp, ph, hd⟩ : ∃ c resp ph,
        ((Desk.start env (cs.zip (rs.map Prod.snd)) db).exec env sched).served[i]? = some (c, resp, ph) :=
      ⟨_, _, _, List.getElem?_eq_getElem hi'⟩
    have := (h.mimics i t c resp ph ht hd).alike o
    rw [Option.some.injEq, this, hd]
    constructor
    · rintro ⟨a, rfl, rfl⟩; exact ⟨c, resp, a, rfl, rfl⟩
    · rintro ⟨c', resp', a, he, rfl⟩
      cases he
      exact ⟨a, rfl, rfl⟩

theorem Mimics.follow {env : Env} {resp : Bytes} {c : Call} {i : Nat} (sched : List Nat) {n : Nat} {p : Pool Bytes} {t : Prog Bytes}
    {ph : Phase} (h : Mimics env resp c n t ph) (ht : p.threads[i]? = some t) (hn : sched.count i ≤ n) :
    ∃ t', (p.exec sched).threads[i]? = some t' ∧ Mimics env resp c (n - sched.count i) t' (followed env resp c i p sched ph) := by
  induction sched generalizing n p t ph with
  | nil => exact ⟨t, ht, h⟩
  | cons j s ih =>
    by_cases hj : j = i
    · subst hj
      simp only [List.count_cons_self] at hn ⊢
      obtain ⟨n, rfl⟩ : ∃ n', n = n' + 1 := ⟨n - 1, by omega⟩
      have := ih (h.2 p.db).2 (Pool.stepAt_self ht).1 (by omega)
      simp only [followed, if_true]
      rw [show n + 1 - (s.count j + 1) = n - s.count j by omega]
      exact this
    · rw [List.count_cons_of_ne hj] at hn ⊢
      have := ih h (p := p.stepAt j) (by rw [Pool.stepAt_other p (fun e => hj e.symm)]; exact ht) hn
      simp only [followed, if_neg hj]
      exact this

/-- C125, for one request among arbitrary other programs: it is answered exactly when and as the machine says, and each
of its steps changes the database as the machine says. -/
theorem C125_one {env : Env} {r : Request} {c : Call} (hv : Views r c.cmd c.kt c.args) (resp : Bytes) (p : Pool Bytes) (i : Nat)
    (hi : p.threads[i]? = some (dispatch env r resp)) (sched : List Nat) (hn : sched.count i ≤ env.spins) :
    (∀ o, (p.exec sched).threads[i]? = some (.done o) ↔
      ∃ a, followed env resp c i p sched (opening env resp c) = .answered a ∧ o = render env resp a) ∧
    ∀ s1 s2, sched = s1 ++ i :: s2 → ((p.exec s1).stepAt i).db =
      (advance env resp c (followed env resp c i p s1 (opening env resp c)) (p.exec s1).db).2 := by
  have h0 := mimics_dispatch (env := env) (resp := resp) hv (Nat.le_refl _)
  refine ⟨fun o => ?_, fun s1 s2 e => ?_⟩
  · obtain ⟨t, ht, hm⟩ := h0.follow sched hi hn
    rw [ht, Option.some.injEq]
    exact hm.alike o
  · have hc : s1.count i + 1 ≤ env.spins := by
      rw [e, List.count_append, List.count_cons_self] at hn
      omega
    obtain ⟨t, ht, hm⟩ := h0.follow s1 hi (by omega)
    rw [show env.spins - s1.count i = (env.spins - s1.count i - 1) + 1 by omega] at hm
    rw [(Pool.stepAt_self ht).2]
    exact (hm.2 _).1

/-- Non-vacuity: two Increments and a typed Set of a missing key; both Increments find it missing, and the
second, being the last to create it, undoes what the others have done. -/
example : let env := { sampleEnv .debug with spins := 13 }
    let rs := [(call .increment none [[1]], []), (call .increment none [[1]], []), (call .set (some .integer) [[1], i64Bytes 7], [])]
    let cs : List Call := [⟨.increment, none, [[1]]⟩, ⟨.increment, none, [[1]]⟩, ⟨.set, some .integer, [[1], i64Bytes 7]⟩]
    let sched := [0, 1, 0, 0, 2, 2, 2, 2, 1, 1, 0, 1, 2]
    let p := (Pool.start env rs (sampleDb [])).exec sched
    let d := (Desk.start env (cs.zip (rs.map Prod.snd)) (sampleDb [])).exec env sched
    p.db.keys [1] = some (.integer 1) ∧ d.db.keys [1] = some (.integer 1) ∧ p.db = d.db := by
  have hs : Sees [(call .increment none [[1]], []), (call .increment none [[1]], []),
      (call .set (some .integer) [[1], i64Bytes 7], [])]
      [⟨.increment, none, [[1]]⟩, ⟨.increment, none, [[1]]⟩, ⟨.set, some .integer, [[1], i64Bytes 7]⟩] :=
    .cons (call_views _ _ _ (by decide) (by decide) (by decide)) (.cons (call_views _ _ _ (by decide) (by decide) (by decide))
      (.cons (call_views _ _ _ (by decide) (by decide) (by decide)) .nil))
  refine ⟨by decide +kernel, by decide +kernel, (C125_machine hs _ _ fun i => ?_).1⟩
  exact Nat.le_trans (List.countP_le_length) (by decide)

/-- Non-vacuity of `C125_one`: an Append to a missing key among another client's Delete of that key. -/
example : let env := { sampleEnv .debug with spins := 13 }
    let rs := [(call .append (some .bytes) [[1], [7]], []), (call .delete none [[1]], [])]
    let p := Pool.start env rs (sampleDb [])
    followed env [] ⟨.append, some .bytes, [[1], [7]]⟩ 0 p [0, 0, 1, 0, 0, 0, 0] (opening env [] ⟨.append, some .bytes, [[1], [7]]⟩) =
      .answered (.value (.bytes [7])) ∧
    ((p.exec [0, 0, 1, 0, 0, 0, 0]).threads[0]?).isSome := by
  decide +kernel

end Hop
