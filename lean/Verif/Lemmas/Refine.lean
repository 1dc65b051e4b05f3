import Verif.Lemmas.Engine

/-! # Every command does what the key-value store specification says -/

namespace Hop

open Spec Prog

/-- How an answer shows: a value is written to the response buffer (which can fail), an error is returned,
a crash is a panic. -/
def render (env : Env) (resp : Bytes) : Answer → Outcome DispatchError Bytes
  | .value v => .ofOption (Response.writeValue env resp v)
  | .error e => .err e
  | .crash => .panic

/-- The value of the answer, if any, can be written. -/
def writable (env : Env) (resp : Bytes) (a : Answer) : Prop :=
  ∀ v, a = .value v → Response.writeValue env resp v ≠ none

/-- The refinement of one command. The stored keys are as specified unless the command is not `strict` and
could not write its response. -/
def Refines (env : Env) (resp : Bytes) (p : Prog Bytes) (db : Db) (x : Answer × Store) (strict : Prop) : Prop :=
  (p.run db).1 = render env resp x.1 ∧
    (strict ∨ writable env resp x.1 → (p.run db).2 = { keys := x.2, ctrs := db.ctrs })

theorem refines_of_eq {env : Env} {resp : Bytes} {p : Prog Bytes} {db : Db} {x : Answer × Store} {strict : Prop}
    (h : p.run db = (render env resp x.1, { keys := x.2, ctrs := db.ctrs })) : Refines env resp p db x strict := by
  rw [Refines, h]; exact ⟨rfl, fun _ => rfl⟩

theorem put_self (s : Store) (k : Bytes) (v : Value) (h : s k = some v) : s.put k (some v) = s := by
  funext k'
  simp only [Store.put]
  split
  · subst_vars; exact h.symm
  · rfl

theorem incrementIntBy_eq (env : Env) (k : Bytes) (a : Int64) (resp : Bytes) (db : Db) :
    (incrementIntBy env k a resp).run db =
      (render env resp (addInteger env.mode k a.toInt db.keys).1,
        { keys := (addInteger env.mode k a.toInt db.keys).2, ctrs := db.ctrs }) := by
  unfold incrementIntBy addInteger
  rw [run_keyOrInsertWith]
  by_cases hu : unusable env.mode k
  · simp only [if_pos hu, render]
  · simp only [if_neg hu]
    cases hk : db.keys k with
    | none =>
      simp only [Option.getD_none, Value.default, addI64_eq]
      have : inRange ((0 : Int64).toInt + a.toInt) := by
        have h1 := Int64.le_toInt a
        have h2 := Int64.toInt_lt a
        have h3 : (0 : Int64).toInt = 0 := rfl
        rw [h3, Int.zero_add]
        exact ⟨h1, h2⟩
      simp only [if_pos (Or.inl this), render, Response.writeValue, Outcome.ofOption, Db.setKey_eq]
    | some v =>
      simp only [Option.getD_some]
      cases v with
      | integer i =>
        simp only [addI64_eq]
        by_cases h : inRange (i.toInt + a.toInt) ∨ env.mode = .release
        · simp only [if_pos h, render, Response.writeValue, Outcome.ofOption, Db.setKey_eq]
        · simp only [if_neg h, render, Db.setKey_eq, put_self _ _ _ hk]
      | _ => simp only [render, Db.setKey_eq, put_self _ _ _ hk]

theorem incrementFloatBy_eq (env : Env) (k : Bytes) (a : F64) (resp : Bytes) (db : Db) :
    (incrementFloatBy env k a resp).run db =
      (render env resp (addFloat env.mode (fun f => env.fadd f a) k db.keys).1,
        { keys := (addFloat env.mode (fun f => env.fadd f a) k db.keys).2, ctrs := db.ctrs }) := by
  unfold incrementFloatBy addFloat
  rw [run_keyOrInsertWith]
  by_cases hu : unusable env.mode k
  · simp only [if_pos hu, render]
  · simp only [if_neg hu]
    cases hk : db.keys k with
    | none => simp only [Option.getD_none, Value.default, render, Db.setKey_eq]
    | some v =>
      simp only [Option.getD_some]
      cases v with
      | float f => simp only [render, Response.writeValue, Outcome.ofOption, Db.setKey_eq]
      | _ => simp only [render, Db.setKey_eq, put_self _ _ _ hk]

section commands

variable {env : Env} {r : Request} {kt : Option KeyType} {args : List Bytes} (resp : Bytes) (db : Db)
  {strict : Prop}

theorem refine_get (h : Views r .get kt args) :
    Refines env resp (dispatchGet env r resp) db (execute env db.ctrs .get kt args db.keys) strict := by
  apply refines_of_eq
  unfold dispatchGet
  rw [run_orErr, key_eq h (by decide)]
  cases args with
  | nil => simp [execute, render]
  | cons k rest =>
    simp only [List.getElem?_cons_zero, run_keyRef, execute, h.keyType]
    by_cases hu : unusable env.mode k
    · simp [if_pos hu, render]
    · simp only [if_neg hu]
      cases db.keys k with
      | none => simp [render, run_fail]
      | some v =>
        cases kt with
        | none => simp [run_done, render]
        | some t =>
          by_cases ht : v.kind = t
          · simp [ht, run_done, render]
          · simp [ht, Ne.symm ht, run_fail, render]

theorem refine_delete (h : Views r .delete kt args) :
    Refines env resp (dispatchDelete env r resp) db (execute env db.ctrs .delete kt args db.keys) strict := by
  apply refines_of_eq
  unfold dispatchDelete
  rw [h.keyType]
  cases kt with
  | some t => cases args <;> simp [execute, render, run_fail]
  | none =>
    simp only [Option.isSome_none, Bool.false_eq_true, if_false, run_orErr, key_eq h (by decide)]
    cases args with
    | nil => simp [execute, render]
    | cons k rest =>
      simp only [List.getElem?_cons_zero, run_removeKey, execute]
      cases hk : db.keys k with
      | none =>
        rw [← hk, Db.setKey_self]
        simp [hk, run_fail, render]
      | some v => simp [run_done, render, Response.writeValue, Db.setKey_eq]

theorem refine_echo (h : Views r .echo kt args) :
    Refines env resp (dispatchEcho env r resp) db (execute env db.ctrs .echo kt args db.keys) strict := by
  apply refines_of_eq
  unfold dispatchEcho
  rw [argsFrom_eq h]
  cases args with
  | nil => simp [execute, render, run_done, Response.writeValue]
  | cons k rest => simp [execute, render, run_done, Response.writeValue]

theorem refine_exists (h : Views r .exists kt args) :
    Refines env resp (dispatchExists env r resp) db (execute env db.ctrs .exists kt args db.keys) strict := by
  apply refines_of_eq
  unfold dispatchExists
  rw [h.keyType]
  cases kt with
  | some t => cases args <;> simp [execute, render, run_fail]
  | none =>
    simp only [Option.isSome_none, Bool.false_eq_true, if_false, run_orErr, argsFrom_eq h]
    cases args with
    | nil => simp [execute, render]
    | cons k rest =>
      simp only [List.cons_ne_nil, if_false, List.drop_zero, run_allExist, execute, Option.isSome_none,
        Bool.false_eq_true, run_done, render, Response.writeValue, Outcome.ofOption]

theorem refine_is (h : Views r .is kt args) :
    Refines env resp (dispatchIs env r resp) db (execute env db.ctrs .is kt args db.keys) strict := by
  apply refines_of_eq
  unfold dispatchIs
  rw [h.keyType, run_orErr]
  cases kt with
  | none => cases args <;> simp [execute, render]
  | some t =>
    simp only [run_orErr, argsFrom_eq h]
    cases args with
    | nil => simp [execute, render]
    | cons k rest =>
      simp only [List.cons_ne_nil, if_false, List.drop_zero, run_allAre, execute, run_done, render,
        Response.writeValue, Outcome.ofOption]

theorem refine_type (h : Views r .type kt args) :
    Refines env resp (dispatchType env r resp) db (execute env db.ctrs .type kt args db.keys) strict := by
  apply refines_of_eq
  unfold dispatchType
  rw [run_orErr, key_eq h (by decide)]
  cases args with
  | nil => simp [execute, render]
  | cons k rest =>
    simp only [List.getElem?_cons_zero, h.keyType]
    cases kt with
    | some t => simp [execute, render, run_fail]
    | none =>
      simp only [Option.isSome_none, Bool.false_eq_true, if_false, run_keyTypeOf, execute]
      cases db.keys k <;> simp [render, run_fail, run_done, Response.writeValue, Outcome.ofOption]

theorem refine_rename (h : Views r .rename kt args) :
    Refines env resp (dispatchRename env r resp) db (execute env db.ctrs .rename kt args db.keys) strict := by
  apply refines_of_eq
  unfold dispatchRename
  rw [h.keyType]
  cases kt with
  | some t =>
    match args with
    | [] => simp [execute, render, run_fail]
    | [a] => simp [execute, render, run_fail]
    | a :: b :: rest => simp [execute, render, run_fail]
  | none =>
    simp only [Option.isSome_none, Bool.false_eq_true, if_false, run_orErr, h.arg]
    match args with
    | [] => simp [execute, render]
    | [a] => simp [execute, render]
    | a :: b :: rest =>
      simp only [List.getElem?_cons_zero, List.getElem?_cons_succ, run_containsKey, execute]
      cases ha : db.keys a with
      | none => simp [render, run_fail]
      | some v =>
        simp only [Option.isSome_some, Bool.not_true, Bool.false_eq_true, if_false, run_containsKey]
        cases hb : db.keys b with
        | some w => simp [render, run_fail]
        | none =>
          simp [run_removeKey, ha, run_insertKey, run_done, render, Response.writeValue, Db.setKey_eq]

theorem refine_stats (h : Views r .stats kt args) :
    Refines env resp (dispatchStats env r resp) db (execute env db.ctrs .stats kt args db.keys) strict := by
  apply refines_of_eq
  unfold dispatchStats
  rw [h.keyType]
  cases kt with
  | some t => cases args <;> simp [execute, render, run_fail]
  | none =>
    simp only [Option.isSome_none, Bool.false_eq_true, if_false, run_statsLoop, statistics_eq]
    cases args <;> simp [execute, run_done, render, Response.writeValue]

theorem refine_keys (h : Views r .keys kt args) :
    Refines env resp (dispatchKeys env r resp) db (execute env db.ctrs .keys kt args db.keys) strict := by
  apply refines_of_eq
  unfold dispatchKeys
  rw [run_orErr, key_eq h (by decide)]
  cases args with
  | nil => simp [execute, render]
  | cons k rest =>
    simp only [List.getElem?_cons_zero, run_resolveKeyType, h.keyType, execute]
    generalize effectiveType kt (db.keys k) .map = t
    cases t with
    | map =>
      simp only [keysMap, run_keyRef, ne_eq, not_true, if_false]
      by_cases hu : unusable env.mode k
      · simp [if_pos hu, render]
      · simp only [if_neg hu]
        cases db.keys k with
        | none => simp [render, run_fail]
        | some v => cases v <;> simp [render, run_fail, run_done, Response.writeValue]
    | _ => simp [run_fail, render]

theorem refine_length (h : Views r .length kt args) :
    Refines env resp (dispatchLength env r resp) db (execute env db.ctrs .length kt args db.keys) strict := by
  apply refines_of_eq
  unfold dispatchLength
  rw [run_orErr, key_eq h (by decide)]
  cases args with
  | nil => simp [execute, render]
  | cons k rest =>
    simp only [List.getElem?_cons_zero, run_resolveKeyType, h.keyType, execute]
    generalize effectiveType kt (db.keys k) .bytes = t
    cases t with
    | boolean | float | integer => simp [run_fail, render, sized]
    | _ =>
      simp only [sized, Bool.true_eq_false, if_false, lengthAs, run_keyRef]
      by_cases hu : unusable env.mode k
      · simp [if_pos hu, render]
      · simp only [if_neg hu]
        cases db.keys k with
        | none => simp [render, run_fail]
        | some v =>
          cases v <;>
            simp [render, run_fail, run_done, Response.writeValue, Outcome.ofOption, lengthOf, Value.kind, size]

theorem refine_increment (h : Views r .increment kt args) :
    Refines env resp (dispatchIncrement env r resp) db (execute env db.ctrs .increment kt args db.keys) strict := by
  apply refines_of_eq
  unfold dispatchIncrement
  rw [run_orErr, key_eq h (by decide)]
  cases args with
  | nil => simp [execute, render]
  | cons k rest =>
    simp only [List.getElem?_cons_zero, h.keyType, execute]
    split
    · rw [incrementFloatBy_eq]; rfl
    · rw [incrementIntBy_eq]; rfl

theorem refine_decrement (h : Views r .decrement kt args) :
    Refines env resp (dispatchDecrement env r resp) db (execute env db.ctrs .decrement kt args db.keys) strict := by
  apply refines_of_eq
  unfold dispatchDecrement
  rw [run_orErr, key_eq h (by decide)]
  cases args with
  | nil => simp [execute, render]
  | cons k rest =>
    simp only [List.getElem?_cons_zero, h.keyType, execute]
    split
    · rw [incrementFloatBy_eq]; rfl
    · rw [incrementIntBy_eq]; rfl

theorem refine_incrementBy (h : Views r .incrementBy kt args) :
    Refines env resp (dispatchIncrementBy env r resp) db (execute env db.ctrs .incrementBy kt args db.keys) strict := by
  apply refines_of_eq
  unfold dispatchIncrementBy
  rw [run_orErr, key_eq h (by decide)]
  match args, h with
  | [], _ => simp [execute, render]
  | [k], h => simp [execute, render, h.arg, run_fail]
  | k :: a :: rest, h =>
    simp only [List.getElem?_cons_zero, h.arg, execute, List.getElem?_cons_succ, Option.bind_some, convInt_eq,
      convFloat_eq]
    by_cases h8 : 8 ≤ a.length
    · simp only [if_pos h8, incrementIntBy_eq]
    · simp only [if_neg h8, run_fail, render]

theorem addInteger_neg (m : Mode) (k : Bytes) (a : Int64) (s : Store) (h : ¬ (m = .debug ∧ a.toInt = -2 ^ 63)) :
    addInteger m k (Int64.ofInt (-a.toInt)).toInt s = addInteger m k (-a.toInt) s := by
  have h1 := Int64.le_toInt a
  have h2 := Int64.toInt_lt a
  by_cases h0 : a.toInt = -2 ^ 63
  · have hm : m = .release := by cases m <;> simp_all
    subst hm
    unfold addInteger
    split
    · rfl
    · split
      · simp only [or_true, if_true, Int64.ofInt_add, Int64.ofInt_toInt]
      · rfl
  · rw [Int64.toInt_ofInt_of_le (by omega) (by omega)]

theorem refine_decrementBy (h : Views r .decrementBy kt args) :
    Refines env resp (dispatchDecrementBy env r resp) db (execute env db.ctrs .decrementBy kt args db.keys) strict := by
  apply refines_of_eq
  unfold dispatchDecrementBy
  rw [run_orErr, key_eq h (by decide)]
  match args, h with
  | [], _ => simp [execute, render]
  | [k], h => simp [execute, render, h.arg, run_fail]
  | k :: a :: rest, h =>
    simp only [List.getElem?_cons_zero, h.arg, execute, List.getElem?_cons_succ, Option.bind_some, convInt_eq,
      convFloat_eq]
    by_cases h8 : 8 ≤ a.length
    · simp only [if_pos h8, negI64_eq]
      by_cases hm : env.mode = .debug ∧ (i64OfBytes (a.take 8)).toInt = -2 ^ 63
      · simp only [if_pos hm, run_done, render]
      · simp only [if_neg hm, incrementIntBy_eq, addInteger_neg _ _ _ _ hm]
    · simp only [if_neg h8, run_fail, render]

theorem refine_append (h : Views r .append kt args) :
    Refines env resp (dispatchAppend env r resp) db (execute env db.ctrs .append kt args db.keys) strict := by
  apply refines_of_eq
  unfold dispatchAppend
  rw [run_orErr, h.arg]
  cases args with
  | nil => simp [execute, render]
  | cons k rest =>
    simp only [List.getElem?_cons_zero, run_orErr, argsFrom_eq h, List.cons_ne_nil, if_false, List.drop_succ_cons,
      List.drop_zero, run_resolveKeyType, h.keyType, execute]
    generalize effectiveType kt (db.keys k) .bytes = t
    cases t with
    | bytes =>
      simp only [appendBytes, run_keyOrInsertWith, ne_eq, not_true, false_and, if_false]
      by_cases hu : unusable env.mode k
      · simp [if_pos hu, render]
      · simp only [if_neg hu]
        cases hk : db.keys k with
        | none => simp [Value.default, Value.kind, appended, foldl_append, render, Response.writeValue, Db.setKey_eq]
        | some v =>
          cases v <;>
            simp [Value.kind, appended, foldl_append, render, Response.writeValue, Db.setKey_eq, put_self _ _ _ hk]
    | list =>
      simp only [appendList, run_keyOrInsertWith, ne_eq, not_true, false_and, and_false, if_false]
      by_cases hu : unusable env.mode k
      · simp [if_pos hu, render]
      · simp only [if_neg hu]
        cases hk : db.keys k with
        | none => simp [Value.default, Value.kind, appended, render, Response.writeValue, Db.setKey_eq]
        | some v =>
          cases v <;>
            simp [Value.kind, appended, render, Response.writeValue, Db.setKey_eq, put_self _ _ _ hk]
    | string =>
      simp only [appendString, run_keyOrInsertWith, ne_eq, not_true, and_false, if_false]
      by_cases hu : unusable env.mode k
      · simp [if_pos hu, render]
      · simp only [if_neg hu]
        cases hk : db.keys k with
        | none => simp [Value.default, Value.kind, appended, pushStrs_eq, render, Response.writeValue, Db.setKey_eq]
        | some v =>
          cases v <;>
            simp [Value.kind, appended, pushStrs_eq, render, Response.writeValue, Db.setKey_eq, put_self _ _ _ hk]
    | _ => simp [run_fail, render]

theorem refine_set (h : Views r .set kt args) :
    Refines env resp (dispatchSet env r resp) db (execute env db.ctrs .set kt args db.keys) False := by
  unfold dispatchSet
  match args, h with
  | [], h =>
    apply refines_of_eq
    rw [run_orErr, key_eq h (by decide)]
    simp [execute, render]
  | [k], h =>
    apply refines_of_eq
    rw [run_orErr, key_eq h (by decide)]
    simp [execute, render, h.arg, run_fail]
  | k :: a :: rest, h =>
    have hk : r.key = some k := by rw [key_eq h (by decide)]; rfl
    have ha : r.arg 1 = some a := by rw [h.arg]; rfl
    have has : r.argsFrom 1 = some (a :: rest) := by rw [argsFrom_eq h]; simp
    simp only [hk, ha, orErr, Option.isNone_some, Bool.false_eq_true, if_false]
    unfold Refines
    simp only [run_resolveKeyType, h.keyType, execute]
    generalize effectiveType kt (db.keys k) .bytes = t
    have huse : ∀ (v : Value) (mk : Value) (body : Value → Value × Outcome DispatchError Bytes) (o : Option Value),
        body mk = (v, .ofOption (Response.writeValue env resp v)) →
        ((keyOrInsertWith env k mk body).run (db.setKey k none)) =
          (render env resp (if unusable env.mode k then (Answer.crash, Store.put db.keys k none)
            else (.value v, Store.put db.keys k (some v))).1,
            { keys := (if unusable env.mode k then (Answer.crash, Store.put db.keys k none)
              else (.value v, Store.put db.keys k (some v))).2, ctrs := db.ctrs }) := by
      intro v mk body o hb
      rw [run_keyOrInsertWith]
      by_cases hu : unusable env.mode k
      · simp only [if_pos hu, render, Db.setKey_eq]
      · rw [Db.setKey_keys_self, Db.setKey_setKey]
        simp only [if_neg hu, Option.getD_none, hb, render, Db.setKey_eq]
    cases t with
    | bytes =>
      simp only [setBytes, ha, orErr, run_removeKey, parseValue]
      rw [huse (.bytes a) _ _ none (by simp [Value.default, Response.writeValue])]
      exact ⟨rfl, fun _ => rfl⟩
    | boolean =>
      have hc := convBool_eq a
      simp only [setBoolean, ha, orErr, parseValue, Option.bind_some]
      rw [← hc]
      cases convBool a with
      | none => exact ⟨rfl, fun _ => rfl⟩
      | some b =>
        simp only [Option.map_some, run_removeKey]
        rw [huse (.boolean b) _ _ none (by simp [Value.default, Response.writeValue, Outcome.ofOption])]
        exact ⟨rfl, fun _ => rfl⟩
    | float =>
      simp only [setFloat, ha, orErr, parseValue, Option.bind_some, convFloat_eq]
      by_cases h8 : 8 ≤ a.length
      · simp only [if_pos h8, run_removeKey]
        rw [huse (.float (F64.ofBytes (a.take 8))) _ _ none (by simp [Value.default, Response.writeValue, Outcome.ofOption])]
        exact ⟨rfl, fun _ => rfl⟩
      · simp only [if_neg h8, run_fail]
        simp [render]
    | integer =>
      simp only [setInteger, ha, orErr, parseValue, Option.bind_some, convInt_eq]
      by_cases h8 : 8 ≤ a.length
      · simp only [if_pos h8, run_removeKey]
        rw [huse (.integer (i64OfBytes (a.take 8))) _ _ none (by simp [Value.default, Response.writeValue, Outcome.ofOption])]
        exact ⟨rfl, fun _ => rfl⟩
      · simp only [if_neg h8, run_fail]
        simp [render]
    | string =>
      simp only [setString, ha, orErr, parseValue, Option.bind_some, convStr]
      cases fromUtf8 a with
      | none => exact ⟨rfl, fun _ => rfl⟩
      | some t =>
        simp only [Option.map_some, run_removeKey]
        rw [huse (.string t) _ _ none (by simp [Value.default, Response.writeValue])]
        exact ⟨rfl, fun _ => rfl⟩
    | list =>
      simp only [setList, has, orErr, run_removeKey, parseValue]
      rw [huse (.list (a :: rest)) _ _ none (by simp [Value.default, Response.writeValue])]
      exact ⟨rfl, fun _ => rfl⟩
    | map =>
      simp only [setMap, has, orErr, run_removeKey, parseValue, Option.map_some]
      cases hw : Response.writeMap env resp (convMap (a :: rest)) with
      | some out =>
        rw [huse (.map (convMap (a :: rest))) _ _ none (by simp [Value.default, Response.writeValue, hw, Outcome.ofOption])]
        exact ⟨rfl, fun _ => rfl⟩
      | none =>
        rw [run_keyOrInsertWith]
        by_cases hu : unusable env.mode k
        · simp only [if_pos hu, render, Db.setKey_eq]
          simp
        · simp only [if_neg hu, render, Response.writeValue, hw, Db.setKey_keys_self, Option.getD_none,
            Value.default, Outcome.ofOption]
          refine ⟨trivial, fun hwr => absurd ?_ ((hwr.resolve_left id) _ rfl)⟩
          exact hw
    | set =>
      simp only [setSet, has, orErr, run_removeKey, parseValue, Option.map_some]
      cases hw : Response.writeSet env resp (convSet (a :: rest)) with
      | some out =>
        rw [huse (.set (convSet (a :: rest))) _ _ none (by simp [Value.default, Response.writeValue, hw, Outcome.ofOption])]
        exact ⟨rfl, fun _ => rfl⟩
      | none =>
        rw [run_keyOrInsertWith]
        by_cases hu : unusable env.mode k
        · simp only [if_pos hu, render, Db.setKey_eq]
          simp
        · simp only [if_neg hu, render, Response.writeValue, hw, Db.setKey_keys_self, Option.getD_none,
            Value.default, Outcome.ofOption]
          refine ⟨trivial, fun hwr => absurd ?_ ((hwr.resolve_left id) _ rfl)⟩
          exact hw

end commands

/-- Every command, alone, answers and changes the stored keys as specified; only a Set that cannot write its
response may leave something else. -/
theorem command_refines {env : Env} {r : Request} {c : CommandId} {kt : Option KeyType} {args : List Bytes}
    (h : Views r c kt args) (resp : Bytes) (db : Db) :
    Refines env resp (command env r resp) db (execute env db.ctrs c kt args db.keys) (c ≠ .set) := by
  unfold command
  rw [h.command]
  cases c with
  | append => exact refine_append resp db h
  | decrementBy => exact refine_decrementBy resp db h
  | decrement => exact refine_decrement resp db h
  | delete => exact refine_delete resp db h
  | echo => exact refine_echo resp db h
  | «exists» => exact refine_exists resp db h
  | get => exact refine_get resp db h
  | increment => exact refine_increment resp db h
  | incrementBy => exact refine_incrementBy resp db h
  | is => exact refine_is resp db h
  | keys => exact refine_keys resp db h
  | rename => exact refine_rename resp db h
  | set => simpa using refine_set resp db h
  | stats => exact refine_stats resp db h
  | type => exact refine_type resp db h
  | length => exact refine_length resp db h

end Hop
