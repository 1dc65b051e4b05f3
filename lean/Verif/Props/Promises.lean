import Verif.Spec.Promises
import Verif.Lemmas.Obeys
import Verif.Lemmas.Concurrent
import Verif.Lemmas.Dispatch
import Verif.Props.Store

/-! # C111: what a command may answer while others are at work -/

namespace Hop

open Spec Prog

/-- Whatever the program finds, it ends with an outcome in `Q`. -/
def Yields {α} (Q : Outcome DispatchError α → Prop) : Prog α → Prop
  | .done r => Q r
  | .onKey _ _ next => ∀ o, Yields Q (next o)
  | .onCtr _ _ next => ∀ o, Yields Q (next o)

theorem Yields.step {α} {Q : Outcome DispatchError α → Prop} {p : Prog α} (h : Yields Q p) (db : Db) :
    Yields Q (p.step db).1 := by
  cases p with
  | done r => exact h
  | onKey k upd next => exact h _
  | onCtr m upd next => exact h _

theorem Yields.exec {α} {Q : Outcome DispatchError α → Prop} {p : Pool α} {i : Nat}
    (h : ∀ t, p.threads[i]? = some t → Yields Q t) (sched : List Nat) :
    ∀ t, (p.exec sched).threads[i]? = some t → Yields Q t := by
  induction sched generalizing p with
  | nil => exact h
  | cons j js ih =>
    refine ih ?_
    by_cases hij : i = j
    · subst hij
      cases hi : p.threads[i]? with
      | none => rw [Pool.stepAt_none hi, hi]; simp
      | some t =>
        intro t' ht'
        rw [(Pool.stepAt_self hi).1] at ht'
        cases ht'
        exact (h t hi).step _
    · rw [Pool.stepAt_other p hij]
      exact h

section

variable {Q : Outcome DispatchError α → Prop}

theorem Yields.orErr {o : Option β} {e : DispatchError} {f : β → Prog α} (hn : o = none → Q (.err e))
    (h : ∀ a, o = some a → Yields Q (f a)) : Yields Q (orErr o e f) := by
  cases o with
  | none => exact hn rfl
  | some a => exact h a rfl

theorem Yields.keyRef {env : Env} {k : Bytes} {next : Option Value → Prog α} (hp : Q .panic) (h : ∀ o, Yields Q (next o)) :
    Yields Q (keyRef env k next) := by
  unfold Hop.keyRef
  split
  · exact hp
  · split
    · exact hp
    · exact h

theorem Yields.keyOrInsertLoop {k : Bytes} {mk : Value} {body : Value → Value × Outcome DispatchError α} (hs : Q .stuck)
    (h : ∀ v, Q (body v).2) (n : Nat) : Yields Q (keyOrInsertLoop k mk body n) := by
  induction n with
  | zero => exact hs
  | succ n ih =>
    intro o
    cases o with
    | none => exact fun _ => ih
    | some v => exact h v

theorem Yields.keyOrInsertWith {env : Env} {k : Bytes} {mk : Value} {body : Value → Value × Outcome DispatchError α}
    (hp : Q .panic) (hs : Q .stuck) (h : ∀ v, Q (body v).2) : Yields Q (keyOrInsertWith env k mk body) := by
  unfold Hop.keyOrInsertWith
  split
  · exact hp
  · split
    · exact hp
    · exact Yields.keyOrInsertLoop hs h _

theorem Yields.resolveKeyType {r : Request} {k : Bytes} {d : KeyType} {next : KeyType → Prog α}
    (h : ∀ t, r.keyType = some t ∨ r.keyType = none → Yields Q (next t)) : Yields Q (resolveKeyType r k d next) := by
  unfold Hop.resolveKeyType
  cases hr : r.keyType with
  | some t => exact h t (.inl hr)
  | none => exact fun o => h _ (.inr hr)

theorem Yields.allExist {next : Bool → Prog α} (h : ∀ b, Yields Q (next b)) (ks : List Bytes) : Yields Q (allExist next ks) := by
  induction ks with
  | nil => exact h _
  | cons k ks ih =>
    intro o
    dsimp only
    split
    · exact ih
    · exact h _

theorem Yields.allAre {t : KeyType} {next : Bool → Prog α} (h : ∀ b, Yields Q (next b)) (ks : List Bytes) :
    Yields Q (allAre t next ks) := by
  induction ks with
  | nil => exact h _
  | cons k ks ih =>
    intro o
    dsimp only
    split
    · exact ih
    · exact h _

/-- Stats looks at each counter once, so what it finds is what some state of the counters would show. -/
theorem Yields.statsLoop {next : BMap → Prog α} (cs : List Metric) (hn : cs.Nodup) (m : BMap)
    (h : ∀ ctrs : Metric → Option Nat, Yields Q (next (cs.foldl (fun (m : BMap) c => match ctrs c with
      | some n => if n < 2 ^ 63 then m.insert (ascii c.name) (i64Bytes (Int64.ofNat n)) else m
      | none => m) m))) : Yields Q (statsLoop next cs m) := by
  induction cs generalizing m with
  | nil => exact h fun _ => none
  | cons c cs ih =>
    intro o
    simp only [List.nodup_cons] at hn
    have key : Yields Q (Hop.statsLoop next cs (match o with
        | some n => if n < 2 ^ 63 then m.insert (ascii c.name) (i64Bytes (Int64.ofNat n)) else m
        | none => m)) := by
      refine ih hn.2 _ fun ctrs => ?_
      have h' := h fun m' => if m' = c then o else ctrs m'
      simp only [List.foldl_cons, if_true] at h'
      have e : ∀ (ds : List Metric) (b : BMap), c ∉ ds →
          ds.foldl (fun (m : BMap) c' => match (if c' = c then o else ctrs c') with
            | some n => if n < 2 ^ 63 then m.insert (ascii c'.name) (i64Bytes (Int64.ofNat n)) else m
            | none => m) b = ds.foldl (fun (m : BMap) c' => match ctrs c' with
            | some n => if n < 2 ^ 63 then m.insert (ascii c'.name) (i64Bytes (Int64.ofNat n)) else m
            | none => m) b := by
        intro ds
        induction ds with
        | nil => intros; rfl
        | cons d ds ihd =>
          intro b hd
          simp only [List.mem_cons, not_or] at hd
          simp only [List.foldl_cons, if_neg (Ne.symm hd.1)]
          exact ihd _ hd.2
      rw [e _ _ hn.1] at h'
      exact h'
    cases o with
    | none => exact key
    | some n =>
      dsimp only at key ⊢
      split
      · rename_i hlt; rw [if_pos hlt] at key; exact key
      · rename_i hlt; rw [if_neg hlt] at key; exact key

end

theorem Yields.andThen {α β} {Q : Outcome DispatchError α → Prop} {R : Outcome DispatchError β → Prop} {p : Prog α}
    {f : Outcome DispatchError α → Prog β} (h : Yields Q p) (hf : ∀ r, Q r → Yields R (f r)) : Yields R (p.andThen f) := by
  induction p with
  | done r => exact hf r h
  | onKey k upd next ih => exact fun o => ih o (h o)
  | onCtr m upd next ih => exact fun o => ih o (h o)

section

variable {env : Env} {r : Request} {resp : Bytes} {c : Call}

theorem foreseen_write {v : Value} (hm : malformed c = none) (h : Promised env c v) :
    Foreseen env c resp (.ofOption (Response.writeValue env resp v)) := by
  cases hw : Response.writeValue env resp v with
  | none => trivial
  | some out => exact ⟨hm, v, h, hw⟩

theorem foreseen_malformed {e : DispatchError} (h : malformed c = some e) : Foreseen env c resp (.err e) := by
  simp [Foreseen, failures, h]

theorem foreseen_err {e : DispatchError} (hm : malformed c = none) (h : e ∈ mayFail c) : Foreseen env c resp (.err e) := by
  simp [Foreseen, failures, hm, h]

theorem Yields.intBy {k : Bytes} (a : Int64) (hm : malformed c = none) (hc : DispatchError.keyTypeDifferent ∈ mayFail c)
    (hs : Foreseen env c resp .stuck) (hp : ∀ i, Promised env c (.integer i)) :
    Yields (Foreseen env c resp) (incrementIntBy env k a resp) := by
  refine Yields.keyOrInsertWith trivial hs fun v => ?_
  cases v with
  | integer i =>
    dsimp only
    cases addI64 env.mode i a with
    | none => trivial
    | some j => exact ⟨hm, .integer j, hp j, rfl⟩
  | _ => exact foreseen_err hm hc

theorem Yields.floatBy {k : Bytes} (a : F64) (hm : malformed c = none) (hc : DispatchError.keyTypeDifferent ∈ mayFail c)
    (hs : Foreseen env c resp .stuck) (hp : ∀ f, Promised env c (.float (env.fadd f a))) :
    Yields (Foreseen env c resp) (incrementFloatBy env k a resp) := by
  refine Yields.keyOrInsertWith trivial hs fun v => ?_
  cases v with
  | float f => exact ⟨hm, .float (env.fadd f a), hp f, rfl⟩
  | _ => exact foreseen_err hm hc

theorem Yields.setting {k : Bytes} {mk : Value} {body : Value → Value × Outcome DispatchError Bytes} {v : Value}
    (hm : malformed c = none) (hc : c.cmd = .set) (hv : Promised env c v)
    (hb : ∀ w, (body w).2 = .ofOption (Response.writeValue env resp v) ∨ (body w).2 = .err .keyTypeDifferent) :
    Yields (Foreseen env c resp) (removeKey k fun _ => Hop.keyOrInsertWith env k mk body) := by
  intro _
  refine Yields.keyOrInsertWith trivial ⟨hm, by rw [hc]; decide⟩ fun w => ?_
  rcases hb w with h | h
  · rw [h]; exact foreseen_write hm hv
  · rw [h]
    refine foreseen_err hm ?_
    unfold mayFail
    rw [hc]
    dsimp only
    split <;> simp

theorem Yields.command (hv : Views r c.cmd c.kt c.args) : Yields (Foreseen env c resp) (command env r resp) := by
  obtain ⟨cmd, kt, args⟩ := c
  dsimp only at hv
  unfold Hop.command
  rw [hv.command]
  cases cmd <;> dsimp only
  case append =>
    unfold dispatchAppend
    rw [hv.arg, argsFrom_eq hv]
    cases args with
    | nil => exact foreseen_malformed (by simp [malformed, wrong])
    | cons k items =>
      simp only [List.getElem?_cons_zero, Prog.orErr, List.cons_ne_nil, if_false, List.drop_succ_cons, List.drop_zero]
      refine Yields.resolveKeyType fun t ht => ?_
      rw [hv.keyType] at ht
      have hm : t = .bytes ∨ t = .list ∨ t = .string → malformed ⟨.append, kt, k :: items⟩ = none := by
        intro h
        rcases ht with rfl | rfl
        · rcases h with rfl | rfl | rfl <;> simp [malformed, wrong]
        · simp [malformed, wrong]
      cases t with
      | bytes =>
        refine Yields.keyOrInsertWith trivial ⟨hm (by simp), by simp⟩ fun v => ?_
        cases v with
        | bytes b =>
          refine foreseen_write (v := .bytes _) (hm (by simp)) ⟨.bytes b, by simp [appended, foldl_append], ?_⟩
          rintro t rfl; simp at ht; exact ht.symm
        | _ => exact foreseen_err (hm (by simp)) (by simp [mayFail])
      | list =>
        refine Yields.keyOrInsertWith trivial ⟨hm (by simp), by simp⟩ fun v => ?_
        cases v with
        | list b =>
          refine foreseen_write (v := .list _) (hm (by simp)) ⟨.list b, by simp [appended], ?_⟩
          rintro t rfl; simp at ht; exact ht.symm
        | _ => exact foreseen_err (hm (by simp)) (by simp [mayFail])
      | string =>
        refine Yields.keyOrInsertWith trivial ⟨hm (by simp), by simp⟩ fun v => ?_
        cases v with
        | string b =>
          refine foreseen_write (v := .string _) (hm (by simp)) ⟨.string b, by simp [appended, pushStrs_eq], ?_⟩
          rintro t rfl; simp at ht; exact ht.symm
        | _ => exact foreseen_err (hm (by simp)) (by simp [mayFail])
      | _ =>
        rcases ht with rfl | rfl
        · exact foreseen_malformed (by simp [malformed, wrong])
        · exact foreseen_err (by simp [malformed, wrong]) (by simp [mayFail])
  case increment | decrement =>
    all_goals
      first | unfold dispatchIncrement | unfold dispatchDecrement
      rw [key_eq hv (by decide), hv.keyType]
      cases args with
      | nil => exact foreseen_malformed (by simp [malformed, wrong])
      | cons k items =>
        simp only [List.getElem?_cons_zero, Prog.orErr]
        split
        · rename_i h
          exact Yields.floatBy _ (by simp [malformed, wrong]) (by simp [mayFail]) ⟨by simp [malformed, wrong], by simp⟩
            fun f => by simp only [Promised, h, if_true]; exact ⟨f, rfl⟩
        · rename_i h
          exact Yields.intBy _ (by simp [malformed, wrong]) (by simp [mayFail]) ⟨by simp [malformed, wrong], by simp⟩
            fun i => by simp only [Promised, h, if_false]; rfl
  case incrementBy | decrementBy =>
    all_goals
      first | unfold dispatchIncrementBy | unfold dispatchDecrementBy
      rw [key_eq hv (by decide), hv.arg]
      match args, hv with
      | [], _ => exact foreseen_malformed (by simp [malformed, wrong])
      | [k], _ => exact foreseen_malformed (by simp [malformed, wrong, noNumber])
      | k :: a :: items, hv =>
        simp only [List.getElem?_cons_zero, List.getElem?_cons_succ, Prog.orErr, Option.bind_some, convInt_eq, convFloat_eq]
        by_cases h8 : 8 ≤ a.length
        · have hm : ¬ noNumber (k :: a :: items) := by simp [noNumber]; omega
          simp only [if_pos h8]
          first
            | exact Yields.intBy _ (by simp [malformed, wrong, hm]) (by simp [mayFail]) ⟨by simp [malformed, wrong, hm], by simp⟩
                fun i => rfl
            | (split
               · exact Yields.intBy _ (by simp [malformed, wrong, hm]) (by simp [mayFail])
                  ⟨by simp [malformed, wrong, hm], by simp⟩ fun i => rfl
               · trivial)
        · have hm : noNumber (k :: a :: items) := by simp [noNumber]; omega
          simp only [if_neg h8]
          exact foreseen_malformed (by simp [malformed, wrong, hm])
  case delete =>
    unfold dispatchDelete
    rw [key_eq hv (by decide), hv.keyType]
    cases kt with
    | some t => exact foreseen_malformed (by simp [malformed, wrong])
    | none =>
      cases args with
      | nil => exact foreseen_malformed (by simp [malformed, wrong])
      | cons k items =>
        intro o
        cases o with
        | none => exact foreseen_err (by simp [malformed, wrong]) (by simp [mayFail])
        | some v => exact foreseen_write (v := .bytes k) (by simp [malformed, wrong]) ⟨k, rfl, rfl⟩
  case echo =>
    unfold dispatchEcho
    rw [argsFrom_eq hv]
    cases args with
    | nil => exact foreseen_write (v := .list []) rfl rfl
    | cons k items => exact foreseen_write (v := .list (k :: items)) rfl rfl
  case «exists» =>
    unfold dispatchExists
    rw [argsFrom_eq hv, hv.keyType]
    cases kt with
    | some t => exact foreseen_malformed (by simp [malformed, wrong])
    | none =>
      cases args with
      | nil => exact foreseen_malformed (by simp [malformed, wrong])
      | cons k items =>
        refine Yields.allExist (fun b => ?_) _
        exact ⟨by simp [malformed, wrong], .boolean b, rfl, rfl⟩
  case is =>
    unfold dispatchIs
    rw [argsFrom_eq hv, hv.keyType]
    cases kt with
    | none => exact foreseen_malformed (by simp [malformed, wrong])
    | some t =>
      cases args with
      | nil => exact foreseen_malformed (by simp [malformed, wrong])
      | cons k items =>
        refine Yields.allAre (fun b => ?_) _
        exact ⟨by simp [malformed, wrong], .boolean b, rfl, rfl⟩
  case get =>
    unfold dispatchGet
    rw [key_eq hv (by decide), hv.keyType]
    cases args with
    | nil => exact foreseen_malformed (by simp [malformed, wrong])
    | cons k items =>
      refine Yields.keyRef trivial fun o => ?_
      cases o with
      | none =>
        refine foreseen_err (by simp [malformed, wrong]) ?_
        cases kt <;> simp [mayFail]
      | some v =>
        cases kt with
        | none => exact foreseen_write (by simp [malformed, wrong]) (by simp [Promised])
        | some t =>
          dsimp only
          split
          · exact foreseen_err (by simp [malformed, wrong]) (by simp [mayFail])
          · rename_i h
            refine foreseen_write (by simp [malformed, wrong]) ?_
            simp only [Promised, Option.some.injEq]
            rintro t rfl
            simpa using h
  case keys =>
    unfold dispatchKeys
    rw [key_eq hv (by decide)]
    cases args with
    | nil => exact foreseen_malformed (by simp [malformed, wrong])
    | cons k items =>
      refine Yields.resolveKeyType fun t ht => ?_
      rw [hv.keyType] at ht
      cases t with
      | map =>
        have hm : malformed ⟨.keys, kt, k :: items⟩ = none := by rcases ht with rfl | rfl <;> simp [malformed, wrong]
        refine Yields.keyRef trivial fun o => ?_
        cases o with
        | none => exact foreseen_err hm (by cases kt <;> simp [mayFail])
        | some v =>
          cases v with
          | map m => exact foreseen_write (v := .list _) hm ⟨m, rfl⟩
          | _ => exact foreseen_err hm (by cases kt <;> simp [mayFail])
      | _ =>
        rcases ht with rfl | rfl
        · exact foreseen_malformed (by simp [malformed, wrong])
        · exact foreseen_err (by simp [malformed, wrong]) (by simp [mayFail])
  case length =>
    unfold dispatchLength
    rw [key_eq hv (by decide)]
    cases args with
    | nil => exact foreseen_malformed (by simp [malformed, wrong])
    | cons k items =>
      refine Yields.resolveKeyType fun t ht => ?_
      rw [hv.keyType] at ht
      cases t with
      | boolean | float | integer =>
        all_goals
          rcases ht with rfl | rfl
          · exact foreseen_malformed (by simp [malformed, wrong])
          · exact foreseen_err (by simp [malformed, wrong]) (by simp [mayFail])
      | _ =>
        have hm : malformed ⟨.length, kt, k :: items⟩ = none := by rcases ht with rfl | rfl <;> simp [malformed, wrong]
        refine Yields.keyRef trivial fun o => ?_
        cases o with
        | none => exact foreseen_err hm (by cases kt <;> simp [mayFail])
        | some v =>
          have hw : ∀ (w : Value) (n : Nat), size w = some n → (∀ t, kt = some t → w.kind = t) →
              Foreseen env ⟨.length, kt, k :: items⟩ resp (.ok (Response.writeInt resp (Int64.ofNat n))) :=
            fun w n h1 h2 => ⟨hm, _, ⟨w, n, h1, h2, rfl⟩, rfl⟩
          cases v <;> first
            | exact foreseen_err hm (by cases kt <;> simp [mayFail])
            | (refine hw (.bytes _) _ rfl ?_; rintro t rfl; simp at ht; exact ht.symm)
            | (refine hw (.list _) _ rfl ?_; rintro t rfl; simp at ht; exact ht.symm)
            | (refine hw (.map _) _ rfl ?_; rintro t rfl; simp at ht; exact ht.symm)
            | (refine hw (.set _) _ rfl ?_; rintro t rfl; simp at ht; exact ht.symm)
            | (refine hw (.string _) _ rfl ?_; rintro t rfl; simp at ht; exact ht.symm)
  case rename =>
    unfold dispatchRename
    rw [hv.arg, hv.arg, hv.keyType]
    cases kt with
    | some t => exact foreseen_malformed (by simp [malformed, wrong])
    | none =>
      match args with
      | [] => exact foreseen_malformed (by simp [malformed, wrong])
      | [k] => exact foreseen_malformed (by simp [malformed, wrong])
      | k :: k' :: items =>
        have hm : malformed ⟨.rename, none, k :: k' :: items⟩ = none := by simp [malformed, wrong]
        intro o
        dsimp only
        split
        · exact foreseen_err hm (by simp [mayFail])
        · intro o
          dsimp only
          split
          · exact foreseen_err hm (by simp [mayFail])
          · intro o
            cases o with
            | none => exact foreseen_err hm (by simp [mayFail])
            | some v => exact fun _ => foreseen_write (v := .bytes k') hm ⟨k', rfl, rfl⟩
  case set =>
    unfold dispatchSet
    rw [key_eq hv (by decide), hv.arg]
    match args, hv with
    | [], _ => exact foreseen_malformed (by simp [malformed, wrong])
    | [k], _ => exact foreseen_malformed (by simp [malformed, wrong])
    | k :: a :: items, hv =>
      have ha : r.arg 1 = some a := by rw [hv.arg]; rfl
      have has : r.argsFrom 1 = some (a :: items) := by rw [argsFrom_eq hv]; simp
      simp only [List.getElem?_cons_zero, List.getElem?_cons_succ, Prog.orErr, Option.isNone_some, Bool.false_eq_true, if_false]
      refine Yields.resolveKeyType fun t ht => ?_
      rw [hv.keyType] at ht
      have hbad : parseValue t (a :: items) = none → Foreseen env ⟨.set, kt, k :: a :: items⟩ resp (.err .argumentRetrieval) := by
        intro h
        rcases ht with rfl | rfl
        · exact foreseen_malformed (by simp [malformed, wrong, h])
        · exact foreseen_err (by simp [malformed, wrong]) (by simp [mayFail])
      have hgood : ∀ v, parseValue t (a :: items) = some v →
          malformed ⟨.set, kt, k :: a :: items⟩ = none ∧ Promised env ⟨.set, kt, k :: a :: items⟩ v := by
        intro v h
        refine ⟨?_, t, h, ht⟩
        rcases ht with rfl | rfl <;> simp [malformed, wrong, h]
      cases t with
      | bytes =>
        simp only [setBytes, ha, Prog.orErr]
        obtain ⟨hm, hp⟩ := hgood (.bytes a) rfl
        exact Yields.setting hm rfl hp fun w => by cases w <;> first | exact .inl rfl | exact .inr rfl
      | boolean =>
        have hc := convBool_eq a
        simp only [setBoolean, ha, Option.bind_some]
        cases hb : convBool a with
        | none => exact hbad (by simp [parseValue, ← hc, hb])
        | some b =>
          obtain ⟨hm, hp⟩ := hgood (.boolean b) (by simp [parseValue, ← hc, hb])
          exact Yields.setting hm rfl hp fun w => by cases w <;> first | exact .inl rfl | exact .inr rfl
      | float =>
        simp only [setFloat, ha, Option.bind_some, convFloat_eq]
        by_cases h8 : 8 ≤ a.length
        · simp only [if_pos h8]
          obtain ⟨hm, hp⟩ := hgood (.float (F64.ofBytes (a.take 8))) (by simp [parseValue, h8])
          exact Yields.setting hm rfl hp fun w => by cases w <;> first | exact .inl rfl | exact .inr rfl
        · simp only [if_neg h8]
          exact hbad (by simp [parseValue]; omega)
      | integer =>
        simp only [setInteger, ha, Option.bind_some, convInt_eq]
        by_cases h8 : 8 ≤ a.length
        · simp only [if_pos h8]
          obtain ⟨hm, hp⟩ := hgood (.integer (i64OfBytes (a.take 8))) (by simp [parseValue, h8])
          exact Yields.setting hm rfl hp fun w => by cases w <;> first | exact .inl rfl | exact .inr rfl
        · simp only [if_neg h8]
          exact hbad (by simp [parseValue]; omega)
      | string =>
        simp only [setString, ha, Option.bind_some, convStr]
        cases hb : fromUtf8 a with
        | none => exact hbad (by simp [parseValue, hb])
        | some b =>
          obtain ⟨hm, hp⟩ := hgood (.string b) (by simp [parseValue, hb])
          exact Yields.setting hm rfl hp fun w => by cases w <;> first | exact .inl rfl | exact .inr rfl
      | list =>
        simp only [setList, has, Prog.orErr]
        obtain ⟨hm, hp⟩ := hgood (.list (a :: items)) rfl
        exact Yields.setting hm rfl hp fun w => by cases w <;> first | exact .inl rfl | exact .inr rfl
      | map =>
        simp only [setMap, has, Option.map_some, Prog.orErr]
        obtain ⟨hm, hp⟩ := hgood (.map (convMap (a :: items))) rfl
        refine Yields.setting hm rfl hp fun w => ?_
        cases w <;> first | exact .inr rfl | skip
        left
        dsimp only [Response.writeValue]
        cases Response.writeMap env resp (convMap (a :: items)) <;> rfl
      | set =>
        simp only [setSet, has, Option.map_some, Prog.orErr]
        obtain ⟨hm, hp⟩ := hgood (.set (convSet (a :: items))) rfl
        refine Yields.setting hm rfl hp fun w => ?_
        cases w <;> first | exact .inr rfl | skip
        left
        dsimp only [Response.writeValue]
        cases Response.writeSet env resp (convSet (a :: items)) <;> rfl
  case stats =>
    unfold dispatchStats
    rw [hv.keyType]
    cases kt with
    | some t => exact foreseen_malformed (by simp [malformed, wrong])
    | none =>
      refine Yields.statsLoop _ (by decide) _ fun ctrs => ?_
      exact Eq.mpr (congrArg (fun m => Foreseen env ⟨.stats, none, args⟩ resp (.ofOption (Response.writeMap env resp m)))
        (statistics_eq ctrs)) (foreseen_write (v := .map _) (by simp [malformed, wrong]) ⟨ctrs, rfl⟩)
  case type =>
    unfold dispatchType
    rw [key_eq hv (by decide), hv.keyType]
    cases args with
    | nil => exact foreseen_malformed (by simp [malformed, wrong])
    | cons k items =>
      cases kt with
      | some t => exact foreseen_malformed (by simp [malformed, wrong])
      | none =>
        intro o
        cases o with
        | none => exact foreseen_err (by simp [malformed, wrong]) (by simp [mayFail])
        | some v => exact ⟨by simp [malformed, wrong], _, ⟨v.kind, rfl⟩, rfl⟩

theorem Yields.dispatch (hv : Views r c.cmd c.kt c.args) : Yields (Foreseen env c resp) (dispatch env r resp) := by
  refine (Yields.command hv).andThen fun o ho => ?_
  cases o with
  | ok out =>
    intro n
    dsimp only
    cases addU env.mode 64 (n.getD 0) 1 with
    | none => trivial
    | some _ => exact ho
  | err e =>
    intro n
    dsimp only
    cases addU env.mode 64 (n.getD 0) 1 with
    | none => trivial
    | some _ => exact ho
  | panic => trivial
  | stuck => exact ho

/-- C111. Whatever other threads do to the database, a request that finishes is answered a value its command
promises, encoded after the bytes already in the buffer, or one of the errors of its command (or it panics);
if it is wrong in itself, only the error that says so. -/
theorem C111_answers (hv : Views r c.cmd c.kt c.args) (p : Pool Bytes) (i : Nat)
    (hi : p.threads[i]? = some (dispatch env r resp)) (sched : List Nat) (o : Outcome DispatchError Bytes)
    (ho : (p.exec sched).threads[i]? = some (.done o)) : Foreseen env c resp o :=
  Yields.exec (Q := Foreseen env c resp) (fun t ht => by rw [hi] at ht; cases ht; exact Yields.dispatch hv) sched _ ho

theorem command_malformed (hv : Views r c.cmd c.kt c.args) {e : DispatchError} (hm : malformed c = some e) :
    command env r resp = .done (.err e) := by
  obtain ⟨cmd, kt, args⟩ := c
  dsimp only at hv
  unfold command
  rw [hv.command]
  cases cmd <;> dsimp only
  case append =>
    unfold dispatchAppend
    rw [hv.arg, argsFrom_eq hv]
    cases args with
    | nil => simp [malformed, wrong] at hm; subst hm; rfl
    | cons k items =>
      simp only [List.getElem?_cons_zero, orErr, List.cons_ne_nil, if_false, resolveKeyType, hv.keyType]
      cases kt with
      | none => simp [malformed, wrong] at hm
      | some t => cases t <;> simp [malformed, wrong] at hm <;> (subst hm; rfl)
  case increment | decrement =>
    all_goals
      first | unfold dispatchIncrement | unfold dispatchDecrement
      rw [key_eq hv (by decide)]
      cases args with
      | nil => simp [malformed, wrong] at hm; subst hm; rfl
      | cons k items => simp [malformed, wrong] at hm
  case incrementBy | decrementBy =>
    all_goals
      first | unfold dispatchIncrementBy | unfold dispatchDecrementBy
      rw [key_eq hv (by decide), hv.arg]
      match args, hv with
      | [], _ => simp [malformed, wrong] at hm; subst hm; rfl
      | [k], _ => simp [malformed, wrong, noNumber] at hm; subst hm; rfl
      | k :: a :: items, hv =>
        simp only [List.getElem?_cons_zero, List.getElem?_cons_succ, orErr, Option.bind_some, convInt_eq, convFloat_eq]
        simp [malformed, wrong, noNumber] at hm
        rw [if_neg (by omega), if_neg (by omega), ← hm.2]; rfl
  case delete =>
    unfold dispatchDelete
    rw [key_eq hv (by decide), hv.keyType]
    cases kt with
    | some t => simp [malformed, wrong] at hm; subst hm; rfl
    | none =>
      cases args with
      | nil => simp [malformed, wrong] at hm; subst hm; rfl
      | cons k items => simp [malformed, wrong] at hm
  case echo => simp [malformed] at hm
  case «exists» =>
    unfold dispatchExists
    rw [argsFrom_eq hv, hv.keyType]
    cases kt with
    | some t => simp [malformed, wrong] at hm; subst hm; rfl
    | none =>
      cases args with
      | nil => simp [malformed, wrong] at hm; subst hm; rfl
      | cons k items => simp [malformed, wrong] at hm
  case is =>
    unfold dispatchIs
    rw [argsFrom_eq hv, hv.keyType]
    cases kt with
    | none => simp [malformed, wrong] at hm; subst hm; rfl
    | some t =>
      cases args with
      | nil => simp [malformed, wrong] at hm; subst hm; rfl
      | cons k items => simp [malformed, wrong] at hm
  case get =>
    unfold dispatchGet
    rw [key_eq hv (by decide)]
    cases args with
    | nil => simp [malformed, wrong] at hm; subst hm; rfl
    | cons k items => simp [malformed, wrong] at hm
  case keys =>
    unfold dispatchKeys
    rw [key_eq hv (by decide)]
    cases args with
    | nil => simp [malformed, wrong] at hm; subst hm; rfl
    | cons k items =>
      simp only [List.getElem?_cons_zero, orErr, resolveKeyType, hv.keyType]
      cases kt with
      | none => simp [malformed, wrong] at hm
      | some t => cases t <;> simp [malformed, wrong] at hm <;> (subst hm; rfl)
  case length =>
    unfold dispatchLength
    rw [key_eq hv (by decide)]
    cases args with
    | nil => simp [malformed, wrong] at hm; subst hm; rfl
    | cons k items =>
      simp only [List.getElem?_cons_zero, orErr, resolveKeyType, hv.keyType]
      cases kt with
      | none => simp [malformed, wrong] at hm
      | some t => cases t <;> simp [malformed, wrong] at hm <;> (subst hm; rfl)
  case rename =>
    unfold dispatchRename
    rw [hv.arg, hv.arg, hv.keyType]
    cases kt with
    | some t => simp [malformed, wrong] at hm; subst hm; rfl
    | none =>
      match args with
      | [] => simp [malformed, wrong] at hm; subst hm; rfl
      | [k] => simp [malformed, wrong] at hm; subst hm; rfl
      | k :: k' :: items => simp [malformed, wrong] at hm
  case set =>
    unfold dispatchSet
    rw [key_eq hv (by decide), hv.arg]
    match args, hv with
    | [], _ => simp [malformed, wrong] at hm; subst hm; rfl
    | [k], _ => simp [malformed, wrong] at hm; subst hm; rfl
    | k :: a :: items, hv =>
      have ha : r.arg 1 = some a := by rw [hv.arg]; rfl
      simp only [List.getElem?_cons_zero, List.getElem?_cons_succ, orErr, Option.isNone_some, Bool.false_eq_true, if_false,
        resolveKeyType, hv.keyType]
      cases kt with
      | none => simp [malformed, wrong] at hm
      | some t =>
        simp [malformed, wrong] at hm
        obtain ⟨hp, rfl⟩ := hm
        cases t <;> simp [parseValue] at hp
        case boolean =>
          subst hp
          simp only [setBoolean, ha]; rfl
        case float => simp only [setFloat, ha, Option.bind_some, convFloat_eq]; rw [if_neg (by omega)]; rfl
        case integer => simp only [setInteger, ha, Option.bind_some, convInt_eq]; rw [if_neg (by omega)]; rfl
        case string => simp only [setString, ha, Option.bind_some, convStr, hp]; rfl
  case stats =>
    unfold dispatchStats
    rw [hv.keyType]
    cases kt with
    | some t => simp [malformed, wrong] at hm; subst hm; rfl
    | none => simp [malformed, wrong] at hm
  case type =>
    unfold dispatchType
    rw [key_eq hv (by decide), hv.keyType]
    cases args with
    | nil => simp [malformed, wrong] at hm; subst hm; rfl
    | cons k items =>
      cases kt with
      | some t => simp [malformed, wrong] at hm; subst hm; rfl
      | none => simp [malformed, wrong] at hm

/-- C111. A request that is wrong in itself makes a single operation, which changes no key: then it is finished,
with the error that says what is wrong (unless a debug build cannot count any more). -/
theorem C111_wrong (hv : Views r c.cmd c.kt c.args) {e : DispatchError} (hm : malformed c = some e) (p : Pool Bytes) (i : Nat)
    (hi : p.threads[i]? = some (dispatch env r resp)) :
    (p.stepAt i).db.keys = p.db.keys ∧
      (env.mode = .release ∨ Roomy 1 p.db.ctrs → (p.stepAt i).threads[i]? = some (.done (.err e))) := by
  obtain ⟨h1, h2⟩ := Pool.stepAt_self hi
  rw [h1, h2, dispatch, command_malformed hv hm]
  refine ⟨rfl, fun hr => ?_⟩
  simp only [Prog.andThen, countOutcome, incrementMetric, Prog.step]
  have : addU env.mode 64 ((p.db.ctrs .commandsErrored).getD 0) 1 ≠ none := by
    rcases hr with hr | hr
    · rw [hr, addU_release]; simp
    · have := hr .commandsErrored
      rw [addU_of_lt (by simpa using this)]; simp
  cases h : addU env.mode 64 ((p.db.ctrs .commandsErrored).getD 0) 1 with
  | none => exact absurd h this
  | some n => rfl

/-- What an Append of a list may answer. -/
example : failures ⟨.append, some .list, [[97], [1]]⟩ = [.keyTypeDifferent] ∧
    Promised (sampleEnv .debug) ⟨.append, some .list, [[97], [1]]⟩ (.list [[7], [1]]) ∧
    ¬ Promised (sampleEnv .debug) ⟨.append, some .list, [[97], [1]]⟩ (.list [[7]]) := by
  refine ⟨by decide, ⟨.list [[7]], rfl, by decide⟩, ?_⟩
  rintro ⟨old, h, -⟩
  cases old <;> simp [appended] at h
  rename_i l
  cases l <;> simp at h

/-- How a thread has ended. -/
def endOf {α} (p : Pool α) (i : Nat) : Option (Outcome DispatchError α) :=
  match p.threads[i]? with
  | some (.done o) => some o
  | _ => none

theorem endOf_eq {α} {p : Pool α} {i : Nat} {o : Outcome DispatchError α} (h : endOf p i = some o) :
    p.threads[i]? = some (.done o) := by
  unfold endOf at h
  split at h
  · cases h; assumption
  · cases h

/-- An Append to a key that another client turns from a list into bytes between the look at its type and the
modification: the answer is its only error. -/
example : let p : Pool Bytes := ⟨[dispatch (sampleEnv .debug) (call .append none [[108], [1]]) [9],
      insertKey [108] (.bytes [5]) (.done (.ok []))], sampleDb [([108], .list [])]⟩
    endOf (p.exec [0, 1, 0, 0]) 0 = some (.err .keyTypeDifferent) ∧
    Foreseen (sampleEnv .debug) ⟨.append, none, [[108], [1]]⟩ [9] (.err .keyTypeDifferent) := by
  intro p
  have h : endOf (p.exec [0, 1, 0, 0]) 0 = some (.err .keyTypeDifferent) := by decide +kernel
  exact ⟨h, C111_answers (c := ⟨.append, none, [[108], [1]]⟩)
    (call_views .append none [[108], [1]] (by decide) (by decide) (by decide)) p 0 rfl _ _ (endOf_eq h)⟩

/-- An Increment without a key. -/
example : malformed ⟨.increment, none, []⟩ = some .keyUnspecified ∧
    ((Pool.mk [dispatch (sampleEnv .debug) (call .increment none []) [9]] (sampleDb [])).stepAt 0).threads[0]? =
      some (.done (.err .keyUnspecified)) :=
  ⟨by decide, (C111_wrong (c := ⟨.increment, none, []⟩)
    (call_views .increment none [] (by decide) (by decide) (by decide)) rfl _ 0 rfl).2
    (.inr (sampleDb_roomy [] 1 (by decide)))⟩

end

end Hop
