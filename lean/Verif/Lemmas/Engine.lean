import Verif.Lemmas.Builder
import Verif.Lemmas.Bytes
import Verif.Model.Dispatch
import Verif.Spec.Store

/-! # Sequential execution of the command programs -/

namespace Hop

open Spec Prog

/-! ## Databases -/

theorem Db.setKey_self (db : Db) (k : Bytes) : db.setKey k (db.keys k) = db := by
  cases db with
  | mk keys ctrs =>
    simp only [Db.setKey, Db.mk.injEq, and_true]
    funext k'
    split
    · subst_vars; rfl
    · rfl

theorem Db.setKey_setKey (db : Db) (k : Bytes) (v w : Option Value) :
    (db.setKey k v).setKey k w = db.setKey k w := by
  simp only [Db.setKey, Db.mk.injEq, and_true]
  funext k'
  split <;> rfl

theorem Db.setKey_keys_self (db : Db) (k : Bytes) (v : Option Value) : (db.setKey k v).keys k = v := by
  simp [Db.setKey]

theorem Db.setKey_keys_ne (db : Db) {k k' : Bytes} (v : Option Value) (h : k' ≠ k) :
    (db.setKey k v).keys k' = db.keys k' := by
  simp [Db.setKey, h]

theorem Db.setKey_ctrs (db : Db) (k : Bytes) (v : Option Value) : (db.setKey k v).ctrs = db.ctrs := rfl

theorem Db.setKey_eq (db : Db) (k : Bytes) (v : Option Value) :
    db.setKey k v = { keys := Store.put db.keys k v, ctrs := db.ctrs } := rfl

theorem Db.setCtr_self (db : Db) (m : Metric) : db.setCtr m (db.ctrs m) = db := by
  cases db with
  | mk keys ctrs =>
    simp only [Db.setCtr, Db.mk.injEq, true_and]
    funext k'
    split
    · subst_vars; rfl
    · rfl

/-! ## Running programs -/

theorem run_andThen {α β} (p : Prog α) (f : Outcome DispatchError α → Prog β) (db : Db) :
    (p.andThen f).run db = (f (p.run db).1).run (p.run db).2 := by
  induction p generalizing db with
  | done r => rfl
  | onKey k upd next ih => simp only [andThen, run]; exact ih _ _
  | onCtr m upd next ih => simp only [andThen, run]; exact ih _ _

theorem run_done {α} (r : Outcome DispatchError α) (db : Db) : (done r).run db = (r, db) := rfl

theorem run_fail {α} (e : DispatchError) (db : Db) : (fail e : Prog α).run db = (.err e, db) := rfl

theorem run_readKey {α} (k : Bytes) (next : Option Value → Prog α) (db : Db) :
    (readKey k next).run db = (next (db.keys k)).run db := by
  simp only [readKey, run, Db.setKey_self]

theorem run_readCtr {α} (m : Metric) (next : Option Nat → Prog α) (db : Db) :
    (readCtr m next).run db = (next (db.ctrs m)).run db := by
  simp only [readCtr, run, Db.setCtr_self]

theorem run_orErr {α β} (o : Option α) (e : DispatchError) (f : α → Prog β) (db : Db) :
    (orErr o e f).run db = match o with
      | none => (.err e, db)
      | some a => (f a).run db := by
  cases o <;> rfl

theorem run_containsKey {α} (k : Bytes) (next : Bool → Prog α) (db : Db) :
    (containsKey k next).run db = (next (db.keys k).isSome).run db := by
  simp only [containsKey, run_readKey]

theorem run_keyTypeOf {α} (k : Bytes) (next : Option KeyType → Prog α) (db : Db) :
    (keyTypeOf k next).run db = (next ((db.keys k).map Value.kind)).run db := by
  simp only [keyTypeOf, run_readKey]

theorem run_insertKey {α} (k : Bytes) (v : Value) (next : Prog α) (db : Db) :
    (insertKey k v next).run db = next.run (db.setKey k (some v)) := rfl

theorem run_removeKey {α} (k : Bytes) (next : Option Value → Prog α) (db : Db) :
    (removeKey k next).run db = (next (db.keys k)).run (db.setKey k none) := rfl

theorem isInternal_iff (k : Bytes) : isInternal k = true ↔ reserved k := by
  have h : ascii "__hop__:" = internalPrefix := by decide +kernel
  simp only [isInternal, reserved, h, List.isPrefixOf_iff_prefix]
  constructor
  · rintro ⟨t, rfl⟩
    simp [internalPrefix]
  · intro h'
    rw [← h']
    exact List.take_prefix 8 k

theorem run_keyRef {α} (env : Env) (k : Bytes) (next : Option Value → Prog α) (db : Db) :
    (keyRef env k next).run db =
      if unusable env.mode k then (.panic, db) else (next (db.keys k)).run db := by
  unfold keyRef
  by_cases h1 : isInternal k = true
  · rw [if_pos h1, if_pos (show unusable env.mode k from Or.inl ((isInternal_iff k).mp h1))]; rfl
  · rw [if_neg h1]
    have h1' := fun h => h1 ((isInternal_iff k).mpr h)
    by_cases h2 : env.mode = .debug ∧ k = []
    · rw [if_pos h2, if_pos (show unusable env.mode k from Or.inr h2)]; rfl
    · rw [if_neg h2, if_neg (fun h : unusable env.mode k => h.elim h1' h2), run_readKey]

/-- Alone, `key_or_insert_with` and the use of the guard come down to one update. -/
theorem run_keyOrInsertWith {α} (env : Env) (k : Bytes) (mk : Value)
    (body : Value → Value × Outcome DispatchError α) (db : Db) :
    (keyOrInsertWith env k mk body).run db =
      if unusable env.mode k then (.panic, db)
      else ((body ((db.keys k).getD mk)).2, db.setKey k (some (body ((db.keys k).getD mk)).1)) := by
  unfold keyOrInsertWith
  by_cases h1 : isInternal k = true
  · rw [if_pos h1, if_pos (show unusable env.mode k from Or.inl ((isInternal_iff k).mp h1))]; rfl
  · rw [if_neg h1]
    have h1' := fun h => h1 ((isInternal_iff k).mpr h)
    by_cases h2 : env.mode = .debug ∧ k = []
    · rw [if_pos h2, if_pos (show unusable env.mode k from Or.inr h2)]; rfl
    · rw [if_neg h2, if_neg (fun h : unusable env.mode k => h.elim h1' h2)]
      cases hk : db.keys k with
      | some v =>
        simp only [keyOrInsertLoop, run, hk, Option.map_some, Option.getD_some]
      | none =>
        simp only [keyOrInsertLoop, run, hk, insertKey, Option.map_none, Db.setKey_keys_self, Option.map_some,
          Db.setKey_setKey, Option.getD_none]

theorem run_resolveKeyType {α} (req : Request) (k : Bytes) (dflt : KeyType) (next : KeyType → Prog α) (db : Db) :
    (resolveKeyType req k dflt next).run db = (next (effectiveType req.keyType (db.keys k) dflt)).run db := by
  unfold resolveKeyType
  cases hk : req.keyType with
  | some t => simp [effectiveType]
  | none =>
    simp only [run_keyTypeOf]
    cases db.keys k <;> simp [effectiveType]

theorem run_allExist {α} (next : Bool → Prog α) (ks : List Bytes) (db : Db) :
    (allExist next ks).run db = (next (ks.all fun k => (db.keys k).isSome)).run db := by
  induction ks with
  | nil => rfl
  | cons k ks ih =>
    simp only [allExist, run_containsKey, List.all_cons]
    cases (db.keys k).isSome <;> simp [ih]

theorem run_allAre {α} (t : KeyType) (next : Bool → Prog α) (ks : List Bytes) (db : Db) :
    (allAre t next ks).run db =
      (next (ks.all fun k => (db.keys k).map Value.kind = some t)).run db := by
  induction ks with
  | nil => rfl
  | cons k ks ih =>
    simp only [allAre, run_keyTypeOf, List.all_cons]
    cases db.keys k with
    | none => simp
    | some v =>
      by_cases hv : v.kind = t
      · simp [hv, ih]
      · simp [hv]

theorem run_statsLoop {α} (next : BMap → Prog α) (db : Db) (cs : List Metric) (m : BMap) :
    (statsLoop next cs m).run db = (next (cs.foldl (fun (m : BMap) c => match db.ctrs c with
      | some n => if n < 2 ^ 63 then m.insert (ascii c.name) (i64Bytes (Int64.ofNat n)) else m
      | none => m) m)).run db := by
  induction cs generalizing m with
  | nil => rfl
  | cons c cs ih =>
    simp only [statsLoop, run_readCtr, List.foldl_cons]
    cases db.ctrs c with
    | none => simp only [ih]
    | some n =>
      simp only
      split
      · simp only [ih]
      · simp only [ih]

theorem i64Bytes_ofNat (n : Nat) (h : n < 2 ^ 63) : i64Bytes (Int64.ofNat n) = beBytes 8 n := by
  unfold i64Bytes
  congr 1
  show n % 2 ^ 64 = n
  omega

theorem statistics_eq (ctrs : Metric → Option Nat) :
    statsCounters.foldl (fun (m : BMap) c => match ctrs c with
      | some n => if n < 2 ^ 63 then m.insert (ascii c.name) (i64Bytes (Int64.ofNat n)) else m
      | none => m) [] = statistics ctrs := by
  have e1 : ascii "commands_errored" ≠ ascii "commands_successful" := by decide +kernel
  have e2 : ascii "commands_errored" ≠ ascii "sessions_started" := by decide +kernel
  have e3 : ascii "commands_successful" ≠ ascii "sessions_started" := by decide +kernel
  simp only [statsCounters, statistics, List.foldl_cons, List.foldl_nil, List.filterMap_cons,
    List.filterMap_nil, Metric.name]
  have h : ∀ (m : Metric) (mp : BMap) (k : Bytes),
      (match ctrs m with
        | some n => if n < 2 ^ 63 then mp.insert k (i64Bytes (Int64.ofNat n)) else mp
        | none => mp) = (match reported ctrs m with | some v => mp.insert k v | none => mp) := by
    intro m mp k
    unfold reported
    cases ctrs m with
    | none => rfl
    | some n =>
      by_cases hn : n < 2 ^ 63
      · simp only [if_pos hn, i64Bytes_ofNat n hn]
      · simp only [if_neg hn]
  simp only [h]
  cases reported ctrs .commandsErrored <;> cases reported ctrs .commandsSuccessful <;>
    cases reported ctrs .sessionsStarted <;> simp [BMap.insert, e1, e2, e3]

/-! ## Arguments -/

theorem convBool_eq (a : Bytes) : (convBool a).map Value.boolean = a.head?.map fun b => .boolean (b != 0) := by
  cases a with
  | nil => rfl
  | cons b _ =>
    simp only [convBool, List.head?_cons, Option.map_some, Option.some.injEq, Value.boolean.injEq]
    by_cases h : b = 0
    · subst h; decide
    · have : b > 0 := by
        rw [gt_iff_lt, UInt8.lt_iff_toNat_lt]
        have : b.toNat ≠ 0 := fun h' => h (UInt8.toNat_inj.mp (by simpa using h'))
        simp; omega
      simp [h, this]

theorem convInt_eq (a : Bytes) : convInt a = if 8 ≤ a.length then some (i64OfBytes (a.take 8)) else none := by
  simp only [convInt, slice]
  by_cases h : 8 ≤ a.length <;> simp [h]

theorem convFloat_eq (a : Bytes) :
    convFloat a = if 8 ≤ a.length then some (F64.ofBytes (a.take 8)) else none := by
  simp only [convFloat, slice]
  by_cases h : 8 ≤ a.length <;> simp [h]

theorem key_eq {r : Request} {c kt args} (h : Views r c kt args) (hc : c.keyNotation ≠ .none) :
    r.key = args[0]? := by
  unfold Request.key
  rw [h.command, if_neg hc, h.arg]

theorem pushStrs_eq (t : List Char) (items : List Bytes) :
    pushStrs t items = t ++ (items.filterMap fromUtf8).flatten := by
  unfold pushStrs
  induction items generalizing t with
  | nil => simp
  | cons a as ih =>
    simp only [List.foldl_cons, ih, List.filterMap_cons]
    cases fromUtf8 a <;> simp

theorem foldl_append (b : Bytes) (items : List Bytes) :
    items.foldl (fun acc a => acc ++ a) b = b ++ items.flatten := by
  induction items generalizing b with
  | nil => simp
  | cons a as ih => simp [ih]

/-! ## Integers -/

theorem addI64_eq (m : Mode) (a b : Int64) :
    addI64 m a b = if inRange (a.toInt + b.toInt) ∨ m = .release then some (Int64.ofInt (a.toInt + b.toInt))
      else none := by
  have hs : a + b = Int64.ofInt (a.toInt + b.toInt) := by
    rw [Int64.ofInt_add, Int64.ofInt_toInt, Int64.ofInt_toInt]
  have hr : (a + b).toInt = a.toInt + b.toInt ↔ inRange (a.toInt + b.toInt) := by
    constructor
    · intro h
      rw [← h]
      exact ⟨Int64.le_toInt _, Int64.toInt_lt _⟩
    · rintro ⟨h1, h2⟩
      rw [hs, Int64.toInt_ofInt_of_le h1 (by simpa using h2)]
  unfold addI64
  by_cases h : inRange (a.toInt + b.toInt)
  · rw [if_pos (hr.mpr h), if_pos (Or.inl h), hs]
  · rw [if_neg (fun h' => h (hr.mp h'))]
    cases m
    · rw [if_neg (fun h' => h'.elim h (by simp))]
    · rw [if_pos (Or.inr rfl), hs]

theorem negI64_eq (m : Mode) (a : Int64) :
    negI64 m a = if m = .debug ∧ a.toInt = -2 ^ 63 then none else some (Int64.ofInt (-a.toInt)) := by
  have hs : 0 - a = Int64.ofInt (-a.toInt) := by
    rw [Int64.ofInt_neg, Int64.ofInt_toInt]; simp
  have h1 := Int64.le_toInt a
  have h2 := Int64.toInt_lt a
  have hr : (0 - a).toInt = 0 - a.toInt ↔ a.toInt ≠ -2 ^ 63 := by
    constructor
    · intro h h'
      have h3 := Int64.toInt_lt (0 - a)
      rw [h, h'] at h3
      omega
    · intro h
      rw [hs, Int64.toInt_ofInt_of_le (by omega) (by omega)]
      omega
  unfold negI64
  by_cases h : a.toInt = -2 ^ 63
  · rw [if_neg (fun h' => (hr.mp h') h)]
    cases m
    · rw [if_pos ⟨rfl, h⟩]
    · rw [if_neg (by simp), hs]
  · rw [if_pos (hr.mpr h), if_neg (by rintro ⟨-, h'⟩; exact h h'), hs]

end Hop
