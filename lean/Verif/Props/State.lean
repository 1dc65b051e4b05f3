import Verif.Model.State
import Verif.Lemmas.Engine
import Verif.Spec.Sample

/-! # C81 and C82: the key space as a library -/

namespace Hop

open Spec Prog

namespace State

/-- The key an operation is about. -/
def Op.key : Op → Bytes
  | .containsKey k | .insert k _ | .remove k | .keyRef k | .keyMut k _ | .keyOrInsertWith k _ _ | .keyType k => k

/-- The functions that hand out a guard. -/
def Op.guarded : Op → Bool
  | .keyRef _ | .keyMut _ _ | .keyOrInsertWith _ _ _ => true
  | _ => false

/-- What an operation answers about the value stored under its key (if any). -/
def Op.answer (o : Op) (old : Option Value) : Ans :=
  match o with
  | .containsKey _ => .bool old.isSome
  | .insert _ _ | .remove _ | .keyRef _ | .keyMut _ _ => .value old
  | .keyOrInsertWith _ mk _ => .value (some (old.getD mk))
  | .keyType _ => .type (old.map Value.kind)

/-- What is stored under its key afterwards. -/
def Op.result (o : Op) (old : Option Value) : Option Value :=
  match o with
  | .insert _ v => some v
  | .remove _ => none
  | .keyMut _ f => old.map f
  | .keyOrInsertWith _ mk f => some (f (old.getD mk))
  | _ => old

/-- Do all of a history. -/
def runAll (env : Env) : List Op → Db → List (Outcome DispatchError Ans) × Db
  | [], db => ([], db)
  | o :: os, db =>
    let x := (o.prog env).run db
    let y := runAll env os x.2
    (x.1 :: y.1, y.2)

/-- The key was asked for through a guard, and begins with `__hop__:`, or is empty in a debug build. -/
def Op.refused (mode : Mode) (o : Op) : Prop := o.guarded = true ∧ unusable mode o.key

instance (mode : Mode) (o : Op) : Decidable (o.refused mode) := by
  unfold Op.refused unusable reserved; infer_instance

/-- A map from keys to values, doing all of a history. -/
def specAll (mode : Mode) : List Op → (Bytes → Option Value) → List (Outcome DispatchError Ans) × (Bytes → Option Value)
  | [], s => ([], s)
  | o :: os, s =>
    if o.refused mode then
      let y := specAll mode os s
      (.panic :: y.1, y.2)
    else
      let y := specAll mode os fun k => if k = o.key then o.result (s k) else s k
      (.ok (o.answer (s o.key)) :: y.1, y.2)

theorem run_op (env : Env) (o : Op) (db : Db) :
    (o.prog env).run db = if o.refused env.mode then (.panic, db)
      else (.ok (o.answer (db.keys o.key)), db.setKey o.key (o.result (db.keys o.key))) := by
  cases o with
  | containsKey k =>
    rw [if_neg (by simp [Op.refused, Op.guarded])]
    simp [Op.prog, run_containsKey, run_done, Op.answer, Op.result, Op.key, Db.setKey_self]
  | insert k v =>
    rw [if_neg (by simp [Op.refused, Op.guarded])]; rfl
  | remove k =>
    rw [if_neg (by simp [Op.refused, Op.guarded])]; rfl
  | keyType k =>
    rw [if_neg (by simp [Op.refused, Op.guarded])]
    simp [Op.prog, run_keyTypeOf, run_done, Op.answer, Op.result, Op.key, Db.setKey_self]
  | keyRef k =>
    simp only [Op.prog, run_keyRef, run_done, Op.answer, Op.result, Op.key, Db.setKey_self]
    by_cases h : unusable env.mode k
    · rw [if_pos h, if_pos ⟨rfl, h⟩]
    · rw [if_neg h, if_neg (fun x => h x.2)]
  | keyMut k f =>
    simp only [Op.prog, Op.answer, Op.result, Op.key]
    by_cases h1 : isInternal k = true
    · rw [if_pos h1, if_pos ⟨rfl, Or.inl ((isInternal_iff k).mp h1)⟩]; rfl
    · rw [if_neg h1]
      by_cases h2 : env.mode = .debug ∧ k = []
      · rw [if_pos h2, if_pos ⟨rfl, Or.inr h2⟩]; rfl
      · rw [if_neg h2, if_neg (fun x => x.2.elim (fun h => h1 ((isInternal_iff k).mpr h)) h2)]; rfl
  | keyOrInsertWith k mk f =>
    simp only [Op.prog, run_keyOrInsertWith, Op.answer, Op.result, Op.key]
    by_cases h : unusable env.mode k
    · rw [if_pos h, if_pos ⟨rfl, h⟩]
    · rw [if_neg h, if_neg (fun x => h x.2)]

end State

open State in
/-- **C81.** The key space is a map: for every history of calls of its public functions, from any
contents, the answers and the contents afterwards are those of a function from keys to values that is
updated at one key at a time, except that the functions that hand out a guard panic (and change nothing)
for keys that begin with `__hop__:` and, in debug builds, for the empty key. -/
theorem C81_is_a_map (env : Env) (h : List State.Op) (db : Db) :
    (runAll env h db).1 = (specAll env.mode h db.keys).1 ∧
    (runAll env h db).2.keys = (specAll env.mode h db.keys).2 ∧
    (runAll env h db).2.ctrs = db.ctrs := by
  induction h generalizing db with
  | nil => exact ⟨rfl, rfl, rfl⟩
  | cons o h ih =>
    simp only [runAll, specAll, run_op]
    by_cases hr : o.refused env.mode
    · rw [if_pos hr, if_pos hr]
      obtain ⟨i1, i2, i3⟩ := ih db
      exact ⟨by simp only [i1], i2, i3⟩
    · rw [if_neg hr, if_neg hr]
      obtain ⟨i1, i2, i3⟩ := ih (db.setKey o.key (o.result (db.keys o.key)))
      have hk : (db.setKey o.key (o.result (db.keys o.key))).keys =
          fun k => if k = o.key then o.result (db.keys k) else db.keys k := by
        funext k
        simp only [Db.setKey]
        split
        · subst_vars; rfl
        · rfl
      rw [hk] at i1 i2
      exact ⟨by simp only [i1], i2, i3⟩

example : (State.runAll (sampleEnv .debug) [.insert [1] (.integer 5), .keyMut [1] (fun _ => .integer 6),
    .keyOrInsertWith [2] (.boolean true) id, .remove [1], .keyType [2], .keyRef []] Db.empty).1 =
    [.ok (.value none), .ok (.value (some (.integer 5))), .ok (.value (some (.boolean true))),
      .ok (.value (some (.integer 6))), .ok (.type (some .boolean)), .panic] := by decide +kernel

/-- **C82 as one would want it:** no function of the key space gives access to an internal key. -/
def C82_Statement : Prop :=
  ∀ (env : Env) (o : State.Op) (db : Db), reserved o.key → (o.prog env).run db = (.panic, db)

/-- **C82, what holds:** those that hand out a guard do not, and leave everything as it was. Missing:
`contains_key`, `insert`, `remove` and `key_type`, which treat internal keys like others (`C82_open`). -/
theorem C82_guarded_partial (env : Env) (o : State.Op) (db : Db) (hr : reserved o.key) (hg : o.guarded = true) :
    (o.prog env).run db = (.panic, db) := by
  rw [State.run_op, if_pos ⟨hg, Or.inl hr⟩]

/-- The others answer about, store and remove internal keys. -/
theorem C82_open (env : Env) (k : Bytes) (v : Value) (db : Db) :
    ((State.Op.insert k v).prog env).run db = (.ok (.value (db.keys k)), db.setKey k (some v)) ∧
    ((State.Op.remove k).prog env).run db = (.ok (.value (db.keys k)), db.setKey k none) ∧
    ((State.Op.containsKey k).prog env).run db = (.ok (.bool (db.keys k).isSome), db) ∧
    ((State.Op.keyType k).prog env).run db = (.ok (.type ((db.keys k).map Value.kind)), db) := by
  refine ⟨rfl, rfl, ?_, ?_⟩
  · simp [State.Op.prog, run_containsKey, run_done]
  · simp [State.Op.prog, run_keyTypeOf, run_done]

theorem C82_false : ¬ C82_Statement := by
  intro h
  have := h (sampleEnv .debug) (.remove (ascii "__hop__:a")) Db.empty (by unfold reserved State.Op.key; decide +kernel)
  rw [(C82_open _ _ (.boolean true) _).2.1] at this
  cases congrArg Prod.fst this

example : reserved (State.Op.keyRef (ascii "__hop__:a")).key ∧ (State.Op.keyRef (ascii "__hop__:a")).guarded = true :=
  ⟨by unfold reserved State.Op.key; decide +kernel, rfl⟩

/-! ## A further concrete case -/

example (db : Db) : ((State.Op.keyMut (ascii "__hop__:a") fun _ => .integer 6).prog (sampleEnv .release)).run db = (.panic, db) :=
  C82_guarded_partial _ _ db (by decide) rfl

end Hop
