import Verif.Lemmas.Calls
import Verif.Props.Store

/-! # Properties of single commands: C17 - C23 -/

namespace Hop

open Spec

/-! ## C17 Set then get returns the value that was set -/

/-- C17. After any successful Set (any request accepted by Set, any previous database): the value read from
the request is stored, Get (untyped or with its type) answers the very bytes Set answered, Type its type
code and Exists true. -/
theorem C17_set_then_get {env : Env} {r : Request} {kt : Option KeyType} {k : Bytes} {items : List Bytes}
    (hv : Views r .set kt (k :: items)) (resp : Bytes) (db db' : Db) (out : Bytes) (hc : Roomy 2 db.ctrs)
    (hs : (dispatch env r resp).run db = (.ok out, db')) :
    ∃ (t : KeyType) (v : Value) (f : Bytes),
      t = kt.getD (((db.keys k).map Value.kind).getD .bytes) ∧ readValue r t = some v ∧ v.kind = t ∧
      db'.keys k = some v ∧ out = resp ++ f ∧
      (Deliverable env.mode (.value v) → f = frame (ordered env (.value v))) ∧
      (∀ (g : Request) (resp' : Bytes) (kt' : Option KeyType) (more : List Bytes),
        Views g .get kt' (k :: more) → kt' = none ∨ kt' = some t →
        ((dispatch env g resp').run db').1 = .ok (resp' ++ f)) ∧
      (∀ (g : Request) (resp' : Bytes) (kt' : Option KeyType) (more : List Bytes),
        Views g .get kt' (k :: more) → kt' ≠ none → kt' ≠ some t →
        ((dispatch env g resp').run db').1 = .err .keyTypeDifferent) ∧
      (∀ (g : Request) (resp' : Bytes) (more : List Bytes), Views g .type none (k :: more) →
        ((dispatch env g resp').run db').1 =
          .ok (resp' ++ frame (.value (.integer (Int64.ofNat t.toByte.toNat))))) ∧
      (∀ (g : Request) (resp' : Bytes), Views g .exists none [k] →
        ((dispatch env g resp').run db').1 = .ok (resp' ++ frame (.value (.boolean true)))) := by
  obtain ⟨v, hx, hw, hcs⟩ := dispatch_ok hv (Roomy.mono hc (by omega)) hs
  have hc' : Roomy 1 db'.ctrs := by rw [hcs]; exact Roomy.counted hc _
  obtain ⟨f, rfl, hf⟩ := writeValue_some hw
  cases items with
  | nil => simp [execute] at hx
  | cons a items =>
    have ht : effectiveType kt (db.keys k) .bytes = kt.getD (((db.keys k).map Value.kind).getD .bytes) := by
      cases kt <;> cases db.keys k <;> rfl
    simp only [execute, ht] at hx
    cases hp : parseValue (kt.getD (((db.keys k).map Value.kind).getD .bytes)) (a :: items) with
    | none => rw [hp] at hx; simp at hx
    | some w =>
      rw [hp] at hx
      dsimp only at hx
      by_cases hu : unusable env.mode k
      · rw [if_pos hu] at hx; simp at hx
      · rw [if_neg hu] at hx
        simp only [Prod.mk.injEq, Answer.value.injEq] at hx
        obtain ⟨rfl, hk⟩ := hx
        have hkv : db'.keys k = some w := by rw [← hk]; exact put_apply_self _ _ _
        have hkind := parseValue_kind hp
        refine ⟨_, w, f, rfl, by rw [readValue_eq hv]; exact hp, hkind, hkv, rfl, ?_, ?_, ?_, ?_, ?_⟩
        · intro hd
          have := writeValue_deliverable hd resp
          rw [hw] at this
          simpa using this
        · intro g resp' kt' more hg hkt
          have hx : execute env db'.ctrs .get kt' (k :: more) db'.keys = (.value w, db'.keys) := by
            simp only [execute, if_neg hu, hkv]
            rw [hkind, if_pos hkt]
          rw [dispatch_value hg resp' db' hc' hx (hf resp')]
        · intro g resp' kt' more hg hn ht'
          have hx : execute env db'.ctrs .get kt' (k :: more) db'.keys = (.error .keyTypeDifferent, db'.keys) := by
            simp only [execute, if_neg hu, hkv]
            rw [hkind, if_neg (by simp [hn, ht'])]
          rw [dispatch_error hg resp' db' hc' hx]
        · intro g resp' more hg
          have hx : execute env db'.ctrs .type none (k :: more) db'.keys =
              (.value (.integer (Int64.ofNat w.kind.toByte.toNat)), db'.keys) := by
            simp [execute, hkv]
          rw [dispatch_value hg resp' db' hc' hx (writeValue_deliverable (deliverable_int _ _) resp'), hkind]
          rfl
        · intro g resp' hg
          have hx : execute env db'.ctrs .exists none [k] db'.keys = (.value (.boolean true), db'.keys) := by
            simp [execute, hkv]
          rw [dispatch_value hg resp' db' hc' hx (writeValue_deliverable (deliverable_bool _ _) resp')]
          rfl

/-- Beside C17: a list replaces a string. -/
example : ∃ out db', (dispatch (sampleEnv .debug) (call .set (some .list) [[107], [1], [2, 3]]) []).run
      (sampleDb [([107], .string ['a'])]) = (.ok out, db') ∧
    ((dispatch (sampleEnv .debug) (call .get none [[107]]) [7]).run db').1 = .ok ([7] ++ out) := by
  refine ⟨[0, 0, 0, 14, 4, 0, 2, 0, 0, 0, 1, 1, 0, 0, 0, 2, 2, 3],
    ((dispatch (sampleEnv .debug) (call .set (some .list) [[107], [1], [2, 3]]) []).run
      (sampleDb [([107], .string ['a'])])).2, ?_, ?_⟩
  · exact Prod.ext (by decide +kernel) rfl
  · decide +kernel

/-! ## C18 Set replaces whatever was stored -/

/-- C18. A Set with a key type, on two databases that differ at most at its key (whatever the request's
arguments and buffer, in either profile): the outcomes are the same, and so are the resulting databases,
or the outcome is not a success and no key was changed in either. -/
theorem C18_independent {env : Env} {r : Request} {t : KeyType} {k : Bytes}
    (hcmd : r.commandId = .set) (ht : r.keyType = some t) (hk : r.key = some k) (resp : Bytes) (db db' : Db)
    (hkeys : ∀ k', k' ≠ k → db.keys k' = db'.keys k') (hctrs : db.ctrs = db'.ctrs) :
    ((dispatch env r resp).run db).1 = ((dispatch env r resp).run db').1 ∧
    ((dispatch env r resp).run db = (dispatch env r resp).run db' ∨
      ((∀ out, ((dispatch env r resp).run db).1 ≠ .ok out) ∧
        ((dispatch env r resp).run db).2.keys = db.keys ∧ ((dispatch env r resp).run db').2.keys = db'.keys)) := by
  have hset : db.setKey k none = db'.setKey k none := by
    cases db; cases db'
    simp only [Db.setKey, Db.mk.injEq] at hctrs ⊢
    refine ⟨funext fun k' => ?_, hctrs⟩
    split
    · rfl
    · exact hkeys k' ‹_›
  have key : ∀ {β : Type} (o : Option β) (e : DispatchError) (p : β → Option Value → Prog Bytes)
      (_ : ∀ a x y, p a x = p a y),
      (Prog.orErr o e fun a => removeKey k (p a)).run db = (Prog.orErr o e fun a => removeKey k (p a)).run db' ∨
      ∃ e', (Prog.orErr o e fun a => removeKey k (p a)).run db = (.err e', db) ∧
        (Prog.orErr o e fun a => removeKey k (p a)).run db' = (.err e', db') := by
    intro β o e p hp
    cases o with
    | none => exact Or.inr ⟨e, rfl, rfl⟩
    | some a =>
      refine Or.inl ?_
      simp only [Prog.orErr, removeKey, Prog.run]
      rw [hset, hp a (db.keys k) (db'.keys k)]
  have hmain : (command env r resp).run db = (command env r resp).run db' ∨
      ∃ e, ((command env r resp).run db) = (.err e, db) ∧ ((command env r resp).run db') = (.err e, db') := by
    simp only [command, hcmd, dispatchSet, hk, resolveKeyType, ht]
    show (if (r.arg 1).isNone then Prog.fail .argumentRetrieval else _ : Prog Bytes).run db =
      (if (r.arg 1).isNone then Prog.fail .argumentRetrieval else _ : Prog Bytes).run db' ∨
      ∃ e, (if (r.arg 1).isNone then Prog.fail .argumentRetrieval else _ : Prog Bytes).run db = _ ∧
       (if (r.arg 1).isNone then Prog.fail .argumentRetrieval else _ : Prog Bytes).run db' = _
    by_cases h1 : (r.arg 1).isNone
    · rw [if_pos h1]; exact Or.inr ⟨_, rfl, rfl⟩
    · rw [if_neg h1]
      cases t <;> exact key _ _ _ (fun _ _ _ => rfl)
  rcases hmain with h | ⟨e, h1, h2⟩
  · have : (dispatch env r resp).run db = (dispatch env r resp).run db' := by
      rw [dispatch, run_andThen, run_andThen, h]
    exact ⟨by rw [this], Or.inl this⟩
  · rw [dispatch, run_andThen, run_andThen, h1, h2]
    simp only [countOutcome, incrementMetric, Prog.run, hctrs]
    cases addU env.mode 64 ((db'.ctrs .commandsErrored).getD 0) 1 <;>
      exact ⟨rfl, Or.inr ⟨fun out h => by simp [Prog.run] at h, rfl, rfl⟩⟩

/-- C18, success: whatever is stored, a Set with a key type whose arguments spell a value of that type
succeeds and stores it, if the key is usable and the value fits into the response. -/
theorem C18_succeeds {env : Env} {r : Request} {t : KeyType} {k a : Bytes} {items : List Bytes} {v : Value}
    (hv : Views r .set (some t) (k :: a :: items)) (hr : readValue r t = some v) (hu : ¬ unusable env.mode k)
    (hd : Deliverable env.mode (.value v)) (resp : Bytes) (db : Db) (hc : Roomy 1 db.ctrs) :
    (dispatch env r resp).run db = (.ok (resp ++ frame (ordered env (.value v))),
      { keys := fun k' => if k' = k then some v else db.keys k'
        ctrs := counted db.ctrs .commandsSuccessful }) := by
  have hx : execute env db.ctrs .set (some t) (k :: a :: items) db.keys = (.value v, Store.put db.keys k (some v)) := by
    rw [readValue_eq hv] at hr
    simp only [execute, effectiveType, hr, if_neg hu]
  exact dispatch_value hv resp db hc hx (writeValue_deliverable hd resp)

example : (dispatch (sampleEnv .debug) (call .set (some .boolean) [[107], [1]]) []).run (sampleDb [([107], .float ⟨5⟩)]) =
    (dispatch (sampleEnv .debug) (call .set (some .boolean) [[107], [1]]) []).run (sampleDb []) := by
  have h := C18_independent (env := sampleEnv .debug) (r := call .set (some .boolean) [[107], [1]]) (t := .boolean)
    (k := [107]) (by decide +kernel) (by decide +kernel) (by decide +kernel) [] (sampleDb [([107], .float ⟨5⟩)]) (sampleDb [])
    (by intro k' hk'; simp [sampleDb, List.lookup, beq_eq_false_iff_ne.mpr hk']) rfl
  rcases h.2 with h | ⟨h, -⟩
  · exact h
  · exact (h [0, 0, 0, 2, 0, 1] (by decide +kernel)).elim

/-! ## C19 Commands touch only the keys they name -/

/-- C19. Any request (built, parsed, or malformed), any database, any outcome: every key other than the
first argument, and for Rename the second, is as before. -/
theorem C19_frame (env : Env) (r : Request) (resp : Bytes) (db : Db) (k : Bytes)
    (h0 : r.arg 0 ≠ some k) (h1 : r.commandId = .rename → r.arg 1 ≠ some k) :
    ((dispatch env r resp).run db).2.keys k = db.keys k := by
  refine Writes.run (K := fun k' => k' ≠ k) (writes_dispatch ?_ ?_) db k (by simp)
  · intro _ k' hk' e; subst e; exact h0 hk'
  · intro hr k' hk' e; subst e; exact h1 hr hk'

example : ((dispatch (sampleEnv .release) (call .rename none [[1], [2]]) []).run
    (sampleDb [([1], .boolean true), ([3], .integer 5)])).2.keys [3] = some (.integer 5) :=
  C19_frame _ _ _ _ _ (by decide +kernel) (by decide +kernel)

/-! ## C20 Read commands do not modify the database -/

/-- C20. Any request of a reading command, well-formed or not, whatever the outcome. -/
theorem C20_read_only (env : Env) (r : Request) (resp : Bytes) (db : Db)
    (h : r.commandId ∈ [.echo, .exists, .get, .is, .keys, .length, .stats, .type]) :
    ((dispatch env r resp).run db).2.keys = db.keys := by
  funext k
  refine Writes.run (K := fun _ => False) (writes_dispatch ?_ ?_) db k (by simp)
  · intro hn; exact absurd h hn
  · intro hr; rw [hr] at h; simp at h

example : ((dispatch (sampleEnv .debug) (call .get none [ascii "__hop__:x"]) []).run
    (sampleDb [([1], .boolean true)])).2.keys [1] = some (.boolean true) := by
  rw [C20_read_only _ _ _ _ (by decide +kernel)]; decide +kernel

/-! ## C21 A command that reports an error has not changed the database -/

/-- C21 as stated. -/
def C21_Statement : Prop :=
  ∀ (env : Env) (r : Request) (c : CommandId) (kt : Option KeyType) (args : List Bytes) (resp : Bytes) (db db' : Db)
    (e : DispatchError), Views r c kt args → Roomy 1 db.ctrs →
    (dispatch env r resp).run db = (.err e, db') → db'.keys = db.keys

/-- C21 is false of the code: Increment with key type float on a missing key reports key-type-different but
has created the key, as an integer. -/
theorem C21_false : ¬ C21_Statement := by
  intro h
  have := h (sampleEnv .release) (call .increment (some .float) [[107]]) .increment (some .float) [[107]] []
    (sampleDb []) _ .keyTypeDifferent (call_views _ _ _ (by decide) (by decide) (by decide))
    (sampleDb_roomy _ _ (by decide)) (Prod.ext (by decide +kernel) rfl)
  have h2 := congrFun this [107]
  revert h2
  decide +kernel

/-- The only way an erroneous command changes the store. -/
theorem execute_error {env : Env} {ctrs : Metric → Option Nat} {c : CommandId} {kt : Option KeyType}
    {args : List Bytes} {s s' : Store} {e : DispatchError} (h : execute env ctrs c kt args s = (.error e, s')) :
    s' = s ∨ ∃ k more, args = k :: more ∧ (c = .increment ∨ c = .decrement) ∧ kt = some .float ∧ s k = none ∧
      ¬ unusable env.mode k ∧ e = .keyTypeDifferent ∧ s' = s.put k (some (.integer 0)) := by
  have hint : ∀ {m k n s s' e}, addInteger m k n s = (.error e, s') → s' = s := by
    intro m k n s s' e h
    simp only [addInteger] at h
    repeat' split at h
    all_goals simp at h
    all_goals exact h.2.symm
  have hfl : ∀ {m add k s s' e}, addFloat m add k s = (.error e, s') →
      s' = s ∨ (s k = none ∧ ¬ unusable m k ∧ e = .keyTypeDifferent ∧ s' = s.put k (some (.integer 0))) := by
    intro m add k s s' e h
    simp only [addFloat] at h
    split at h
    · simp at h
    · rename_i hu
      split at h
      · simp at h
      · simp at h; exact Or.inl h.2.symm
      · rename_i hn
        simp at h
        exact Or.inr ⟨hn, hu, h.1.symm, h.2.symm⟩
  cases c
  case increment =>
    cases args with
    | nil => simp [execute] at h; exact Or.inl h.2.symm
    | cons k more =>
      simp only [execute] at h
      split at h
      · rcases hfl h with h | h
        · exact Or.inl h
        · exact Or.inr ⟨k, more, rfl, Or.inl rfl, ‹_›, h⟩
      · exact Or.inl (hint h)
  case decrement =>
    cases args with
    | nil => simp [execute] at h; exact Or.inl h.2.symm
    | cons k more =>
      simp only [execute] at h
      split at h
      · rcases hfl h with h | h
        · exact Or.inl h
        · exact Or.inr ⟨k, more, rfl, Or.inr rfl, ‹_›, h⟩
      · exact Or.inl (hint h)
  all_goals
    left
    revert h
    rcases args with _ | ⟨k, _ | ⟨a, more⟩⟩ <;> simp only [execute]
    all_goals
      intro h
      repeat' split at h
      all_goals first
        | exact hint h
        | (simp at h; done)
        | (simp at h; exact h.2.symm)
        | (simp at h; exact h.2.2.symm)

/-- C21, the part that holds: everything but Increment and Decrement with key type float on a missing key. -/
theorem C21_error_no_change_partial {env : Env} {r : Request} {c : CommandId} {kt : Option KeyType}
    {args : List Bytes} {resp : Bytes} {db db' : Db} {e : DispatchError} (hv : Views r c kt args)
    (hc : Roomy 1 db.ctrs) (hr : (dispatch env r resp).run db = (.err e, db'))
    (hex : ¬ ((c = .increment ∨ c = .decrement) ∧ kt = some .float ∧ ∀ k, args[0]? = some k → db.keys k = none)) :
    db'.keys = db.keys := by
  obtain ⟨hx, -⟩ := dispatch_err hv hc hr
  rcases execute_error hx with h | ⟨k, more, rfl, h1, h2, h3, -⟩
  · exact h
  · exact absurd ⟨h1, h2, by simpa using h3⟩ hex

/-- C53. Exactly when a command that reports an error has changed the stored keys, and how: Increment or
Decrement with key type float on a missing, usable key, which then holds the integer 0. -/
theorem C53_error_changes_iff {env : Env} {r : Request} {c : CommandId} {kt : Option KeyType}
    {args : List Bytes} {resp : Bytes} {db db' : Db} {e : DispatchError} (hv : Views r c kt args)
    (hc : Roomy 1 db.ctrs) (hr : (dispatch env r resp).run db = (.err e, db')) :
    (db'.keys ≠ db.keys ↔ ∃ k more, args = k :: more ∧ (c = .increment ∨ c = .decrement) ∧ kt = some .float ∧
      db.keys k = none ∧ ¬ unusable env.mode k) ∧
    (db'.keys ≠ db.keys → ∃ k, args[0]? = some k ∧
      db'.keys = fun k' => if k' = k then some (.integer 0) else db.keys k') := by
  obtain ⟨hx, -⟩ := dispatch_err hv hc hr
  refine ⟨⟨fun hne => ?_, ?_⟩, fun hne => ?_⟩
  · rcases execute_error hx with h | ⟨k, more, rfl, h1, h2, h3, h4, -⟩
    · exact absurd h hne
    · exact ⟨k, more, rfl, h1, h2, h3, h4⟩
  · rintro ⟨k, more, rfl, h1, rfl, h3, h4⟩
    have : execute env db.ctrs c (some .float) (k :: more) db.keys =
        (.error .keyTypeDifferent, Store.put db.keys k (some (.integer 0))) := by
      rcases h1 with rfl | rfl <;> simp only [execute, if_pos, addFloat, if_neg h4, h3]
    rw [hx] at this
    simp only [Prod.mk.injEq] at this
    rw [this.2]
    intro he
    have := congrFun he k
    rw [put_apply_self, h3] at this
    simp at this
  · rcases execute_error hx with h | ⟨k, more, rfl, h1, h2, h3, h4, -, h5⟩
    · exact absurd h hne
    · exact ⟨k, rfl, h5⟩

example : ((dispatch (sampleEnv .release) (call .increment (some .integer) [[107]]) []).run
    (sampleDb [([107], .list [])])).1 = .err .keyTypeDifferent := by decide +kernel

/-! ## C22 Delete removes exactly the key, once -/

/-- C22, existing key: answered with the key (which must fit into a response), and gone afterwards for
every command that looks at it. -/
theorem C22_delete {env : Env} {r : Request} {k : Bytes} {more : List Bytes} (hv : Views r .delete none (k :: more))
    (resp : Bytes) (db : Db) (v : Value) (hk : db.keys k = some v) (hlen : k.length + 5 < 2 ^ 32)
    (hc : Roomy 2 db.ctrs) :
    ∃ db', (dispatch env r resp).run db = (.ok (resp ++ frame (.value (.bytes k))), db') ∧
      db'.keys = (fun k' => if k' = k then none else db.keys k') ∧
      (∀ (g : Request) (resp' : Bytes), Views g .exists none [k] →
        ((dispatch env g resp').run db').1 = .ok (resp' ++ frame (.value (.boolean false)))) ∧
      (∀ (g : Request) (resp' : Bytes) (kt : Option KeyType) (more : List Bytes), Views g .get kt (k :: more) →
        ¬ unusable env.mode k → ((dispatch env g resp').run db').1 = .err .keyNonexistent) ∧
      (∀ (g : Request) (resp' : Bytes) (more : List Bytes), Views g .type none (k :: more) →
        ((dispatch env g resp').run db').1 = .err .keyNonexistent) ∧
      (∀ (g : Request) (resp' : Bytes) (more : List Bytes), Views g .delete none (k :: more) →
        ((dispatch env g resp').run db').1 = .err .preconditionFailed ∧
        ((dispatch env g resp').run db').2.keys = db'.keys) := by
  have hx : execute env db.ctrs .delete none (k :: more) db.keys = (.value (.bytes k), Store.put db.keys k none) := by
    simp [execute, hk]
  have hd := dispatch_value hv resp db (Roomy.mono hc (by omega)) hx
    (writeValue_deliverable (deliverable_bytes _ _ hlen) resp)
  refine ⟨_, hd, rfl, ?_⟩
  generalize hdb : ({ keys := Store.put db.keys k none, ctrs := counted db.ctrs .commandsSuccessful } : Db) = db'
  have hk' : db'.keys k = none := by rw [← hdb]; exact put_apply_self _ _ _
  have hc' : Roomy 1 db'.ctrs := by rw [← hdb]; exact Roomy.counted hc _
  refine ⟨?_, ?_, ?_, ?_⟩
  · intro g resp' hg
    have hx : execute env db'.ctrs .exists none [k] db'.keys = (.value (.boolean false), db'.keys) := by
      simp [execute, hk']
    rw [dispatch_value hg resp' db' hc' hx (writeValue_deliverable (deliverable_bool _ _) resp')]
    rfl
  · intro g resp' kt more hg hu
    have hx : execute env db'.ctrs .get kt (k :: more) db'.keys = (.error .keyNonexistent, db'.keys) := by
      simp only [execute, if_neg hu, hk']
    rw [dispatch_error hg resp' db' hc' hx]
  · intro g resp' more hg
    have hx : execute env db'.ctrs .type none (k :: more) db'.keys = (.error .keyNonexistent, db'.keys) := by
      simp [execute, hk']
    rw [dispatch_error hg resp' db' hc' hx]
  · intro g resp' more hg
    have hx : execute env db'.ctrs .delete none (k :: more) db'.keys = (.error .preconditionFailed, db'.keys) := by
      simp [execute, hk']
    rw [dispatch_error hg resp' db' hc' hx]
    exact ⟨rfl, rfl⟩

/-- C22, missing key. -/
theorem C22_delete_missing {env : Env} {r : Request} {k : Bytes} {more : List Bytes}
    (hv : Views r .delete none (k :: more)) (resp : Bytes) (db : Db) (hk : db.keys k = none) (hc : Roomy 1 db.ctrs) :
    ((dispatch env r resp).run db).1 = .err .preconditionFailed ∧
    ((dispatch env r resp).run db).2.keys = db.keys := by
  have hx : execute env db.ctrs .delete none (k :: more) db.keys = (.error .preconditionFailed, db.keys) := by
    simp [execute, hk]
  rw [dispatch_error hv resp db hc hx]
  exact ⟨rfl, rfl⟩

example : ∃ db', (dispatch (sampleEnv .debug) (call .delete none [[107]]) []).run (sampleDb [([107], .float ⟨1⟩)]) =
    (.ok (frame (.value (.bytes [107]))), db') ∧ db'.keys [107] = none := by
  obtain ⟨db', h1, h2, -⟩ := C22_delete (env := sampleEnv .debug)
    (call_views .delete none [[107]] (by decide) (by decide) (by decide)) [] (sampleDb [([107], .float ⟨1⟩)]) (.float ⟨1⟩)
    (by decide +kernel) (by decide) (sampleDb_roomy _ _ (by decide))
  exact ⟨db', h1, by rw [h2]; rfl⟩

/-! ## C23 Rename moves a value without loss -/

/-- C23, success: exactly if `a` exists and `b` does not (so never for `a = b`); then `b` holds what `a`
held, `a` is gone, the response is `b` and nothing else changed. -/
theorem C23_rename {env : Env} {r : Request} {a b : Bytes} {more : List Bytes} (hv : Views r .rename none (a :: b :: more))
    (resp : Bytes) (db : Db) (hlen : b.length + 5 < 2 ^ 32) (hc : Roomy 1 db.ctrs) :
    ((∃ out, ((dispatch env r resp).run db).1 = .ok out) ↔ db.keys a ≠ none ∧ db.keys b = none) ∧
    (db.keys a ≠ none → db.keys b = none →
      ((dispatch env r resp).run db).1 = .ok (resp ++ frame (.value (.bytes b))) ∧ a ≠ b ∧
      ((dispatch env r resp).run db).2.keys =
        fun k => if k = b then db.keys a else if k = a then none else db.keys k) ∧
    (db.keys a = none → ((dispatch env r resp).run db).1 = .err .keyNonexistent ∧
      ((dispatch env r resp).run db).2.keys = db.keys) ∧
    (db.keys a ≠ none → db.keys b ≠ none → ((dispatch env r resp).run db).1 = .err .preconditionFailed ∧
      ((dispatch env r resp).run db).2.keys = db.keys) := by
  have h1 : db.keys a ≠ none → db.keys b = none →
      ((dispatch env r resp).run db).1 = .ok (resp ++ frame (.value (.bytes b))) ∧ a ≠ b ∧
      ((dispatch env r resp).run db).2.keys =
        fun k => if k = b then db.keys a else if k = a then none else db.keys k := by
    intro ha hb
    have hx : execute env db.ctrs .rename none (a :: b :: more) db.keys =
        (.value (.bytes b), Store.put (Store.put db.keys a none) b (db.keys a)) := by
      simp [execute, hb, ha]
    rw [dispatch_value hv resp db hc hx (writeValue_deliverable (deliverable_bytes _ _ hlen) resp)]
    refine ⟨rfl, ?_, rfl⟩
    rintro rfl
    exact ha hb
  have h2 : db.keys a = none → ((dispatch env r resp).run db).1 = .err .keyNonexistent ∧
      ((dispatch env r resp).run db).2.keys = db.keys := by
    intro ha
    have hx : execute env db.ctrs .rename none (a :: b :: more) db.keys = (.error .keyNonexistent, db.keys) := by
      simp [execute, ha]
    rw [dispatch_error hv resp db hc hx]
    exact ⟨rfl, rfl⟩
  have h3 : db.keys a ≠ none → db.keys b ≠ none → ((dispatch env r resp).run db).1 = .err .preconditionFailed ∧
      ((dispatch env r resp).run db).2.keys = db.keys := by
    intro ha hb
    have hx : execute env db.ctrs .rename none (a :: b :: more) db.keys = (.error .preconditionFailed, db.keys) := by
      cases hb' : db.keys b with
      | none => exact absurd hb' hb
      | some v => simp [execute, ha, hb']
    rw [dispatch_error hv resp db hc hx]
    exact ⟨rfl, rfl⟩
  refine ⟨⟨?_, fun h => ⟨_, (h1 h.1 h.2).1⟩⟩, h1, h2, h3⟩
  rintro ⟨out, ho⟩
  refine ⟨fun ha => ?_, ?_⟩
  · rw [(h2 ha).1] at ho; simp at ho
  · apply Classical.byContradiction
    intro hb
    by_cases ha : db.keys a = none
    · rw [(h2 ha).1] at ho; simp at ho
    · rw [(h3 ha hb).1] at ho; simp at ho

example : ((dispatch (sampleEnv .debug) (call .rename none [[1], [2]]) []).run (sampleDb [([1], .list [[5]])])).2.keys [2] =
    some (.list [[5]]) := by
  have := (C23_rename (env := sampleEnv .debug) (call_views .rename none [[1], [2]] (by decide) (by decide) (by decide)) []
    (sampleDb [([1], .list [[5]])]) (by decide) (sampleDb_roomy _ _ (by decide))).2.1 (by decide +kernel) (by decide +kernel)
  rw [this.2.2]; decide +kernel

/-! ## Further concrete cases -/

/-- A Get of what a Set has stored, whatever the response begins with. -/
example (resp' : Bytes) : ∃ f, ((dispatch (sampleEnv .debug) (call .get (some .list) [[107]]) resp').run
    ((dispatch (sampleEnv .debug) (call .set (some .list) [[107], [1], [2, 3]]) []).run (sampleDb [([107], .string ['a'])])).2).1 = .ok (resp' ++ f) := by
  obtain ⟨t, v, f, rfl, -, -, -, -, -, h, -⟩ := C17_set_then_get (env := sampleEnv .debug) (kt := some .list) (k := [107]) (items := [[1], [2, 3]])
    (call_views _ _ _ (by decide) (by decide) (by decide)) [] (sampleDb [([107], .string ['a'])]) _
    [0, 0, 0, 14, 4, 0, 2, 0, 0, 0, 1, 1, 0, 0, 0, 2, 2, 3] (by intro m; simp [sampleDb]) (Prod.ext (by decide +kernel) rfl)
  exact ⟨f, h _ resp' (some .list) [] (call_views _ _ _ (by decide) (by decide) (by decide)) (.inr rfl)⟩

example (resp : Bytes) : ((dispatch (sampleEnv .debug) (call .set (some .list) [[107], [1], [2, 3]]) resp).run (sampleDb [([107], .string ['a'])])).1 =
    .ok (resp ++ frame (.value (.list [[1], [2, 3]]))) := by
  rw [C18_succeeds (v := .list [[1], [2, 3]]) (call_views _ _ _ (by decide) (by decide) (by decide)) (by decide +kernel) (by decide) ⟨by decide +kernel, by intro _ l h; cases h; decide⟩
    resp _ (by intro m; simp [sampleDb])]
  rfl

/-- An Append to a value that is not a collection. -/
example : ((dispatch (sampleEnv .debug) (call .append none [[107], [1]]) []).run (sampleDb [([107], .integer 4)])).2.keys =
    (sampleDb [([107], .integer 4)]).keys :=
  C21_error_no_change_partial (c := .append) (kt := none) (args := [[107], [1]]) (e := .keyTypeDifferent) (resp := [])
    (call_views _ _ _ (by decide) (by decide) (by decide)) (by intro m; simp [sampleDb]) (Prod.ext (by decide +kernel) rfl) (by simp)

example (resp : Bytes) : ((dispatch (sampleEnv .debug) (call .delete none [[107]]) resp).run (sampleDb [([1], .integer 4)])).1 = .err .preconditionFailed :=
  (C22_delete_missing (more := []) (call_views _ _ _ (by decide) (by decide) (by decide)) resp _ rfl (by intro m; simp [sampleDb])).1

/-- An Increment that is to count in floats creates the key and reports an error. -/
example : ((dispatch (sampleEnv .debug) (call .increment (some .float) [[107]]) []).run (sampleDb [])).2.keys ≠ (sampleDb []).keys :=
  (C53_error_changes_iff (c := .increment) (kt := some .float) (args := [[107]]) (e := .keyTypeDifferent)
    (call_views _ _ _ (by decide) (by decide) (by decide)) (by intro m; simp [sampleDb]) (Prod.ext (by decide +kernel) rfl)).1.mpr
    ⟨[107], [], rfl, .inl rfl, rfl, rfl, by decide⟩

end Hop
