import Verif.Lemmas.Refine
import Verif.Spec.History
import Verif.Lemmas.ResponseWriter
import Verif.Props.Response

/-! # The whole of `Hop::dispatch`: command, response and statistics -/

namespace Hop

open Spec Prog

/-! ## Writing a response does not depend on what the buffer holds -/

theorem patch_append (to y : Bytes) (i : Nat) (b : Bytes) :
    patch (to ++ y) (to.length + i) b = to ++ patch y i b := by
  simp only [patch, List.take_append, List.drop_append, List.append_assoc]
  rw [List.take_of_length_le (by omega), List.drop_eq_nil_of_le (by omega), List.nil_append]
  have e1 : to.length + i - to.length = i := by omega
  have e2 : to.length + i + b.length - to.length = i + b.length := by omega
  rw [e1, e2]

theorem writeListLoop_append (m : Mode) (to x : Bytes) (n c : Nat) (items : List Bytes) :
    Response.writeListLoop m (to ++ x) n c items =
      (Response.writeListLoop m x n c items).map (fun y => (to ++ y.1, y.2)) := by
  induction items generalizing x n c with
  | nil => rfl
  | cons i is ih =>
    simp only [Response.writeListLoop, Option.bind_eq_bind]
    cases addU m 16 c 1 with
    | none => rfl
    | some c' =>
      simp only [Option.bind_some]
      cases addU m 32 4 (i.length % 2 ^ 32) with
      | none => rfl
      | some a =>
        simp only [Option.bind_some]
        cases addU m 32 n a with
        | none => rfl
        | some n' =>
          simp only [Option.bind_some]
          rw [List.append_assoc to, List.append_assoc to]
          exact ih _ _ _

theorem writeList_append (m : Mode) (to : Bytes) (items : List Bytes) :
    Response.writeList m to items = (Response.writeList m [] items).map (to ++ ·) := by
  simp only [Response.writeList, Option.bind_eq_bind]
  have e : to ++ [0, 0, 0, 0] ++ [ResponseType.list.toByte] ++ [0] ++ [0] =
      to ++ ([] ++ [0, 0, 0, 0] ++ [ResponseType.list.toByte] ++ [0] ++ [0]) := by simp
  rw [e, writeListLoop_append]
  cases Response.writeListLoop m ([] ++ [0, 0, 0, 0] ++ [ResponseType.list.toByte] ++ [0] ++ [0]) (1 + 2) 0 items with
  | none => rfl
  | some y =>
    obtain ⟨y, n, c⟩ := y
    simp only [Option.map_some, Option.bind_some, Option.pure_def, List.length_nil]
    congr 1
    have h1 := patch_append to y 0 (beBytes 4 n)
    rw [Nat.add_zero] at h1
    rw [h1, patch_append]

theorem writeValue_append (env : Env) (to : Bytes) (v : Value) :
    Response.writeValue env to v = (Response.writeValue env [] v).map (to ++ ·) := by
  cases v with
  | list l => exact writeList_append _ _ _
  | boolean b => simp [Response.writeValue, Response.writeBool]
  | float f => simp [Response.writeValue, Response.writeFloat]
  | integer i => simp [Response.writeValue, Response.writeInt]
  | bytes b =>
    simp only [Response.writeValue, Response.writeBytes, Option.bind_eq_bind]
    cases addU env.mode 32 (1 + 4) (b.length % 2 ^ 32) <;> simp
  | string s =>
    simp only [Response.writeValue, Response.writeStr, Option.bind_eq_bind]
    cases addU env.mode 32 (1 + 4) ((strBytes s).length % 2 ^ 32) <;> simp
  | map m =>
    simp only [Response.writeValue, Response.writeMap, Response.writeMapIter, Option.bind_eq_bind]
    cases Response.mapLen env.mode (1 + 2) (env.mapOrd m) <;> simp
  | set s =>
    simp only [Response.writeValue, Response.writeSet, Response.writeSetIter, Option.bind_eq_bind]
    cases Response.setLen env.mode (1 + 2) (env.setOrd s) <;> simp

/-! ## Counting -/

theorem Roomy.counted {n : Nat} {ctrs : Metric → Option Nat} (h : Roomy (n + 1) ctrs) (m : Metric) :
    Roomy n (counted ctrs m) := by
  intro m'
  have h1 := h m
  have h2 := h m'
  simp only [Spec.counted]
  split
  · simp; omega
  · omega

theorem Roomy.mono {n k : Nat} {ctrs : Metric → Option Nat} (h : Roomy n ctrs) (hk : k ≤ n) : Roomy k ctrs := by
  intro m
  have := h m
  omega

theorem run_incrementMetric {α} (env : Env) (m : Metric) (next : Prog α) (db : Db) (h : Roomy 1 db.ctrs) :
    (incrementMetric env m next).run db = next.run { keys := db.keys, ctrs := counted db.ctrs m } := by
  simp only [incrementMetric, Prog.run]
  rw [addU_of_lt (h m)]
  rfl

/-- The whole of dispatch when the value, if any, can be written. -/
theorem dispatch_eq {env : Env} {r : Request} {c : CommandId} {kt : Option KeyType} {args : List Bytes}
    (h : Views r c kt args) (resp : Bytes) (db : Db) (hc : Roomy 1 db.ctrs) :
    (∀ v s out, execute env db.ctrs c kt args db.keys = (.value v, s) → Response.writeValue env resp v = some out →
      (dispatch env r resp).run db = (.ok out, { keys := s, ctrs := counted db.ctrs .commandsSuccessful })) ∧
    (∀ v s, execute env db.ctrs c kt args db.keys = (.value v, s) → Response.writeValue env resp v = none →
      ((dispatch env r resp).run db).1 = .panic ∧
      (c ≠ .set → (dispatch env r resp).run db = (.panic, { keys := s, ctrs := db.ctrs }))) ∧
    (∀ e s, execute env db.ctrs c kt args db.keys = (.error e, s) →
      (dispatch env r resp).run db = (.err e, { keys := s, ctrs := counted db.ctrs .commandsErrored })) ∧
    (∀ s, execute env db.ctrs c kt args db.keys = (.crash, s) →
      (dispatch env r resp).run db = (.panic, { keys := s, ctrs := db.ctrs })) := by
  obtain ⟨h1, h2⟩ := command_refines (env := env) h resp db
  refine ⟨?_, ?_, ?_, ?_⟩
  · intro v s out hx hw
    rw [hx] at h1 h2
    simp only [render, hw, Outcome.ofOption] at h1
    rw [dispatch, run_andThen, h1, h2 (Or.inr (fun v' hv' => by simp at hv'; subst hv'; rw [hw]; simp))]
    simp only [countOutcome]
    rw [run_incrementMetric _ _ _ _ (by exact hc)]
    rfl
  · intro v s hx hw
    rw [hx] at h1 h2
    simp only [render, hw, Outcome.ofOption] at h1
    rw [dispatch, run_andThen, h1]
    refine ⟨rfl, ?_⟩
    intro hs
    rw [h2 (Or.inl hs)]
    rfl
  · intro e s hx
    rw [hx] at h1 h2
    simp only [render] at h1
    rw [dispatch, run_andThen, h1, h2 (Or.inr (fun v' hv' => by simp at hv'))]
    simp only [countOutcome]
    rw [run_incrementMetric _ _ _ _ (by exact hc)]
    rfl
  · intro s hx
    rw [hx] at h1 h2
    simp only [render] at h1
    rw [dispatch, run_andThen, h1, h2 (Or.inr (fun v' hv' => by simp at hv'))]
    rfl

theorem dispatch_error {env : Env} {r : Request} {c : CommandId} {kt : Option KeyType} {args : List Bytes}
    (h : Views r c kt args) (resp : Bytes) (db : Db) (hc : Roomy 1 db.ctrs) {e : DispatchError} {s : Store}
    (hx : execute env db.ctrs c kt args db.keys = (.error e, s)) :
    (dispatch env r resp).run db = (.err e, { keys := s, ctrs := counted db.ctrs .commandsErrored }) :=
  (dispatch_eq h resp db hc).2.2.1 e s hx

theorem dispatch_crash {env : Env} {r : Request} {c : CommandId} {kt : Option KeyType} {args : List Bytes}
    (h : Views r c kt args) (resp : Bytes) (db : Db) (hc : Roomy 1 db.ctrs) {s : Store}
    (hx : execute env db.ctrs c kt args db.keys = (.crash, s)) :
    (dispatch env r resp).run db = (.panic, { keys := s, ctrs := db.ctrs }) :=
  (dispatch_eq h resp db hc).2.2.2 s hx

/-- If dispatch succeeds, the specification answers a value, which was written, and the database is the
specified one. -/
theorem dispatch_ok {env : Env} {r : Request} {c : CommandId} {kt : Option KeyType} {args : List Bytes}
    (h : Views r c kt args) {resp : Bytes} {db db' : Db} (hc : Roomy 1 db.ctrs) {out : Bytes}
    (hr : (dispatch env r resp).run db = (.ok out, db')) :
    ∃ v, execute env db.ctrs c kt args db.keys = (.value v, db'.keys) ∧
      Response.writeValue env resp v = some out ∧ db'.ctrs = counted db.ctrs .commandsSuccessful := by
  obtain ⟨h1, h2, h3, h4⟩ := dispatch_eq (env := env) h resp db hc
  cases hx : execute env db.ctrs c kt args db.keys with
  | mk a s =>
    cases a with
    | value v =>
      cases hw : Response.writeValue env resp v with
      | some out' =>
        have := h1 v s out' hx hw
        rw [hr] at this
        simp only [Prod.mk.injEq, Outcome.ok.injEq] at this
        obtain ⟨rfl, rfl⟩ := this
        exact ⟨v, rfl, hw, rfl⟩
      | none =>
        have := (h2 v s hx hw).1
        rw [hr] at this
        simp at this
    | error e => have := h3 e s hx; rw [hr] at this; simp at this
    | crash => have := h4 s hx; rw [hr] at this; simp at this

/-- If dispatch returns an error, it is the specified one. -/
theorem dispatch_err {env : Env} {r : Request} {c : CommandId} {kt : Option KeyType} {args : List Bytes}
    (h : Views r c kt args) {resp : Bytes} {db db' : Db} (hc : Roomy 1 db.ctrs) {e : DispatchError}
    (hr : (dispatch env r resp).run db = (.err e, db')) :
    execute env db.ctrs c kt args db.keys = (.error e, db'.keys) ∧
      db'.ctrs = counted db.ctrs .commandsErrored := by
  obtain ⟨h1, h2, h3, h4⟩ := dispatch_eq (env := env) h resp db hc
  cases hx : execute env db.ctrs c kt args db.keys with
  | mk a s =>
    cases a with
    | value v =>
      cases hw : Response.writeValue env resp v with
      | some out' => have := h1 v s out' hx hw; rw [hr] at this; simp at this
      | none => have := (h2 v s hx hw).1; rw [hr] at this; simp at this
    | error e' =>
      have := h3 e' s hx
      rw [hr] at this
      simp only [Prod.mk.injEq, Outcome.err.injEq] at this
      obtain ⟨rfl, rfl⟩ := this
      exact ⟨rfl, rfl⟩
    | crash => have := h4 s hx; rw [hr] at this; simp at this

/-! ## When a response can be written -/

theorem writeListLoop_release (x : Bytes) (n c : Nat) (items : List Bytes) :
    Response.writeListLoop .release x n c items ≠ none := by
  induction items generalizing x n c with
  | nil => simp [Response.writeListLoop]
  | cons i is ih =>
    simp only [Response.writeListLoop, Option.bind_eq_bind, addU_release, Option.bind_some]
    exact ih _ _ _

theorem mapLen_release (n : Nat) (m : BMap) : Response.mapLen .release n m ≠ none := by
  induction m generalizing n with
  | nil => simp [Response.mapLen]
  | cons e es ih =>
    simp only [Response.mapLen, Option.bind_eq_bind, addU_release, Option.bind_some]
    exact ih _

theorem setLen_release (n : Nat) (s : BSet) : Response.setLen .release n s ≠ none := by
  induction s generalizing n with
  | nil => simp [Response.setLen]
  | cons e es ih =>
    simp only [Response.setLen, Option.bind_eq_bind, addU_release, Option.bind_some]
    exact ih _

/-- A release build can write anything. -/
theorem writeValue_release (env : Env) (h : env.mode = .release) (to : Bytes) (v : Value) :
    Response.writeValue env to v ≠ none := by
  cases v with
  | boolean b => simp [Response.writeValue]
  | float f => simp [Response.writeValue]
  | integer i => simp [Response.writeValue]
  | bytes b => simp [Response.writeValue, Response.writeBytes, h, addU_release]
  | string s => simp [Response.writeValue, Response.writeStr, h, addU_release]
  | list l =>
    simp only [Response.writeValue, Response.writeList, h, Option.bind_eq_bind]
    cases hx : Response.writeListLoop .release (to ++ [0, 0, 0, 0] ++ [ResponseType.list.toByte] ++ [0] ++ [0]) (1 + 2) 0 l with
    | none => exact absurd hx (writeListLoop_release _ _ _ _)
    | some y => simp
  | map m =>
    simp only [Response.writeValue, Response.writeMap, Response.writeMapIter, h, Option.bind_eq_bind]
    cases hx : Response.mapLen .release (1 + 2) (env.mapOrd m) with
    | none => exact absurd hx (mapLen_release _ _)
    | some y => simp
  | set s =>
    simp only [Response.writeValue, Response.writeSet, Response.writeSetIter, h, Option.bind_eq_bind]
    cases hx : Response.setLen .release (1 + 2) (env.setOrd s) with
    | none => exact absurd hx (setLen_release _ _)
    | some y => simp

/-- A deliverable value is written as specified. -/
theorem writeValue_deliverable {env : Env} {v : Value} (h : Deliverable env.mode (.value v)) (to : Bytes) :
    Response.writeValue env to v = some (to ++ frame (ordered env (.value v))) := by
  have := copyTo_eq env to (.value v) (by rw [body_ordered_length]; exact h.1) (by
    intro hm l hl
    simp only [Response.value.injEq] at hl
    exact h.2 hm l hl)
  exact this

/-- One dispatch, with a deliverable answer. -/
theorem dispatch_delivers {env : Env} {r : Request} {c : Call} (h : Views r c.cmd c.kt c.args) (resp : Bytes)
    (db : Db) (hc : Roomy 1 db.ctrs) (hd : Deliverable env.mode (perform env c db).1) :
    (dispatch env r resp).run db = (delivered env resp (perform env c db).1, (perform env c db).2) := by
  obtain ⟨h1, h2, h3, h4⟩ := dispatch_eq (env := env) h resp db hc
  cases hx : execute env db.ctrs c.cmd c.kt c.args db.keys with
  | mk a s =>
    simp only [perform, hx] at hd ⊢
    cases a with
    | value v => exact h1 v s _ hx (writeValue_deliverable hd resp)
    | error e => exact h3 e s hx
    | crash => exact h4 s hx

/-- One dispatch: the stored keys, whatever the size of the answer. -/
theorem dispatch_keys {env : Env} {r : Request} {c : Call} (h : Views r c.cmd c.kt c.args) (resp : Bytes)
    (db : Db) (hc : Roomy 1 db.ctrs) (hd : env.mode = .release ∨ c.cmd ≠ .set ∨ Deliverable env.mode (perform env c db).1) :
    ((dispatch env r resp).run db).2.keys = (perform env c db).2.keys := by
  obtain ⟨h1, h2, h3, h4⟩ := dispatch_eq (env := env) h resp db hc
  cases hx : execute env db.ctrs c.cmd c.kt c.args db.keys with
  | mk a s =>
    simp only [perform, hx] at hd ⊢
    cases a with
    | value v =>
      cases hw : Response.writeValue env resp v with
      | some out => rw [h1 v s out hx hw]
      | none =>
        rcases hd with hd | hd | hd
        · exact absurd hw (writeValue_release env hd resp v)
        · rw [(h2 v s hx hw).2 hd]
        · rw [writeValue_deliverable hd] at hw; simp at hw
    | error e => rw [h3 e s hx]
    | crash => rw [h4 s hx]

end Hop
