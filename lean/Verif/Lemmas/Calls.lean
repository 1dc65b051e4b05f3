import Verif.Lemmas.Footprint
import Verif.Lemmas.Dispatch
import Verif.Spec.Value

/-! # Small facts used by the engine properties -/

namespace Hop

open Spec Prog

/-- Reading the value of a Set request with the public accessors is what the specification reads. -/
theorem readValue_eq {r : Request} {c : CommandId} {kt : Option KeyType} {k a : Bytes} {items : List Bytes}
    (h : Views r c kt (k :: a :: items)) (t : KeyType) : readValue r t = parseValue t (a :: items) := by
  have h1 : r.arg 1 = some a := by rw [h.arg 1]; rfl
  have h2 : r.argsFrom 1 = some (a :: items) := by rw [argsFrom_eq h]; simp
  cases t
  case bytes => simp [readValue, parseValue, h1]
  case boolean => simp [readValue, parseValue, h1, convBool_eq]
  case float =>
    simp only [readValue, parseValue, h1, Option.bind_some, convFloat_eq]
    split <;> rfl
  case integer =>
    simp only [readValue, parseValue, h1, Option.bind_some, convInt_eq]
    split <;> rfl
  case string => simp [readValue, parseValue, h1, convStr]
  case list => simp [readValue, parseValue, h2]
  case map => simp [readValue, parseValue, h2]
  case set => simp [readValue, parseValue, h2]

theorem parseValue_kind {t : KeyType} {items : List Bytes} {v : Value} (h : parseValue t items = some v) :
    v.kind = t := by
  cases t <;> cases items <;> simp only [parseValue] at h
  all_goals first
    | (simp at h; done)
    | (simp only [Option.some.injEq] at h; subst h; rfl)
    | (simp only [Option.map_eq_some_iff] at h; obtain ⟨_, _, rfl⟩ := h; rfl)
    | (split at h
       · simp only [Option.some.injEq] at h; subst h; rfl
       · simp at h)

/-- A written response is the buffer followed by bytes that do not depend on the buffer. -/
theorem writeValue_some {env : Env} {to out : Bytes} {v : Value} (h : Response.writeValue env to v = some out) :
    ∃ f, out = to ++ f ∧ ∀ to', Response.writeValue env to' v = some (to' ++ f) := by
  rw [writeValue_append] at h
  simp only [Option.map_eq_some_iff] at h
  obtain ⟨f, hf, rfl⟩ := h
  exact ⟨f, rfl, fun to' => by rw [writeValue_append, hf]; rfl⟩

/-- Success of a call whose specified answer is a writable value. -/
theorem dispatch_value {env : Env} {r : Request} {c : CommandId} {kt : Option KeyType} {args : List Bytes}
    (h : Views r c kt args) (resp : Bytes) (db : Db) (hc : Roomy 1 db.ctrs) {v : Value} {s : Store} {out : Bytes}
    (hx : execute env db.ctrs c kt args db.keys = (.value v, s)) (hw : Response.writeValue env resp v = some out) :
    (dispatch env r resp).run db = (.ok out, { keys := s, ctrs := counted db.ctrs .commandsSuccessful }) :=
  (dispatch_eq h resp db hc).1 v s out hx hw

/-- Integers and booleans are always deliverable. -/
theorem deliverable_int (m : Mode) (i : Int64) : Deliverable m (.value (.integer i)) :=
  ⟨by simp [body, payload, beBytes_length], by simp⟩

theorem deliverable_bool (m : Mode) (b : Bool) : Deliverable m (.value (.boolean b)) :=
  ⟨by simp [body, payload], by simp⟩

theorem deliverable_float (m : Mode) (f : F64) : Deliverable m (.value (.float f)) :=
  ⟨by simp [body, payload, beBytes_length], by simp⟩

theorem deliverable_bytes (m : Mode) (b : Bytes) (h : b.length + 5 < 2 ^ 32) : Deliverable m (.value (.bytes b)) :=
  ⟨by simp [body, payload, beBytes_length]; omega, by simp⟩

theorem put_apply_self (s : Store) (k : Bytes) (v : Option Value) : s.put k v k = v := by simp [Store.put]
theorem put_apply_ne (s : Store) {k k' : Bytes} (v : Option Value) (h : k' ≠ k) : s.put k v k' = s k' := by
  simp [Store.put, h]
theorem put_put (s : Store) (k : Bytes) (v w : Option Value) : (s.put k v).put k w = s.put k w := by
  funext k'; simp only [Store.put]; split <;> rfl

/-- Dispatch counts its outcome and changes no other counter. -/
theorem dispatch_ctrs (env : Env) (r : Request) (resp : Bytes) (db : Db) (hc : Roomy 1 db.ctrs) :
    ((dispatch env r resp).run db).1 = ((command env r resp).run db).1 ∧
    ((dispatch env r resp).run db).2.keys = ((command env r resp).run db).2.keys ∧
    ((dispatch env r resp).run db).2.ctrs = (match ((dispatch env r resp).run db).1 with
      | .ok _ => counted db.ctrs .commandsSuccessful
      | .err _ => counted db.ctrs .commandsErrored
      | _ => db.ctrs) := by
  have hq := (quiet_command env r resp).run db
  rw [dispatch, run_andThen]
  generalize (command env r resp).run db = x at hq ⊢
  obtain ⟨o, db'⟩ := x
  simp only at hq
  have hc' : Roomy 1 db'.ctrs := by rw [hq]; exact hc
  cases o with
  | ok a => simp only [countOutcome]; rw [run_incrementMetric _ _ _ _ hc']; simp [Prog.run, hq]
  | err e => simp only [countOutcome]; rw [run_incrementMetric _ _ _ _ hc']; simp [Prog.run, hq]
  | panic => simp only [countOutcome, Prog.run]; exact ⟨trivial, trivial, hq⟩
  | stuck => simp only [countOutcome, Prog.run]; exact ⟨trivial, trivial, hq⟩

theorem dispatch_roomy (env : Env) (r : Request) (resp : Bytes) (db : Db) (n : Nat) (hc : Roomy (n + 1) db.ctrs) :
    Roomy n ((dispatch env r resp).run db).2.ctrs := by
  rw [(dispatch_ctrs env r resp db (Roomy.mono hc (by omega))).2.2]
  split
  · exact Roomy.counted hc _
  · exact Roomy.counted hc _
  · exact Roomy.mono hc (by omega)

end Hop
