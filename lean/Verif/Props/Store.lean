import Verif.Lemmas.Dispatch
import Verif.Props.Builder

/-! # C48: the engine is a typed key-value store -/

namespace Hop

open Spec

/-- The requests of the examples are built requests. -/
theorem call_views (c : CommandId) (kt : Option KeyType) (args : List Bytes)
    (hc : c ≠ .stats ∨ args = []) (hn : args.length ≤ 255) (hne : ∀ a ∈ args, a ≠ []) :
    Views (call c kt args) c kt args := by
  obtain ⟨b, hb, hv, -⟩ := C01_built_request_args .release c kt args hc hn hne
  rw [call, hb]; exact hv

theorem sampleDb_roomy (l : List (Bytes × Value)) (n : Nat) (h : n < 2 ^ 64) : Roomy n (sampleDb l).ctrs := by
  intro m; simpa [sampleDb] using h

/-- The engine serving requests one after the other; each starts with its own response buffer. A panic ends
only the request it happens in. -/
def serveAll (env : Env) : List (Request × Bytes) → Db → List (Outcome DispatchError Bytes) × Db
  | [], db => ([], db)
  | (r, resp) :: rs, db =>
    let x := (dispatch env r resp).run db
    let y := serveAll env rs x.2
    (x.1 :: y.1, y.2)

/-- C48, one request: any request (as seen through its accessors), any database whose counters are not at
the end of their 64 bits, any response buffer. The outcome, the response bytes, the stored keys and the
counters are those of the abstract store, provided the answer fits into a response. -/
theorem C48_dispatch {env : Env} {r : Request} {c : Call} (h : Views r c.cmd c.kt c.args) (resp : Bytes)
    (db : Db) (hc : Roomy 1 db.ctrs) (hd : Deliverable env.mode (perform env c db).1) :
    (dispatch env r resp).run db = (delivered env resp (perform env c db).1, (perform env c db).2) :=
  dispatch_delivers h resp db hc hd

/-- C48, stored keys: they are those of the abstract store even if the answer does not fit, except for Set
in a debug build. -/
theorem C48_keys {env : Env} {r : Request} {c : Call} (h : Views r c.cmd c.kt c.args) (resp : Bytes)
    (db : Db) (hc : Roomy 1 db.ctrs)
    (hd : env.mode = .release ∨ c.cmd ≠ .set ∨ Deliverable env.mode (perform env c db).1) :
    ((dispatch env r resp).run db).2.keys = (perform env c db).2.keys :=
  dispatch_keys h resp db hc hd

/-- C48, histories of any length: all answers, in order, and the final database. -/
theorem C48_history (env : Env) (h : List (Request × Bytes)) (cs : List Call) (db : Db)
    (hv : Sees h cs)
    (hc : Roomy h.length db.ctrs)
    (hd : ∀ a ∈ (performAll env cs db).1, Deliverable env.mode a) :
    serveAll env h db =
      (List.zipWith (fun rb a => delivered env rb.2 a) h (performAll env cs db).1, (performAll env cs db).2) := by
  induction hv generalizing db with
  | nil => rfl
  | @cons r resp c rs cs hv hvs ih =>
    simp only [performAll, List.mem_cons, forall_eq_or_imp] at hd
    simp only [List.length_cons] at hc
    simp only [serveAll, performAll, List.zipWith_cons_cons]
    rw [C48_dispatch hv resp db (Roomy.mono hc (by omega)) hd.1]
    have hc' : Roomy rs.length (perform env c db).2.ctrs := by
      simp only [perform]
      cases (execute env db.ctrs c.cmd c.kt c.args db.keys).1 with
      | value v => exact Roomy.counted hc _
      | error e => exact Roomy.counted hc _
      | crash => exact Roomy.mono hc (by omega)
    have := ih (perform env c db).2 hc' hd.2
    simp only [this]

/-- Beside C48: set an integer, increment it twice, get it as bytes (an error), get it. -/
example : ∃ db, serveAll (sampleEnv .debug)
    [(call .set (some .integer) [[107], [0, 0, 0, 0, 0, 0, 0, 40]], [1, 2]), (call .increment none [[107]], []),
      (call .increment none [[107]], []), (call .get (some .bytes) [[107]], []), (call .get none [[107]], [9])]
    (sampleDb [([107], .bytes [1])]) =
    ([.ok ([1, 2] ++ [0, 0, 0, 9, 3, 0, 0, 0, 0, 0, 0, 0, 40]), .ok [0, 0, 0, 9, 3, 0, 0, 0, 0, 0, 0, 0, 41],
      .ok [0, 0, 0, 9, 3, 0, 0, 0, 0, 0, 0, 0, 42], .err .keyTypeDifferent,
      .ok ([9] ++ [0, 0, 0, 9, 3, 0, 0, 0, 0, 0, 0, 0, 42])], db) ∧
    db.keys [107] = some (.integer 42) ∧ db.ctrs .commandsSuccessful = some 4 ∧
    db.ctrs .commandsErrored = some 1 := by
  refine ⟨_, C48_history (sampleEnv .debug) _
    [⟨.set, some .integer, [[107], [0, 0, 0, 0, 0, 0, 0, 40]]⟩, ⟨.increment, none, [[107]]⟩,
      ⟨.increment, none, [[107]]⟩, ⟨.get, some .bytes, [[107]]⟩, ⟨.get, none, [[107]]⟩] _
    (.cons (call_views _ _ _ (by decide) (by decide) (by decide)) (.cons (call_views _ _ _ (by decide) (by decide) (by decide))
      (.cons (call_views _ _ _ (by decide) (by decide) (by decide)) (.cons (call_views _ _ _ (by decide) (by decide) (by decide))
      (.cons (call_views _ _ _ (by decide) (by decide) (by decide)) .nil)))))
    (sampleDb_roomy _ _ (by decide)) ?_, ?_, ?_, ?_⟩
  · have : (performAll (sampleEnv .debug) 
      [⟨.set, some .integer, [[107], [0, 0, 0, 0, 0, 0, 0, 40]]⟩, ⟨.increment, none, [[107]]⟩,
      ⟨.increment, none, [[107]]⟩, ⟨.get, some .bytes, [[107]]⟩, ⟨.get, none, [[107]]⟩] (sampleDb [([107], .bytes [1])])).1 =
      [.value (.integer 40), .value (.integer 41), .value (.integer 42), .error .keyTypeDifferent, .value (.integer 42)] := by
      decide +kernel
    rw [this]
    intro a ha
    simp only [List.mem_cons, List.not_mem_nil, or_false] at ha
    rcases ha with rfl | rfl | rfl | rfl | rfl <;> first | trivial | exact ⟨by decide, by simp⟩
  all_goals decide +kernel

/-! ## Further concrete cases -/

example (resp : Bytes) : (dispatch (sampleEnv .debug) (call .increment none [[107]]) resp).run (sampleDb [([107], .integer 4)]) =
    (.ok (resp ++ frame (.value (.integer 5))), (perform (sampleEnv .debug) ⟨.increment, none, [[107]]⟩ (sampleDb [([107], .integer 4)])).2) :=
  C48_dispatch (c := ⟨.increment, none, [[107]]⟩) (call_views _ _ _ (by decide) (by decide) (by decide)) resp _ (by intro m; simp [sampleDb])
    ⟨by decide +kernel, by intro _ l h; cases h⟩

example (resp : Bytes) : ((dispatch (sampleEnv .debug) (call .increment none [[107]]) resp).run (sampleDb [([107], .integer 4)])).2.keys =
    (perform (sampleEnv .debug) ⟨.increment, none, [[107]]⟩ (sampleDb [([107], .integer 4)])).2.keys :=
  C48_keys (c := ⟨.increment, none, [[107]]⟩) (call_views _ _ _ (by decide) (by decide) (by decide)) resp _ (by intro m; simp [sampleDb])
    (.inr (.inl (by decide)))

end Hop
