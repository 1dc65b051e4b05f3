import Verif.Props.ClientAftermath
import Verif.Props.Repeat

/-!
# Making the same call again through an in-memory client (C212)

A call is a request and a way of reading what comes of it that does not depend on the database, so that what C190 says about requests
carries over.
-/

namespace Hop

open Prog Spec

/-- A call that is not refused, made again and again, is its request sent again and again. -/
theorem calls_requests (env : Env) (a : Api) (hn : (a.call env).args.length ≤ 255) (hf : a.refusal = none) :
    ∃ (r : Request) (rd : Outcome DispatchError Bytes → Resolved), Views r (a.call env).cmd (a.call env).kt (a.call env).args ∧
      (∀ d, rd (.err d) = .ok (.error (.runningCommand d))) ∧ rd .panic = .panic ∧ rd .stuck = .stuck ∧
      (∀ db, ((a.start env).run db).1 = rd ((dispatch env r []).run db).1 ∧ ((a.start env).run db).2 = ((dispatch env r []).run db).2) ∧
      ∀ n db, callAll env (List.replicate n a) db =
        ((serveAll env (List.replicate n (r, [])) db).1.map rd, (serveAll env (List.replicate n (r, [])) db).2) := by
  obtain ⟨r, f, hv, hs, hd⟩ := sends_awake env a hn hf
  have hdone : ∀ o, ∃ x, readOutcome env f o = .done x := readOutcome_done fun v => (hd v).imp fun _ h => h.1
  have hrun : ∀ o db, ((readOutcome env f o).run db) = (((readOutcome env f o).run (sampleDb [])).1, db) := by
    intro o db
    obtain ⟨x, hx⟩ := hdone o
    rw [hx]; rfl
  have one : ∀ db, (a.start env).run db =
      (((readOutcome env f ((dispatch env r []).run db).1).run (sampleDb [])).1, ((dispatch env r []).run db).2) := by
    intro db
    rw [hs, run_andThen, hrun]
  refine ⟨r, fun o => ((readOutcome env f o).run (sampleDb [])).1, hv, fun d => rfl, rfl, rfl, fun db => by rw [one]; exact ⟨rfl, rfl⟩, ?_⟩
  intro n
  induction n with
  | zero => intro db; rfl
  | succ n ih =>
    intro db
    simp only [List.replicate_succ, callAll, serveAll, List.map_cons]
    rw [one, ih]

private theorem calls_refused (env : Env) (a : Api) (hn : (a.call env).args.length ≤ 255) {e : Client.Error} (hf : a.refusal = some e) (n : Nat) (db : Db) :
    callAll env (List.replicate n a) db = (List.replicate n (.ok (.error e)), db) := by
  induction n with
  | zero => rfl
  | succ n ih => simp only [List.replicate_succ, callAll, C65_refused env a db hn hf, ih]

/-- **C212, errors.** A call that resolves to an error resolves to the same error every time it is made again, and the entries are then as
the first left them. -/
theorem C212_error (env : Env) (a : Api) (hn : (a.call env).args.length ≤ 255) (db : Db) (n : Nat) (hr : Roomy (n + 1) db.ctrs) (e : Client.Error)
    (h : ((a.start env).run db).1 = .ok (.error e)) :
    (callAll env (List.replicate (n + 1) a) db).1 = List.replicate (n + 1) (.ok (.error e)) ∧
    (callAll env (List.replicate (n + 1) a) db).2.keys = ((a.start env).run db).2.keys := by
  cases hf : a.refusal with
  | some e' =>
    rw [C65_refused env a db hn hf] at h ⊢
    cases h
    rw [calls_refused env a hn hf]
    exact ⟨rfl, rfl⟩
  | none =>
    obtain ⟨r, rd, hv, h1, h2, -, h3, h4⟩ := calls_requests env a hn hf
    have hd : ∃ d, ((dispatch env r []).run db).1 = .err d := by
      have hr1 : Roomy 1 db.ctrs := Roomy.mono hr (by omega)
      have hc := came_to env a db hn hf hr1 h
      obtain ⟨d, hd⟩ := hc
      exact ⟨d, by rw [dispatch_error hv [] db hr1 (s := (perform env (a.call env) db).2.keys) (Prod.ext hd rfl)]⟩
    obtain ⟨d, hd⟩ := hd
    obtain ⟨g1, g2⟩ := C190_refused (c := a.call env) hv [] db n hr hd
    have he := (h3 db).1
    rw [hd, h1, h] at he
    rw [h4, g1, g2, (h3 db).2, he]
    simp [List.map_replicate, h1]

/-- **C212, entries.** A call other than `append`, `increment`, `increment_by`, `decrement` and `decrement_by`, made any number of times in
a row, leaves the entries its first run left; for a `set` in a debug build, if the response can be delivered. -/
theorem C212_keys (env : Env) (a : Api) (hn : (a.call env).args.length ≤ 255) (hc : (a.call env).cmd ∉ accumulating) (db : Db)
    (hd : env.mode = .release ∨ (a.call env).cmd ≠ .set ∨ Deliverable env.mode (perform env (a.call env) db).1) (n : Nat) :
    (callAll env (List.replicate (n + 1) a) db).2.keys = ((a.start env).run db).2.keys := by
  cases hf : a.refusal with
  | some e => rw [calls_refused env a hn hf, C65_refused env a db hn hf]
  | none =>
    obtain ⟨r, rd, hv, -, -, -, h3, h4⟩ := calls_requests env a hn hf
    rw [h4, (h3 db).2]
    exact C190_keys (c := a.call env) hv hc [] db hd n

/-- **C212, results.** Such a call also comes to the same every time, but for `delete`, `rename` and `stats`. -/
theorem C212_results (env : Env) (a : Api) (hn : (a.call env).args.length ≤ 255) (hc : (a.call env).cmd ∉ accumulating)
    (hm : (a.call env).cmd ≠ .delete ∧ (a.call env).cmd ≠ .rename ∧ (a.call env).cmd ≠ .stats) (db : Db) (n : Nat) (hr : Roomy n db.ctrs)
    (hd : (a.call env).cmd ≠ .set ∨ Deliverable env.mode (perform env (a.call env) db).1) :
    (callAll env (List.replicate n a) db).1 = List.replicate n ((a.start env).run db).1 := by
  cases hf : a.refusal with
  | some e => rw [calls_refused env a hn hf, C65_refused env a db hn hf]
  | none =>
    obtain ⟨r, rd, hv, -, -, -, h3, h4⟩ := calls_requests env a hn hf
    rw [h4, (h3 db).1]
    simp only [C190_answers (c := a.call env) hv hc hm [] db n hr hd, List.map_replicate]

/-- **C212, once.** A `delete` or `rename` that resolved to its key did so once: made again it resolves to an error, and the entries stay. -/
theorem C212_once (env : Env) (a : Api) (hn : (a.call env).args.length ≤ 255) (hc : (∃ k, a = .delete k) ∨ ∃ k k', a = .rename k k')
    (db : Db) (n : Nat) (hr : Roomy (n + 1) db.ctrs) (g : Got) (h : ((a.start env).run db).1 = .ok (.ok g)) :
    (callAll env (List.replicate (n + 1) a) db).1 = .ok (.ok g) :: List.replicate n (.ok (.error (.runningCommand (gone (a.call env).cmd)))) ∧
    (callAll env (List.replicate (n + 1) a) db).2.keys = ((a.start env).run db).2.keys := by
  have hcmd : (a.call env).cmd = .delete ∨ (a.call env).cmd = .rename := by
    rcases hc with ⟨k, rfl⟩ | ⟨k, k', rfl⟩
    · exact .inl rfl
    · exact .inr rfl
  cases hf : a.refusal with
  | some e => rw [C65_refused env a db hn hf] at h; cases h
  | none =>
    obtain ⟨r, rd, hv, h1, h2, h5, h3, h4⟩ := calls_requests env a hn hf
    have he := (h3 db).1
    rw [h] at he
    cases ho : ((dispatch env r []).run db).1 with
    | ok out =>
      obtain ⟨g1, g2⟩ := C190_once (c := a.call env) hv hcmd [] db n hr ho
      rw [h4, g1, g2, (h3 db).2, he, ho]
      simp [List.map_replicate, h1]
    | err d => rw [ho, h1] at he; cases he
    | panic => rw [ho, h2] at he; cases he
    | stuck => rw [ho, h5] at he; cases he

/-- Beside C212: a value appended twice is there twice; incrementing counts again. -/
example : (callAll (sampleEnv .debug) [.append [107] (.bytes [1]), .append [107] (.bytes [1])] (sampleDb [])).2.keys [107] = some (.bytes [1, 1]) ∧
    (callAll (sampleEnv .debug) [.increment [107] none, .increment [107] none] (sampleDb [])).2.keys [107] = some (.integer 2) := by
  decide +kernel

/-- Beside C212: a `delete` made three times. -/
example : (callAll (sampleEnv .debug) (List.replicate 3 (.delete [107])) (sampleDb [([107], .integer 4)])).1 =
    [.ok (.ok (.bytes [107])), .ok (.error (.runningCommand .preconditionFailed)), .ok (.error (.runningCommand .preconditionFailed))] :=
  (C212_once (sampleEnv .debug) (.delete [107]) (by decide) (.inl ⟨_, rfl⟩) (sampleDb [([107], .integer 4)]) 2 (sampleDb_roomy _ _ (by decide)) (.bytes [107])
    (by decide +kernel)).1

/-- Beside C212: incrementing a string a thousand times. -/
example : (callAll (sampleEnv .release) (List.replicate 1000 (.increment [107] none)) (sampleDb [([107], .string ['a'])])).1 =
    List.replicate 1000 (.ok (.error (.runningCommand .keyTypeDifferent))) :=
  (C212_error (sampleEnv .release) (.increment [107] none) (by decide) (sampleDb [([107], .string ['a'])]) 999 (sampleDb_roomy _ _ (by decide))
    (.runningCommand .keyTypeDifferent) (by decide +kernel)).1

/-- Beside C212: setting a key again and again, in a release build, over a value of another type. -/
example : (callAll (sampleEnv .release) (List.replicate (999 + 1) (.set [107] (.bytes [1]))) (sampleDb [([107], .integer 4)])).2.keys [107] = some (.bytes [1]) := by
  rw [C212_keys (sampleEnv .release) (.set [107] (.bytes [1])) (by decide) (by decide) (sampleDb [([107], .integer 4)]) (.inl rfl) 999]
  decide +kernel

/-- Beside C212: asking an internal key for its value panics every time. -/
example : (callAll (sampleEnv .release) (List.replicate 1000 (.get (ascii "__hop__:a"))) (sampleDb [])).1 = List.replicate 1000 .panic := by
  rw [C212_results (sampleEnv .release) (.get (ascii "__hop__:a")) (by decide) (by decide) (by decide) (sampleDb []) 1000 (sampleDb_roomy _ _ (by decide))
    (.inl (by decide))]
  congr 1

end Hop
