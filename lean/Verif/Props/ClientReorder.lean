import Verif.Props.ClientRepeat
import Verif.Props.Reorder
import Verif.Props.ClientThreads

/-!
# Calls through an in-memory client that have nothing to do with each other, in another order (C213)
-/

namespace Hop

open Prog Spec

/-- One of the calls is refused before the engine sees it, or neither can change a key the other names. -/
def Spec.CallsApart (env : Env) (a b : Api) : Prop := a.refusal ≠ none ∨ b.refusal ≠ none ∨ Apart (a.call env) (b.call env)

/-- The second sequence of calls is the first in another order: neighbours that are apart may change places, again and again. -/
inductive Spec.CallsReordered (env : Env) : List Api → List Api → Prop
  | refl (l : List Api) : CallsReordered env l l
  | swap {l before after : List Api} {a b : Api} : CallsReordered env l (before ++ a :: b :: after) → CallsApart env a b →
      CallsReordered env l (before ++ b :: a :: after)

/-- A call for the statistics. -/
def Spec.asksStats : Api → Bool
  | .stats => true
  | _ => false

/-- The calls other than `stats`, each with what it came to. -/
def Spec.cameTo (env : Env) (l : List Api) (db : Db) : List (Api × Resolved) :=
  (l.zip (callAll env l db).1).filter fun x => !asksStats x.1

private theorem call_roomy (env : Env) (a : Api) (hn : (a.call env).args.length ≤ 255) (db : Db) (n : Nat) (hr : Roomy (n + 1) db.ctrs) :
    Roomy n ((a.start env).run db).2.ctrs := by
  cases hf : a.refusal with
  | some e => rw [C65_refused env a db hn hf]; exact Roomy.mono hr (by omega)
  | none =>
    obtain ⟨r, rd, hv, -, -, -, h3, -⟩ := calls_requests env a hn hf
    rw [(h3 db).2]
    exact dispatch_roomy env r [] db n hr

private theorem stats_call {env : Env} {a : Api} : (a.call env).cmd = .stats → asksStats a = true := by
  cases a <;> simp [Api.call, asksStats]

/-- Two calls that are apart, one after the other: in which order does not matter. -/
private theorem call_two (env : Env) {a b : Api} (hna : (a.call env).args.length ≤ 255) (hnb : (b.call env).args.length ≤ 255)
    (ha : CallsApart env a b) {db : Db} (hr : Roomy 2 db.ctrs) :
    ((b.start env).run ((a.start env).run db).2).2 = ((a.start env).run ((b.start env).run db).2).2 ∧
    (asksStats a = false → ((a.start env).run db).1 = ((a.start env).run ((b.start env).run db).2).1) ∧
    (asksStats b = false → ((b.start env).run db).1 = ((b.start env).run ((a.start env).run db).2).1) := by
  cases hfa : a.refusal with
  | some e => simp only [C65_refused env a _ hna hfa, implies_true, and_self]
  | none =>
    cases hfb : b.refusal with
    | some e => simp only [C65_refused env b _ hnb hfb, implies_true, and_self]
    | none =>
      have ha : Apart (a.call env) (b.call env) := by
        rcases ha with h | h | h
        · exact absurd hfa h
        · exact absurd hfb h
        · exact h
      obtain ⟨r, rd, hv, -, -, -, h3, -⟩ := calls_requests env a hna hfa
      obtain ⟨r', rd', hv', -, -, -, h3', -⟩ := calls_requests env b hnb hfb
      obtain ⟨g1, g2, g3⟩ := swap_two (env := env) hv hv' ha [] [] hr
      simp only [(h3 _).1, (h3 _).2, (h3' _).1, (h3' _).2]
      refine ⟨g1, fun hs => ?_, fun hs => ?_⟩
      · rw [g2 (by rw [hv.command]; exact fun h => by rw [stats_call h] at hs; cases hs)]
      · rw [g3 (by rw [hv'.command]; exact fun h => by rw [stats_call h] at hs; cases hs)]

private theorem calls_pair (env : Env) {a b : Api} (ha : CallsApart env a b) (after : List Api) :
    ∀ (before : List Api) (db : Db), (∀ c ∈ before ++ a :: b :: after, (c.call env).args.length ≤ 255) → Roomy (before.length + 2) db.ctrs →
      (callAll env (before ++ a :: b :: after) db).2 = (callAll env (before ++ b :: a :: after) db).2 ∧
      (cameTo env (before ++ a :: b :: after) db).Perm (cameTo env (before ++ b :: a :: after) db)
  | [], db, hn, hr => by
    obtain ⟨h1, h2, h3⟩ := call_two env (hn a (by simp)) (hn b (by simp)) ha hr
    refine ⟨by simp only [List.nil_append, callAll]; rw [h1], ?_⟩
    simp only [cameTo, List.nil_append, callAll, List.zip_cons_cons, List.filter_cons]
    rw [h1]
    cases g1 : asksStats a <;> cases g2 : asksStats b
    · simp only [Bool.not_false, if_true]
      rw [h2 g1, h3 g2]
      exact List.Perm.swap _ _ _
    · simp only [Bool.not_false, Bool.not_true, Bool.false_eq_true, if_true, if_false]
      rw [h2 g1]
    · simp only [Bool.not_false, Bool.not_true, Bool.false_eq_true, if_true, if_false]
      rw [h3 g2]
    · simp only [Bool.not_true, Bool.false_eq_true, if_false]
      exact List.Perm.refl _
  | z :: before, db, hn, hr => by
    obtain ⟨h1, h2⟩ := calls_pair env ha after before ((z.start env).run db).2 (fun c hc => hn c (List.mem_cons_of_mem _ hc))
      (call_roomy env z (hn z (by simp)) db _ (Roomy.mono hr (by simp)))
    refine ⟨h1, ?_⟩
    simp only [cameTo, List.cons_append, callAll, List.zip_cons_cons, List.filter_cons] at h2 ⊢
    split
    · exact h2.cons _
    · exact h2

private theorem calls_perm {env : Env} {l l' : List Api} (h : CallsReordered env l l') : l.Perm l' := by
  induction h with
  | refl => exact List.Perm.refl _
  | swap _ _ ih => exact ih.trans ((List.Perm.swap _ _ _).append_left _)

/-- **C213.** Calls in another order, in which only calls that are apart have passed each other: the database ends up the same,
statistics included, and every call but `stats` comes to what it comes to in the first order. -/
theorem C213_reordered {env : Env} {l l' : List Api} (h : CallsReordered env l l') (hn : ∀ a ∈ l, (a.call env).args.length ≤ 255) (db : Db)
    (hr : Roomy l.length db.ctrs) : (callAll env l' db).2 = (callAll env l db).2 ∧ (cameTo env l' db).Perm (cameTo env l db) := by
  induction h with
  | refl => exact ⟨rfl, List.Perm.refl _⟩
  | @swap before after a b h0 ha ih =>
    have hp := calls_perm h0
    obtain ⟨h1, h2⟩ := calls_pair env ha after before db (fun c hc => hn c (hp.mem_iff.mpr hc))
      (Roomy.mono hr (by rw [hp.length_eq]; simp))
    exact ⟨h1.symm.trans ih.1, h2.symm.trans ih.2⟩

private theorem Spec.CallsReordered.comp {env : Env} {a b c : List Api} (h1 : CallsReordered env a b) (h2 : CallsReordered env b c) : CallsReordered env a c := by
  induction h2 with
  | refl => exact h1
  | swap _ ha ih => exact ih.swap ha

private theorem Spec.CallsReordered.after (env : Env) (x : Api) {a b : List Api} (h : CallsReordered env a b) : CallsReordered env (x :: a) (x :: b) := by
  induction h with
  | refl => exact .refl _
  | @swap before after _ _ _ ha ih => exact .swap (before := x :: before) ih ha

private theorem callsApart_symm {env : Env} {a b : Api} : CallsApart env a b → CallsApart env b a
  | .inl h => .inr (.inl h)
  | .inr (.inl h) => .inl h
  | .inr (.inr h) => .inr (.inr ⟨h.2, h.1⟩)

private theorem perm_calls {env : Env} {l l' : List Api} (hp : l.Perm l') : l.Pairwise (CallsApart env) → CallsReordered env l l' := by
  induction hp with
  | nil => exact fun _ => .refl _
  | cons x _ ih => exact fun hw => (ih (List.pairwise_cons.mp hw).2).after env x
  | swap x y l =>
    intro hw
    exact .swap (before := []) (.refl _) ((List.pairwise_cons.mp hw).1 x (List.mem_cons_self ..))
  | trans h1 _ ih1 ih2 => exact fun hw => (ih1 hw).comp (ih2 (h1.pairwise hw callsApart_symm))

/-- **C213, any order.** If all calls are apart from each other they may be made in any order. -/
theorem C213_any_order {env : Env} {l l' : List Api} (hw : l.Pairwise (CallsApart env)) (hp : l.Perm l')
    (hn : ∀ a ∈ l, (a.call env).args.length ≤ 255) (db : Db) (hr : Roomy l.length db.ctrs) :
    (callAll env l' db).2 = (callAll env l db).2 ∧ (cameTo env l' db).Perm (cameTo env l db) :=
  C213_reordered (perm_calls hp hw) hn db hr

private theorem call_reads (env : Env) (a : Api) (hn : (a.call env).args.length ≤ 255) (hf : a.refusal = none) :
    ∃ (r : Request) (rd : Outcome DispatchError Bytes → Resolved), Views r (a.call env).cmd (a.call env).kt (a.call env).args ∧
      a.start env = (dispatch env r []).andThen fun o => .done (rd o) := by
  obtain ⟨r, f, hv, hs, hd⟩ := sends_awake env a hn hf
  have hdone : ∀ o, ∃ x, readOutcome env f o = .done x := readOutcome_done fun v => (hd v).imp fun _ h => h.1
  refine ⟨r, fun o => finalOf (readOutcome env f o), hv, ?_⟩
  rw [hs]
  congr 1
  funext o
  obtain ⟨x, hx⟩ := hdone o
  simp only [hx, finalOf]

private theorem reads_requests (env : Env) (calls : List Api) (hn : ∀ a ∈ calls, (a.call env).args.length ≤ 255) (hf : ∀ a ∈ calls, a.refusal = none) :
    ∃ (rs : List (Request × Bytes)) (rds : List (Outcome DispatchError Bytes → Resolved)), Sees rs (calls.map (·.call env)) ∧
      rs.length = calls.length ∧
      (∀ (i : Nat) (a : Api), calls[i]? = some a → ∃ r rd, rs[i]? = some (r, []) ∧ rds[i]? = some rd ∧ r.commandId = (a.call env).cmd ∧
        a.start env = (dispatch env r []).andThen fun o => .done (rd o)) ∧
      ∀ db, (callAll env calls db).2 = (serveAll env rs db).2 ∧
        ∀ (i : Nat) rd, rds[i]? = some rd → (callAll env calls db).1[i]? = (serveAll env rs db).1[i]?.map rd := by
  induction calls with
  | nil => exact ⟨[], [], .nil, rfl, by simp, fun db => ⟨rfl, by simp⟩⟩
  | cons a as ih =>
    obtain ⟨rs, rds, h1, h2, h3, h4⟩ := ih (fun b hb => hn b (List.mem_cons_of_mem _ hb)) fun b hb => hf b (List.mem_cons_of_mem _ hb)
    obtain ⟨r, rd, hv, hs⟩ := call_reads env a (hn a List.mem_cons_self) (hf a List.mem_cons_self)
    refine ⟨(r, []) :: rs, rd :: rds, .cons hv h1, by simp [h2], fun i a' hi => ?_, fun db => ?_⟩
    · cases i with
      | zero =>
        simp only [List.getElem?_cons_zero, Option.some.injEq] at hi
        subst hi
        exact ⟨r, rd, rfl, rfl, hv.command, hs⟩
      | succ i => exact h3 i a' hi
    · have hrun : (a.start env).run db = (rd ((dispatch env r []).run db).1, ((dispatch env r []).run db).2) := by
        rw [hs, run_andThen]; rfl
      obtain ⟨g1, g2⟩ := h4 ((dispatch env r []).run db).2
      simp only [callAll, serveAll, hrun]
      refine ⟨g1, fun i rd' hi => ?_⟩
      cases i with
      | zero =>
        simp only [List.getElem?_cons_zero, Option.some.injEq] at hi
        subst hi
        rfl
      | succ i =>
        simp only [List.getElem?_cons_succ] at hi ⊢
        exact g2 i rd' hi

/-- **C213, concurrently.** Calls that are apart from each other and not refused, made at the same time by as many tasks: under every
schedule, once all have resolved, the entries are as if they had been made one after the other, and so is what they came to, but for
`stats`. -/
theorem C213_concurrent {env : Env} {calls : List Api} (hn : ∀ a ∈ calls, (a.call env).args.length ≤ 255) (hf : ∀ a ∈ calls, a.refusal = none)
    (hw : calls.Pairwise fun a b => Apart (a.call env) (b.call env)) (db : Db) (hr : Roomy calls.length db.ctrs) (sched : List Nat)
    (hd : ((threadsOf env calls db).exec sched).finished) :
    ((threadsOf env calls db).exec sched).db.keys = (callAll env calls db).2.keys ∧
    ∀ (i : Nat) (a : Api), calls[i]? = some a → a ≠ .stats → endOf ((threadsOf env calls db).exec sched) i = (callAll env calls db).1[i]? := by
  obtain ⟨rs, rds, h1, h2, h3, h4⟩ := reads_requests env calls hn hf
  have h0 : Follows (fun i o => ((rds[i]?).getD fun _ => .stuck) o) (Pool.start env rs db) (threadsOf env calls db) := by
    refine ⟨rfl, fun i => ?_⟩
    simp only [threadsOf, Pool.start, List.getElem?_map]
    cases hi : calls[i]? with
    | none =>
      rw [List.getElem?_eq_none_iff] at hi
      rw [show rs[i]? = none from List.getElem?_eq_none (by omega)]
      rfl
    | some a =>
      obtain ⟨r, rd, g1, g2, -, g4⟩ := h3 i a hi
      rw [g1, g2]
      simp only [Option.map_some, Option.getD_some, Option.some.injEq]
      exact g4
  have hex := h0.exec sched
  have hends : ∀ i < rs.length, ∃ out, ((Pool.start env rs db).exec sched).threads[i]? = some (.done out) := by
    intro i hi
    have hlen : ((Pool.start env rs db).exec sched).threads.length = rs.length := by rw [Pool.exec_length]; simp [Pool.start]
    obtain ⟨t, ht⟩ : ∃ t, ((Pool.start env rs db).exec sched).threads[i]? = some t := ⟨_, List.getElem?_eq_getElem (by omega)⟩
    have h5 := hex.2 i
    rw [ht] at h5
    obtain ⟨o, ho⟩ := hd _ (List.mem_of_getElem? h5)
    cases t with
    | done out => exact ⟨out, ht⟩
    | _ => cases ho
  obtain ⟨k1, k2⟩ := C191_concurrent (env := env) h1 (List.pairwise_map.mpr hw) db (by rw [h2]; exact hr) sched hends
  obtain ⟨g1, g2⟩ := h4 db
  refine ⟨by rw [hex.1, k1, g1], fun i a hi hs => ?_⟩
  obtain ⟨r, rd, f1, f2, f3, -⟩ := h3 i a hi
  rw [hex.ends i, g2 i rd f2, f2]
  have := k2 i (r, []) f1 (by
    rw [f3]
    intro h
    have := stats_call h
    cases a <;> simp_all [asksStats])
  unfold endOf
  rw [this]
  cases (serveAll env rs db).1[i]? <;> rfl

/-- **C213, the others.** Calls that are not apart may not pass each other. -/
theorem C213_needed (m : Mode) :
    (callAll (sampleEnv m) [.set [107] (.bytes [1]), .set [107] (.bytes [2])] (sampleDb [])).2.keys [107] ≠
      (callAll (sampleEnv m) [.set [107] (.bytes [2]), .set [107] (.bytes [1])] (sampleDb [])).2.keys [107] ∧
    ¬ (cameTo (sampleEnv m) [.delete [107], .exists [[107]]] (sampleDb [([107], .integer 4)])).Perm
      (cameTo (sampleEnv m) [.exists [[107]], .delete [107]] (sampleDb [([107], .integer 4)])) := by
  refine ⟨by cases m <;> decide +kernel, fun h => ?_⟩
  have h1 := (h.map Prod.snd).mem_iff (a := Outcome.ok (.ok (.bool true)))
  revert h1
  cases m <;> decide +kernel

/-- Beside C213: a panicking `get`, an `append` and a `rename` of other keys, the other way round. -/
example : (callAll (sampleEnv .release) [.rename [2] [3], .append [1] (.bytes [5]), .get (ascii "__hop__:a")] (sampleDb [([2], .integer 4)])).2 =
    (callAll (sampleEnv .release) [.get (ascii "__hop__:a"), .append [1] (.bytes [5]), .rename [2] [3]] (sampleDb [([2], .integer 4)])).2 :=
  (C213_any_order (env := sampleEnv .release) (by
      refine .cons ?_ (.cons ?_ (.cons ?_ .nil))
      all_goals simp only [List.mem_cons, List.not_mem_nil, or_false, forall_eq_or_imp, forall_eq, false_implies, implies_true]
      · exact ⟨.inr (.inr (by simp only [Apart, Bystander]; decide +kernel)), .inr (.inr (by simp only [Apart, Bystander]; decide +kernel))⟩
      · exact .inr (.inr (by simp only [Apart, Bystander]; decide +kernel)))
    (List.reverse_perm [.rename [2] [3], .append [1] (.bytes [5]), .get (ascii "__hop__:a")])
    (by decide) (sampleDb [([2], .integer 4)]) (sampleDb_roomy _ _ (by decide))).1

/-- Beside C213: an increment and a `set` of another key, turn by turn. -/
example : ((threadsOf (sampleEnv .debug) [.increment [1] none, .set [2] (.bytes [7])] (sampleDb [([2], .integer 4)])).exec
      [1, 0, 1, 0, 1, 0, 1, 0, 1, 0, 1, 0]).db.keys = (callAll (sampleEnv .debug) [.increment [1] none, .set [2] (.bytes [7])] (sampleDb [([2], .integer 4)])).2.keys :=
  (C213_concurrent (env := sampleEnv .debug) (by decide) (by decide)
    (.cons (by
      simp only [List.mem_cons, List.not_mem_nil, or_false, forall_eq, Apart, Bystander]
      decide +kernel) (.cons (by simp) .nil))
    (sampleDb [([2], .integer 4)]) (sampleDb_roomy _ _ (by decide)) [1, 0, 1, 0, 1, 0, 1, 0, 1, 0, 1, 0]
    (finished_iff.mpr (by decide +kernel))).1

end Hop
