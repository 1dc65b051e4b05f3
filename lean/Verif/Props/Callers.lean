import Verif.Spec.Callers
import Verif.Props.Linear
import Verif.Props.ClientThreads

/-! # C144: tasks that make many calls of an in-memory client, each call depending on what the others came to -/

namespace Hop

open Spec Prog

/-! ## Programs that end by computing something -/

theorem Ends.finish {α β} {r : Outcome DispatchError α} {p : Prog α} (h : Ends r p) {g : Outcome DispatchError α → Prog β}
    (hg : ∀ r, ∃ o, g r = .done o) : ∃ r, Ends r (p.andThen g) := by
  obtain ⟨o, ho⟩ := hg r
  refine ⟨o, ?_⟩
  cases p with
  | done r' => simp only [Ends] at h; subst h; simp only [Prog.andThen, ho, Ends]
  | onKey => exact absurd h id
  | onCtr m upd next => intro x hx; simp only [h x hx, Prog.andThen, ho]

theorem Within.finish {α β} {Inv : Store → Prop} {n : Nat} {p : Prog α} (h : Within Inv n p)
    {g : Outcome DispatchError α → Prog β} (hg : ∀ r, ∃ o, g r = .done o) : Within Inv n (p.andThen g) :=
  h.andThen (m := 0) fun r => by obtain ⟨o, ho⟩ := hg r; rw [ho]; exact .done

theorem Single.finish {α β} {Inv : Store → Prop} {n : Nat} {p : Prog α}
    (h : Single Inv (fun p => (∃ r, Ends r p) ∧ Within Inv 1 p) n p) {g : Outcome DispatchError α → Prog β}
    (hg : ∀ r, ∃ o, g r = .done o) : Single Inv (fun p => (∃ r, Ends r p) ∧ Within Inv 1 p) n (p.andThen g) := by
  induction h with
  | quiet h => obtain ⟨⟨r, h1⟩, h2⟩ := h; exact .quiet ⟨h1.finish hg, h2.finish hg⟩
  | fire h =>
    refine .fire fun s hs => ⟨(h s hs).1, ?_⟩
    obtain ⟨⟨r, h1⟩, h2⟩ := (h s hs).2
    exact ⟨h1.finish hg, h2.finish hg⟩
  | @look n k upd next q h _ ih =>
    refine .look (q := q.andThen g) (fun s hs => ⟨(h s hs).1, ?_⟩) ih
    rw [(h s hs).2]

theorem Counts.finish {α β} {p : Prog α} (h : Counts p) {g : Outcome DispatchError α → Prog β}
    (hg : ∀ r, ∃ o, g r = .done o) : Counts (p.andThen g) := by
  induction p with
  | done r => obtain ⟨o, ho⟩ := hg r; simp only [Prog.andThen, ho, Counts]
  | onKey k upd next ih => exact fun o => ih o (h o)
  | onCtr m upd next ih =>
    intro o
    rcases h o with ⟨h1, h2⟩ | ⟨h1, r, h2⟩
    · exact .inl ⟨h1, ih o h2⟩
    · obtain ⟨o', ho⟩ := hg r
      exact .inr ⟨h1, o', by simp only [h2, Prog.andThen, ho]⟩

/-! ## Calls -/

theorem readOutcome_done {env : Env} {f : Value → Client.Job Got} (hf : ∀ v, ∃ o, f v = .done o) (r : Outcome DispatchError Bytes) :
    ∃ o, readOutcome env f r = .done o := by
  cases r with
  | ok resp =>
    simp only [readOutcome]
    cases (RespParser.feed env.mode .new resp).1 with
    | concluded x =>
      cases x with
      | value v => exact hf v
      | _ => exact ⟨_, rfl⟩
    | _ => exact ⟨_, rfl⟩
  | _ => exact ⟨_, rfl⟩

/-- A call is nothing at all, or one request and a computation. -/
theorem Api.start_shape (env : Env) (a : Api) (hn : (a.call env).args.length ≤ 255) :
    (∃ e, a.refusal = some e ∧ a.start env = .done (.ok (.error e))) ∨
    (a.refusal = none ∧ ∃ r g, Views r (a.call env).cmd (a.call env).kt (a.call env).args ∧
      a.start env = (dispatch env r []).andThen g ∧ ∀ o, ∃ x, g o = .done x) := by
  cases hr : a.refusal with
  | some e =>
    have := Api.start_eq env a hn
    rw [hr] at this
    exact .inl ⟨e, rfl, this⟩
  | none =>
    obtain ⟨b, f, hv, hs, -, hd⟩ := sends_done env a hn hr
    exact .inr ⟨rfl, b.intoRequest, readOutcome env f, hv, by rw [hs, bind_send], readOutcome_done hd⟩

theorem Api.start_single {env : Env} {a : Api} (hn : (a.call env).args.length ≤ 255) {K : Bytes → Prop} {τ : Bytes → KeyType}
    (hs : a.refusal = none → Steady K (a.call env)) :
    Single (Kinds K τ) (fun p => (∃ r, Ends r p) ∧ Within (Kinds K τ) 1 p) 1 (a.start env) := by
  rcases Api.start_shape env a hn with ⟨e, -, h⟩ | ⟨hr, r, g, hv, h, hg⟩
  · rw [h]; exact .quiet ⟨⟨_, rfl⟩, .done⟩
  · rw [h]; exact (single_dispatch hv (hs hr)).finish hg

theorem Api.start_counts {env : Env} {a : Api} (hn : (a.call env).args.length ≤ 255) : Counts (a.start env) := by
  rcases Api.start_shape env a hn with ⟨e, -, h⟩ | ⟨hr, r, g, hv, h, hg⟩
  · rw [h]; trivial
  · rw [h]; exact (Counts.dispatch env r []).finish hg

/-! ## Tasks are agents -/

theorem Caller.prog_agent (env : Env) (c : Caller) (n : Nat) (past : List Resolved) :
    Caller.prog env c n past = Agent.prog (Api.start env) c n past := by
  induction n generalizing past with
  | zero => rfl
  | succ n ih =>
    simp only [Caller.prog, Agent.prog]
    cases c past with
    | none => rfl
    | some x => simp only [ih]

theorem Callers.pool_agents (env : Env) (cs : List (Caller × Nat)) (db : Db) :
    Callers.pool env cs db = Agents.pool (Api.start env) cs db := by
  simp only [Callers.pool, Agents.pool, Caller.prog_agent]

theorem callAll_actAll (env : Env) (l : List Api) (db : Db) : callAll env l db = actAll (Api.start env) l db := by
  induction l generalizing db with
  | nil => rfl
  | cons x l ih => simp only [callAll, actAll, ih]

theorem Agent.Amid.caller {env : Env} {c : Caller} {n : Nat} {got : List Resolved} {t : Prog (List Resolved)}
    (h : Agent.Amid (Api.start env) c n got t) : c.Amid env n got t := by
  rcases h with h | ⟨x, p, h1, h2, h3, h4, h5⟩
  · exact .inl h
  · exact .inr ⟨x, p, h1, h2, h3, h4, by simp only [h5, Caller.prog_agent]⟩

/-- C144. Any number of tasks share an in-memory client, and each makes any number of calls, every one depending on what
its calls so far came to; the calls that are not refused are steady (see `Steady`). To every moment of every execution
belongs a roll, the calls that have taken effect, in an order; a later moment only adds to the end of it. Making the calls of the roll
one after the other, in a single task, gives the stored keys; the calls of a task on the roll are the ones it makes, and
what they come to there is what they came to for the task, and perhaps what the call it is waiting for will come to. -/
theorem C144_one_after_the_other {env : Env} {cs : List (Caller × Nat)} (K : Bytes → Prop)
    (hK : ∀ c ∈ cs, ∀ a, Caller.Makes c.1 a → (a.call env).args.length ≤ 255 ∧ (a.refusal = none → Steady K (a.call env)))
    (db : Db) (hex : ∀ k, K k → db.keys k ≠ none) (hc : Roomy (cs.map (·.2)).sum db.ctrs) :
    ∃ roll : List Nat → List (Nat × Api), (∀ s s', ∃ more, roll (s ++ s') = roll s ++ more) ∧ ∀ s,
      ((Callers.pool env cs db).exec s).db.keys = (callAll env ((roll s).map Prod.snd) db).2.keys ∧
      (∀ e ∈ roll s, e.1 < cs.length) ∧
      ∀ (i : Nat) c t, cs[i]? = some c → ((Callers.pool env cs db).exec s).threads[i]? = some t →
        ∃ outs got, chosen i (((roll s).map Prod.fst).zip (callAll env ((roll s).map Prod.snd) db).1) = outs ∧
          (∀ (j : Nat) a, (chosen i (roll s))[j]? = some a → c.1 (outs.take j) = some a) ∧
          c.1.Amid env c.2 got t ∧ (outs = got ∨ (¬ Ended t) ∧ ∃ o, outs = got ++ [o]) := by
  obtain ⟨roll, h1, h2⟩ := agents_one_after_the_other (cs := cs) (act := Api.start env)
    (Inv := Kinds K fun k => ((db.keys k).map Value.kind).getD .bytes)
    (fun c hc a ha => (Api.start_single (hK c hc a ha).1 (hK c hc a ha).2).imp fun _ h => h.1)
    (fun c hc a ha => Api.start_counts (hK c hc a ha).1) db (kinds_of hex) hc
  refine ⟨roll, h1, fun s => ?_⟩
  obtain ⟨-, h3, h4, h5⟩ := h2 s
  rw [Callers.pool_agents, callAll_actAll]
  refine ⟨h3, h4, fun i c t hi ht => ?_⟩
  obtain ⟨outs, got, g1, g2, g3, g4⟩ := h5 i c t hi ht
  exact ⟨outs, got, g1, g2, g3.caller, g4⟩

/-- C144, progress: three operations for each of its calls, whenever they happen, finish a task, whatever the others do. -/
theorem C144_finishes {env : Env} {cs : List (Caller × Nat)} (K : Bytes → Prop)
    (hK : ∀ c ∈ cs, ∀ a, Caller.Makes c.1 a → (a.call env).args.length ≤ 255 ∧ (a.refusal = none → Steady K (a.call env)))
    (db : Db) (hex : ∀ k, K k → db.keys k ≠ none) (hc : Roomy (cs.map (·.2)).sum db.ctrs) (sched : List Nat) (i : Nat)
    (c : Caller) (n : Nat) (hi : cs[i]? = some (c, n)) (hn : 3 * n ≤ sched.count i) :
    ∃ outs, ((Callers.pool env cs db).exec sched).threads[i]? = some (.done (.ok outs)) := by
  rw [Callers.pool_agents]
  exact agents_finish (cs := cs) (act := Api.start env)
    (Inv := Kinds K fun k => ((db.keys k).map Value.kind).getD .bytes)
    (fun c hc a ha => Api.start_single (hK c hc a ha).1 (hK c hc a ha).2)
    (fun c hc a ha => Api.start_counts (hK c hc a ha).1) db (kinds_of hex) hc sched i c n hi hn

/-- C144, one task: calls made one after the other come to what the engine's commands give, as long as every answer is
within the limits of a response. -/
theorem C144_calls (env : Env) (l : List Api) (db : Db) (hn : ∀ a ∈ l, (a.call env).args.length ≤ 255)
    (hc : Roomy l.length db.ctrs)
    (hf : ∀ (j : Nat) a, l[j]? = some a → a.refusal = none →
      Carriable env.mode (perform env (a.call env) (askAll env (l.take j) db).2).1) :
    callAll env l db = askAll env l db := by
  induction l generalizing db with
  | nil => rfl
  | cons a l ih =>
    simp only [List.length_cons] at hc
    have hn1 := hn a (by simp)
    have hc' := (Api.start_counts (env := env) hn1).run_roomy db l.length hc
    simp only [callAll, askAll]
    cases hr : a.refusal with
    | some e =>
      have h0 := C65_refused env a db hn1 hr
      rw [h0] at hc' ⊢
      have := ih db (fun a ha => hn a (by simp [ha])) hc' (fun j b hj hb => by
        have := hf (j + 1) b (by simpa using hj) hb
        simpa only [List.take_succ_cons, askAll, hr] using this)
      simp only [this]
    | none =>
      have h0 := C65_answered env a db hn1 hr (Roomy.mono hc (by omega)) (hf 0 a rfl hr)
      rw [h0] at hc' ⊢
      have := ih _ (fun a ha => hn a (by simp [ha])) hc' (fun j b hj hb => by
        have := hf (j + 1) b (by simpa using hj) hb
        simpa only [List.take_succ_cons, askAll, hr] using this)
      simp only [this]

/-- Beside C144: a task that increments a counter, tries to read a key without a name, and reads the counter if that was
refused; and a task that decrements the counter. -/
example : let c : Caller := fun past => match past with
      | [] => some (.increment [1] none)
      | [.ok (.ok _)] => some (.get [])
      | [_, .ok (.error _)] => some (.get [1])
      | _ => none
    let d : Caller := fun past => match past with
      | [] => some (.decrement [1] (some .integer))
      | _ => none
    let db := sampleDb [([1], .integer 5)]
    let cs := [(c, 5), (d, 1)]
    (∃ roll : List Nat → List (Nat × Api), (∀ s s', ∃ more, roll (s ++ s') = roll s ++ more) ∧ ∀ s,
      ((Callers.pool (sampleEnv .debug) cs db).exec s).db.keys =
        (callAll (sampleEnv .debug) ((roll s).map Prod.snd) db).2.keys) ∧
    (∃ outs, ((Callers.pool (sampleEnv .debug) cs db).exec [0, 1, 1, 0, 0, 1, 0, 0, 0, 1]).threads[1]? = some (.done (.ok outs))) ∧
    ((Callers.pool (sampleEnv .debug) cs db).exec [0, 1, 1, 0, 0, 1, 0, 0, 0, 1]).threads.map
      (fun t => match t with | .done r => some r | _ => none) =
      [some (.ok [.ok (.ok (.value (.integer 6))), .ok (.error (.buildingRequest .argumentEmpty)),
          .ok (.ok (.value (.integer 5)))]),
        some (.ok [.ok (.ok (.value (.integer 5)))])] ∧
    callAll (sampleEnv .debug) [.increment [1] none, .get [], .get [1]] db =
      askAll (sampleEnv .debug) [.increment [1] none, .get [], .get [1]] db := by
  intro c d db cs
  have hK : ∀ e ∈ cs, ∀ a, Caller.Makes e.1 a →
      (a.call (sampleEnv .debug)).args.length ≤ 255 ∧ (a.refusal = none → Steady (· = [1]) (a.call (sampleEnv .debug))) := by
    rintro e he a ⟨past, hp⟩
    have key : a = .increment [1] none ∨ a = .get [] ∨ a = .get [1] ∨ a = .decrement [1] (some .integer) := by
      simp only [cs, List.mem_cons, List.not_mem_nil, or_false] at he
      rcases he with rfl | rfl <;> simp only [c, d] at hp <;> split at hp <;>
        simp only [Option.some.injEq, reduceCtorEq] at hp <;> simp [← hp]
    rcases key with rfl | rfl | rfl | rfl
    · exact ⟨by decide, fun _ k hk => by simpa [Api.call] using hk.symm⟩
    · exact ⟨by decide, fun _ => trivial⟩
    · exact ⟨by decide, fun _ => trivial⟩
    · exact ⟨by decide, fun _ k hk => by simpa [Api.call] using hk.symm⟩
  have hr : Roomy (cs.map (·.2)).sum db.ctrs := sampleDb_roomy _ _ (by decide)
  have hex : ∀ k, k = [1] → db.keys k ≠ none := by rintro k rfl; decide +kernel
  refine ⟨?_, C144_finishes (· = [1]) hK db hex hr _ 1 d 1 rfl (by decide), by decide +kernel, ?_⟩
  · obtain ⟨roll, h1, h2⟩ := C144_one_after_the_other (· = [1]) hK db hex hr
    exact ⟨roll, h1, fun s => (h2 s).1⟩
  · refine C144_calls _ _ _ (by decide) (sampleDb_roomy _ _ (by decide)) fun j a hj hr => ?_
    match j with
    | 0 => cases hj; rw [show (perform _ _ _).1 = .value (.integer 6) by decide +kernel]; trivial
    | 1 => cases hj; simp [Api.refusal] at hr
    | 2 => cases hj; rw [show (perform _ _ _).1 = .value (.integer 6) by decide +kernel]; trivial
    | j + 3 => simp at hj

end Hop
