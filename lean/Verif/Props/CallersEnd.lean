import Verif.Props.ClientMidway
import Verif.Props.Fair

/-!
# Calls of tasks sharing an in-memory client come to an end (C209)
-/

namespace Hop

open Prog Spec

/-- The call takes key `k` away, if only for a moment. -/
def Spec.TakesAway (k : Bytes) (a : Api) : Prop := (∃ v, a = .set k v) ∨ a = .delete k ∨ ∃ b, a = .rename k b

open Classical in
/-- How many calls the tasks other than the `i`-th may make, counting only tasks that may take key `k` away. -/
noncomputable def Spec.hindrance (cs : List (Caller × Nat)) (i : Nat) (k : Bytes) : Nat :=
  ((cs.eraseIdx i).map fun c => if ∃ a, Caller.Makes c.1 a ∧ TakesAway k a then c.2 else 0).sum

private theorem Cuts.start (env : Env) (a : Api) {m : Bytes → Nat} (hm : ∀ k, TakesAway k a → 0 < m k) : Cuts (a.start env) m := by
  rcases start_any env a with ⟨o, h⟩ | ⟨hr, hl, r, g, hv, h, hg⟩
  · rw [h]; trivial
  rw [h]
  have h1 : Cuts (Hop.dispatch env r []) m := by
    refine Cuts.dispatch fun k hc h0 => hm k ?_
    rw [hv.command] at hc
    rw [hv.arg] at h0
    cases a <;> simp only [Api.call, List.mem_cons, reduceCtorEq, List.not_mem_nil, or_false, or_self] at hc
    · cases h0; exact .inr (.inl rfl)
    · cases h0; exact .inr (.inr ⟨_, rfl⟩)
    · cases h0; exact .inl ⟨_, rfl⟩
  exact h1.andThen (m' := fun _ => 0) fun o => by obtain ⟨x, hx⟩ := hg o; rw [hx]; trivial

private theorem Cuts.caller (env : Env) (c : Caller) (m : Bytes → Nat) (n : Nat) (past : List Resolved)
    (hm : ∀ k a, Caller.Makes c a → TakesAway k a → n ≤ m k) : Cuts (Caller.prog env c n past) m := by
  induction n generalizing past m with
  | zero => trivial
  | succ n ih =>
    simp only [Caller.prog]
    cases hc : c past with
    | none => trivial
    | some a =>
      have h1 : Cuts (a.start env) fun k => m k - (m k - 1) :=
        Cuts.start env a fun k hk => by have := hm k a ⟨past, hc⟩ hk; omega
      refine (h1.andThen (m' := fun k => m k - 1) fun o => ih _ _ fun k a ha hk => ?_).mono fun k => ?_
      · have := hm k a ha hk; omega
      · omega

private theorem Lives.caller (env : Env) (c : Caller) {B : Nat} (hB : B ≤ env.spins) (n : Nat) (past : List Resolved) (hp : Outcome.stuck ∉ past)
    (d : Bytes → Nat) (o : Bytes → Bool) (hn : ∀ a, Caller.Makes c a → (a.call env).args.length ≤ 255)
    (hd : ∀ a, Caller.Makes c a → ∀ k, (a.call env).args[0]? = some k → d k ≤ B) :
    Lives true (fun x => ∃ l, x = .ok l ∧ Outcome.stuck ∉ l) (Caller.prog env c n past) (n * (2 * B + 261)) d o := by
  induction n generalizing past d o with
  | zero => exact ⟨past, rfl, hp⟩
  | succ n ih =>
    simp only [Caller.prog]
    cases hc : c past with
    | none => exact ⟨past, rfl, hp⟩
    | some a =>
      have hm : Caller.Makes c a := ⟨past, hc⟩
      have h1 : Lives true (· ≠ .stuck) (a.start env) (2 * B + 261) d o := by
        cases hr : a.refusal with
        | some e =>
          have := Api.start_eq env a (hn a hm)
          rw [hr] at this
          rw [this]
          exact nofun
        | none =>
          obtain ⟨r, f, hv, h, hf⟩ := sends_awake env a (hn a hm) hr
          rw [h]
          have h2 := Soon.dispatch (K := fun k => (a.call env).args[0]? = some k) (r := r) (resp := []) hB (fun k hk => by rwa [hv.arg] at hk) d o
            fun k hk => hd a hm k hk
          have h3 : lookedAt r ≤ 255 := by
            have := hn a hm
            unfold lookedAt
            rw [argsFrom_eq hv]
            split <;> simp <;> omega
          refine (h2.andThen (m := 0) fun x hx d' o' hd' => ?_).mono (by omega)
          obtain ⟨y, h4, h5⟩ := readOutcome_awake (env := env) hf hx
          rw [h4]
          exact h5
      refine (h1.andThen (m := n * (2 * B + 261)) fun x hx d' o' hd' => ?_).mono (by rw [Nat.add_one_mul n (2 * B + 261)]; omega)
      exact ih _ (by simp [hp, Ne.symm hx]) _ _ fun a ha k hk => Nat.le_trans (hd' k) (hd a ha k hk)

private theorem callers_alive {env : Env} {cs : List (Caller × Nat)} {i : Nat} {c : Caller × Nat} (hi : cs[i]? = some c) {B : Nat} (hB : B ≤ env.spins)
    (hn : ∀ a, Caller.Makes c.1 a → (a.call env).args.length ≤ 255)
    (hd : ∀ a, Caller.Makes c.1 a → ∀ k, (a.call env).args[0]? = some k → hindrance cs i k ≤ B) (db : Db) :
    (Callers.pool env cs db).Alive true (fun x => ∃ l, x = .ok l ∧ Outcome.stuck ∉ l) i (c.2 * (2 * B + 261)) (hindrance cs i) := by
  classical
  refine ⟨⟨Caller.prog env c.1 c.2 [], by simp [Callers.pool, hi], Lives.caller env c.1 hB c.2 [] (by simp) _ _ hn hd⟩,
    (cs.map fun c k => if ∃ a, Caller.Makes c.1 a ∧ TakesAway k a then c.2 else 0).set i fun _ => 0,
    by simp [Callers.pool], ?_, fun k => ?_⟩
  · intro j t m hji ht hm
    rw [List.getElem?_set_ne (Ne.symm hji)] at hm
    simp only [List.getElem?_map, Option.map_eq_some_iff] at hm
    obtain ⟨c', hc', rfl⟩ := hm
    simp only [Callers.pool, List.getElem?_map, hc', Option.map_some, Option.some.injEq] at ht
    subst ht
    refine Cuts.caller env c'.1 _ c'.2 [] fun k a ha hk => ?_
    have : ∃ a, Caller.Makes c'.1 a ∧ TakesAway k a := ⟨a, ha, hk⟩
    simp [this]
  · refine Nat.le_of_eq ?_
    unfold hindrance
    clear hd hi
    induction cs generalizing i with
    | nil => simp
    | cons a cs ih =>
      cases i with
      | zero => simp [Function.comp_def]
      | succ i => simp only [List.map_cons, List.set_cons_succ, List.eraseIdx_cons_succ, List.sum_cons, ih]

/-- **C209, how long calls take.** Tasks share an in-memory client; task `i` makes up to `c.2` calls, each depending on what those before came to. If for each
key it names first in a call, the other tasks that may take that key away (by setting, deleting or renaming it) make at most `B` calls together, then every call
of the task resolves, under every schedule, and the task has come to its end after at most `2 * B + 261` operations for each of its calls. -/
theorem C209_resolves {env : Env} {cs : List (Caller × Nat)} {i : Nat} {c : Caller × Nat} (hi : cs[i]? = some c) {B : Nat} (hB : B ≤ env.spins)
    (hn : ∀ a, Caller.Makes c.1 a → (a.call env).args.length ≤ 255)
    (hd : ∀ a, Caller.Makes c.1 a → ∀ k, (a.call env).args[0]? = some k → hindrance cs i k ≤ B) (db : Db) (sched : List Nat) :
    (∀ x, ((Callers.pool env cs db).exec sched).threads[i]? = some (.done x) → ∃ got, x = .ok got ∧ Outcome.stuck ∉ got) ∧
    (c.2 * (2 * B + 261) ≤ sched.count i →
      ∃ got, ((Callers.pool env cs db).exec sched).threads[i]? = some (.done (.ok got)) ∧ Outcome.stuck ∉ got) := by
  obtain ⟨d', -, h⟩ := (callers_alive hi hB hn hd db).exec sched
  obtain ⟨h1, h2⟩ := h.outcome
  refine ⟨h1, fun hc => ?_⟩
  obtain ⟨x, hx⟩ := h2 rfl (by omega)
  obtain ⟨got, rfl, hg⟩ := h1 x hx
  exact ⟨got, hx, hg⟩

private theorem exec_count {α} (p : Pool α) (s : List Nat) : (p.exec s).threads.length = p.threads.length := by
  induction s generalizing p with
  | nil => rfl
  | cons i is ih =>
    show ((p.stepAt i).exec is).threads.length = _
    rw [ih]
    unfold Pool.stepAt
    split
    · rfl
    · exact List.length_set

/-- **C209, fair executions.** If each task gets its turn again and again, then there is a moment from which on all tasks have come to their end, and all of their calls have
resolved; for each task the others make at most `env.spins` calls that may take away a key it names (the loop has no bound in the program, see C134). -/
theorem C209_fair {env : Env} {cs : List (Caller × Nat)} (hn : ∀ c ∈ cs, ∀ a, Caller.Makes c.1 a → (a.call env).args.length ≤ 255)
    (hd : ∀ (i : Nat) c, cs[i]? = some c → ∀ a, Caller.Makes c.1 a → ∀ k, (a.call env).args[0]? = some k → hindrance cs i k ≤ env.spins) (db : Db)
    (σ : Nat → Nat) (hf : Fair cs.length σ) :
    ∃ N, ∀ n, N ≤ n → AllEnded ((Callers.pool env cs db).exec (turns σ n)).threads := by
  obtain ⟨N, hN⟩ := pool_ends (Callers.pool env cs db) σ (by simpa [Callers.pool] using hf)
  refine ⟨N, fun n hn' q hq => ?_⟩
  obtain ⟨x, rfl⟩ := hN n hn' q hq
  obtain ⟨i, hi⟩ := List.getElem?_of_mem hq
  have hlt : i < cs.length := by
    have h1 := (List.getElem?_eq_some_iff.mp hi).1
    rw [exec_count] at h1
    simpa [Callers.pool] using h1
  have hc := List.getElem?_eq_getElem hlt
  obtain ⟨got, rfl, hg⟩ := (C209_resolves hc (Nat.le_refl _) (hn _ (List.getElem_mem hlt)) (hd i _ hc) db (turns σ n)).1 x hi
  exact ⟨got, rfl, hg⟩

/-! ## Concrete cases -/

/-- A task that makes an increment while another deletes the key: the hypotheses are met, so that after so many turns it has its result. -/
example (sched : List Nat) (h : 263 ≤ sched.count 0) :
    ∃ got, ((Callers.pool (sampleEnv .debug) [(once (.increment [1] none), 1), (once (.delete [1]), 1)] (sampleDb [])).exec sched).threads[0]? =
      some (.done (.ok got)) ∧ Outcome.stuck ∉ got := by
  have made : ∀ a, Caller.Makes (once (.increment [1] none)) a → a = .increment [1] none := by
    rintro a ⟨past, h⟩
    simp only [once] at h
    split at h <;> cases h
    rfl
  refine (C209_resolves (B := 1) (c := (once (.increment [1] none), 1)) rfl (by decide) (fun a ha => ?_) (fun a ha k hk => ?_) _ sched).2 (by simpa using h)
  · rw [made a ha]; decide
  · simp only [hindrance, List.eraseIdx_zero, List.tail_cons, List.map_cons, List.map_nil, List.sum_cons, List.sum_nil]
    split <;> decide

/-- Where the increment has to begin anew: it finds no key, inserts it, and does not find it again because it has been deleted. -/
example : (let p := (Callers.pool (sampleEnv .debug) [(once (.increment [1] none), 1), (once (.delete [1]), 1)] (sampleDb [])).exec [0, 0, 1, 1, 0, 0, 0, 0]
    (p.threads.map fun t => match t with | .done (.ok l) => l.length | _ => 0, p.db.keys [1])) = ([1, 1], some (.integer 1)) := by decide +kernel

/-- Two such tasks that take turns. -/
example : ∃ N, ∀ n, N ≤ n →
    AllEnded ((Callers.pool (sampleEnv .debug) [(once (.increment [1] none), 1), (once (.delete [1]), 1)] (sampleDb [])).exec (turns (· % 2) n)).threads := by
  have made : ∀ b a, Caller.Makes (once b) a → a = b := by
    rintro b a ⟨past, h⟩
    simp only [once] at h
    split at h <;> cases h
    rfl
  refine C209_fair ?_ ?_ _ _ ?_
  · intro c hc a ha
    simp only [List.mem_cons, List.not_mem_nil, or_false] at hc
    rcases hc with rfl | rfl <;> rw [made _ a ha] <;> decide
  · intro i c _ a _ k _
    refine Nat.le_trans (m := 2) ?_ (by decide)
    match i with
    | 0 =>
      simp only [hindrance, List.eraseIdx_zero, List.tail_cons, List.map_cons, List.map_nil, List.sum_cons, List.sum_nil]
      split <;> decide
    | 1 =>
      simp only [hindrance, List.eraseIdx_cons_succ, List.eraseIdx_zero, List.tail_cons, List.map_cons, List.map_nil, List.sum_cons, List.sum_nil]
      split <;> decide
    | i + 2 =>
      simp only [hindrance, List.eraseIdx_cons_succ, List.eraseIdx_nil, List.map_cons, List.map_nil, List.sum_cons, List.sum_nil]
      split <;> split <;> decide
  · intro i hi m
    refine ⟨2 * m + i, by omega, ?_⟩
    simp only [List.length_cons, List.length_nil] at hi
    dsimp only
    omega

end Hop
