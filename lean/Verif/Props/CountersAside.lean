import Verif.Props.Hop
import Verif.Props.Reserved
import Verif.Props.Counters
import Verif.Props.Interleave

/-! # C182: the counters of the statistics are of no consequence, and claims about commands without a condition on them -/

namespace Hop

open Spec Prog

/-- What becomes of an outcome that is to be counted: in a debug build counting beyond 64 bits panics. -/
def Spec.recounted (m : Mode) (ctrs : Metric → Option Nat) : Outcome DispatchError Bytes → Outcome DispatchError Bytes
  | .ok a => if m = .debug ∧ 2 ^ 64 ≤ (ctrs .commandsSuccessful).getD 0 + 1 then .panic else .ok a
  | .err e => if m = .debug ∧ 2 ^ 64 ≤ (ctrs .commandsErrored).getD 0 + 1 then .panic else .err e
  | o => o

theorem run_increment (env : Env) (m : Metric) (o : Outcome DispatchError Bytes) (db : Db) :
    (((incrementMetric env m (.done o)).run db).1 =
      if env.mode = .debug ∧ 2 ^ 64 ≤ (db.ctrs m).getD 0 + 1 then .panic else o) ∧
    ((incrementMetric env m (.done o)).run db).2.keys = db.keys := by
  simp only [incrementMetric, Prog.run]
  by_cases h : (db.ctrs m).getD 0 + 1 < 2 ^ 64
  · rw [addU_of_lt h, if_neg (by omega)]
    exact ⟨rfl, rfl⟩
  · cases hm : env.mode with
    | debug =>
      have : addU .debug 64 ((db.ctrs m).getD 0) 1 = none := by simp only [addU, if_neg h]
      rw [this, if_pos ⟨rfl, by omega⟩]
      exact ⟨rfl, rfl⟩
    | release =>
      rw [addU_release, if_neg (by simp)]
      exact ⟨rfl, rfl⟩

theorem run_countOutcome (env : Env) (o : Outcome DispatchError Bytes) (db : Db) :
    ((countOutcome env o).run db).1 = recounted env.mode db.ctrs o ∧ ((countOutcome env o).run db).2.keys = db.keys := by
  cases o with
  | ok a => exact run_increment env .commandsSuccessful (.ok a) db
  | err e => exact run_increment env .commandsErrored (.err e) db
  | panic => exact ⟨rfl, rfl⟩
  | stuck => exact ⟨rfl, rfl⟩

/-- A request is executed, and then its outcome is counted. -/
theorem run_dispatch (env : Env) (r : Request) (resp : Bytes) (db : Db) :
    ((dispatch env r resp).run db).1 = recounted env.mode db.ctrs ((command env r resp).run db).1 ∧
    ((dispatch env r resp).run db).2.keys = ((command env r resp).run db).2.keys := by
  have hq := (quiet_command env r resp).run db
  rw [dispatch, run_andThen]
  have := run_countOutcome env ((command env r resp).run db).1 ((command env r resp).run db).2
  rw [hq] at this
  exact this

/-- No counter has counted anything: there is room. -/
theorem roomy_none (n : Nat) (h : n < 2 ^ 64) : Roomy n fun _ => none := by
  intro m
  simpa using h

theorem recounted_roomy {m : Mode} {ctrs : Metric → Option Nat} (h : Roomy 1 ctrs) (o : Outcome DispatchError Bytes) :
    recounted m ctrs o = o := by
  have h1 := h .commandsSuccessful
  have h2 := h .commandsErrored
  cases o <;> simp only [recounted] <;> rw [if_neg] <;> omega

theorem recounted_release (ctrs : Metric → Option Nat) (o : Outcome DispatchError Bytes) : recounted .release ctrs o = o := by
  cases o <;> simp [recounted]

/-- **C182, keys.** What any request does to the stored keys does not depend on the counters of the statistics, in
either build, full as they may be. -/
theorem C182_keys (env : Env) (r : Request) (resp : Bytes) (db : Db) (ctrs : Metric → Option Nat) :
    ((dispatch env r resp).run { db with ctrs := ctrs }).2.keys = ((dispatch env r resp).run db).2.keys := by
  rw [(run_dispatch env r resp _).2, (run_dispatch env r resp _).2]
  exact (command_blind env r resp { db with ctrs := ctrs } db rfl).1

/-- **C182, outcomes.** What any request but Stats answers is what it answers with fresh counters, except that in a
debug build a request panics, having done its work, if its outcome cannot be counted any more. -/
theorem C182_outcome (env : Env) (r : Request) (hs : r.commandId ≠ .stats) (resp : Bytes) (db : Db) :
    ((dispatch env r resp).run db).1 =
      recounted env.mode db.ctrs ((dispatch env r resp).run { db with ctrs := fun _ => none }).1 := by
  rw [(run_dispatch env r resp _).1, (run_dispatch env r resp _).1, recounted_roomy (roomy_none 1 (by omega)),
    (command_blind env r resp db { db with ctrs := fun _ => none } rfl).2.2.2 hs]

/-- An outcome other than a panic is the one there is with fresh counters (and so are the keys). -/
theorem recount {env : Env} {r : Request} {resp : Bytes} {db db' : Db} {o : Outcome DispatchError Bytes}
    (hs : r.commandId ≠ .stats) (ho : o ≠ .panic) (hr : (dispatch env r resp).run db = (o, db')) :
    ∃ db'', (dispatch env r resp).run { db with ctrs := fun _ => none } = (o, db'') ∧ db''.keys = db'.keys := by
  have h1 := C182_outcome env r hs resp db
  have h2 := C182_keys env r resp db fun _ => none
  rw [hr] at h1 h2
  refine ⟨_, Prod.ext ?_ rfl, h2⟩
  revert h1
  cases ((dispatch env r resp).run { db with ctrs := fun _ => none }).1 <;> simp only [recounted]
  · split
    · exact fun h => absurd h ho
    · exact fun h => h.symm
  · split
    · exact fun h => absurd h ho
    · exact fun h => h.symm
  · exact fun h => h.symm
  · exact fun h => h.symm

/-- **C182, histories.** After any requests the stored keys do not depend on the counters; in a release build neither do
the answers to those that are not Stats. -/
theorem C182_history (env : Env) (h : List (Request × Bytes)) (a b : Db) (hab : a.keys = b.keys) :
    (serveAll env h a).2.keys = (serveAll env h b).2.keys ∧
    (env.mode = .release → ∀ (i : Nat) (r : Request × Bytes), h[i]? = some r → r.1.commandId ≠ .stats →
      (serveAll env h a).1[i]? = (serveAll env h b).1[i]?) := by
  induction h generalizing a b with
  | nil => exact ⟨hab, fun _ i r hi => by simp at hi⟩
  | cons x h ih =>
    obtain ⟨r, resp⟩ := x
    have hk : ((dispatch env r resp).run a).2.keys = ((dispatch env r resp).run b).2.keys := by
      rw [(run_dispatch env r resp _).2, (run_dispatch env r resp _).2]
      exact (command_blind env r resp _ _ hab).1
    obtain ⟨h1, h2⟩ := ih _ _ hk
    refine ⟨h1, fun hm i r' hi hs => ?_⟩
    cases i with
    | succ i => exact h2 hm i r' hi hs
    | zero =>
      simp only [List.getElem?_cons_zero, Option.some.injEq] at hi
      subst hi
      simp only [serveAll, List.getElem?_cons_zero, Option.some.injEq]
      rw [(run_dispatch env r resp a).1, (run_dispatch env r resp b).1, hm, recounted_release, recounted_release]
      exact (command_blind env r resp a b hab).2.2.2 hs

/-! ## At every moment of every interleaving -/

/-- The program has nothing to do with keys any more. -/
def KeyFree {α} : Prog α → Prop
  | .done _ => True
  | .onKey _ _ _ => False
  | .onCtr _ _ next => ∀ o, KeyFree (next o)

/-- Both do the same to keys: for some time the same operations, and then none. -/
inductive KeysAlike {α} : Prog α → Prog α → Prop
  | idle {t u} : KeyFree t → KeyFree u → KeysAlike t u
  | onKey {k upd next next'} : (∀ o, KeysAlike (next o) (next' o)) → KeysAlike (.onKey k upd next) (.onKey k upd next')

/-- Outcomes that are the same but for the panic in which the counting may end in a debug build. -/
def Spec.SameUnlessPanic (m : Mode) (o o' : Outcome DispatchError Bytes) : Prop := o = o' ∨ m = .debug ∧ (o = .panic ∨ o' = .panic)

/-- Both do the same, whatever the counters are. -/
inductive Abreast (m : Mode) : Prog Bytes → Prog Bytes → Prop
  | done {o o'} : SameUnlessPanic m o o' → Abreast m (.done o) (.done o')
  | onKey {k upd next next'} : (∀ o, Abreast m (next o) (next' o)) → Abreast m (.onKey k upd next) (.onKey k upd next')
  | onCtr {c upd next next'} : (∀ o o', Abreast m (next o) (next' o')) → Abreast m (.onCtr c upd next) (.onCtr c upd next')

theorem keyFree_step {α} {t : Prog α} (h : KeyFree t) (db : Db) : KeyFree (t.step db).1 ∧ (t.step db).2.keys = db.keys := by
  cases t with
  | done r => exact ⟨h, rfl⟩
  | onKey k upd next => exact absurd h id
  | onCtr c upd next => exact ⟨h _, rfl⟩

theorem keysAlike_step {α} {t u : Prog α} (h : KeysAlike t u) {a b : Db} (hab : a.keys = b.keys) :
    KeysAlike (t.step a).1 (u.step b).1 ∧ (t.step a).2.keys = (u.step b).2.keys := by
  cases h with
  | idle h1 h2 =>
    have := keyFree_step h1 a
    have := keyFree_step h2 b
    exact ⟨.idle (keyFree_step h1 a).1 (keyFree_step h2 b).1, by rw [(keyFree_step h1 a).2, (keyFree_step h2 b).2, hab]⟩
  | onKey hn => exact ⟨by simp only [Prog.step]; rw [hab]; exact hn _, by simp only [Prog.step, Db.setKey]; rw [hab]⟩

theorem abreast_step {m : Mode} {t u : Prog Bytes} (h : Abreast m t u) {a b : Db} (hab : a.keys = b.keys) :
    Abreast m (t.step a).1 (u.step b).1 := by
  cases h with
  | done h => exact .done h
  | onKey hn => simp only [Prog.step]; rw [hab]; exact hn _
  | onCtr hn => exact hn _ _

theorem keyFree_count (env : Env) (o : Outcome DispatchError Bytes) : KeyFree (countOutcome env o) := by
  cases o <;> simp only [countOutcome, incrementMetric, KeyFree] <;> intro x <;> split <;> trivial

theorem keyFree_andThen {α β} {p : Prog α} {f : Outcome DispatchError α → Prog β} (hp : KeyFree p) (hf : ∀ o, KeyFree (f o)) :
    KeyFree (p.andThen f) := by
  induction p with
  | done r => exact hf r
  | onKey k upd next ih => exact absurd hp id
  | onCtr c upd next ih => exact fun o => ih o (hp o)

theorem keyFree_statsLoop {α} (next : BMap → Prog α) (hn : ∀ m, KeyFree (next m)) (l : List Metric) (m : BMap) :
    KeyFree (statsLoop next l m) := by
  induction l generalizing m with
  | nil => exact hn m
  | cons c l ih =>
    intro o
    simp only
    split
    · split
      · exact ih _
      · exact ih _
    · exact ih _

theorem keysAlike_free {p : Prog Bytes} (h : CounterFree p) {f : Outcome DispatchError Bytes → Prog Bytes}
    (hf : ∀ o, KeyFree (f o)) : KeysAlike (p.andThen f) (p.andThen f) := by
  induction p with
  | done r => exact .idle (hf r) (hf r)
  | onKey k upd next ih => exact .onKey fun o => ih o (h o)
  | onCtr c upd next ih => exact absurd h id

theorem keysAlike_dispatch (env : Env) (r : Request) (resp : Bytes) :
    KeysAlike (dispatch env r resp) (dispatch env r resp) := by
  by_cases hs : r.commandId = .stats
  · have hcmd : command env r resp = dispatchStats env r resp := by unfold command; rw [hs]
    have : KeyFree (dispatch env r resp) := by
      rw [dispatch, hcmd]
      refine keyFree_andThen ?_ (keyFree_count env)
      unfold dispatchStats
      split
      · trivial
      · exact keyFree_statsLoop (fun m => .done (.ofOption (Response.writeMap env resp m))) (fun m => trivial) _ _
    exact .idle this this
  · exact keysAlike_free (counterFree_command hs) (keyFree_count env)

theorem abreast_count (env : Env) (o : Outcome DispatchError Bytes) : Abreast env.mode (countOutcome env o) (countOutcome env o) := by
  have hinc : ∀ (m : Metric) (o : Outcome DispatchError Bytes), Abreast env.mode (incrementMetric env m (.done o))
      (incrementMetric env m (.done o)) := by
    intro m o
    refine .onCtr fun x y => ?_
    cases hm : env.mode with
    | release => rw [addU_release, addU_release]; exact .done (.inl rfl)
    | debug =>
      cases addU .debug 64 (x.getD 0) 1 <;> cases addU .debug 64 (y.getD 0) 1
      · exact .done (.inl rfl)
      · exact .done (.inr ⟨rfl, .inl rfl⟩)
      · exact .done (.inr ⟨rfl, .inr rfl⟩)
      · exact .done (.inl rfl)
  cases o with
  | ok a => exact hinc _ _
  | err e => exact hinc _ _
  | panic => exact .done (.inl rfl)
  | stuck => exact .done (.inl rfl)

theorem abreast_dispatch (env : Env) {r : Request} (hs : r.commandId ≠ .stats) (resp : Bytes) :
    Abreast env.mode (dispatch env r resp) (dispatch env r resp) := by
  have : ∀ p : Prog Bytes, CounterFree p → Abreast env.mode (p.andThen (countOutcome env)) (p.andThen (countOutcome env)) := by
    intro p h
    induction p with
    | done r => exact abreast_count env r
    | onKey k upd next ih => exact .onKey fun o => ih o (h o)
    | onCtr c upd next ih => exact absurd h id
  exact this _ (counterFree_command hs)

/-- How two executions compare. -/
structure Parallel (m : Mode) (plain : Nat → Prop) (p q : Pool Bytes) : Prop where
  keys : p.db.keys = q.db.keys
  length : p.threads.length = q.threads.length
  alike : ∀ (i : Nat) (t u : Prog Bytes), p.threads[i]? = some t → q.threads[i]? = some u →
    KeysAlike t u ∧ (plain i → Abreast m t u)

theorem Parallel.step {m : Mode} {plain : Nat → Prop} {p q : Pool Bytes} (h : Parallel m plain p q) (i : Nat) :
    Parallel m plain (p.stepAt i) (q.stepAt i) := by
  unfold Pool.stepAt
  cases hp : p.threads[i]? with
  | none =>
    have hq : q.threads[i]? = none := by
      rw [List.getElem?_eq_none_iff] at hp ⊢
      rw [← h.length]
      exact hp
    rw [hq]
    exact h
  | some t =>
    have hlt : i < p.threads.length := by
      rw [List.getElem?_eq_some_iff] at hp
      exact hp.1
    obtain ⟨u, hq⟩ : ∃ u, q.threads[i]? = some u := ⟨_, List.getElem?_eq_getElem (h.length ▸ hlt)⟩
    rw [hq]
    obtain ⟨h1, h2⟩ := h.alike i t u hp hq
    refine ⟨(keysAlike_step h1 h.keys).2, by simp [h.length], ?_⟩
    intro j t' u' ht' hu'
    simp only [List.getElem?_set] at ht' hu'
    by_cases hij : i = j
    · subst hij
      rw [if_pos rfl, if_pos hlt] at ht'
      rw [if_pos rfl, if_pos (h.length ▸ hlt)] at hu'
      simp only [Option.some.injEq] at ht' hu'
      subst ht' hu'
      exact ⟨(keysAlike_step h1 h.keys).1, fun hpl => abreast_step (h2 hpl) h.keys⟩
    · rw [if_neg hij] at ht' hu'
      exact h.alike j t' u' ht' hu'

theorem Parallel.exec {m : Mode} {plain : Nat → Prop} {p q : Pool Bytes} (h : Parallel m plain p q) (sched : List Nat) :
    Parallel m plain (p.exec sched) (q.exec sched) := by
  induction sched generalizing p q with
  | nil => exact h
  | cons i s ih => exact ih (h.step i)

/-- **C182, concurrency.** At every moment of every interleaving of any requests, Stats among them, the stored keys do
not depend on the counters there were at the start, in either build; and a request that is not Stats has an answer exactly
if it has one with the other counters, the same one (but that in a debug build one of the two may be a panic). -/
theorem C182_concurrent (env : Env) (rs : List (Request × Bytes)) (a b : Db) (hab : a.keys = b.keys) (sched : List Nat) :
    ((Pool.start env rs a).exec sched).db.keys = ((Pool.start env rs b).exec sched).db.keys ∧
    ∀ (i : Nat) (r : Request × Bytes), rs[i]? = some r → r.1.commandId ≠ .stats →
      ∀ o, ((Pool.start env rs a).exec sched).threads[i]? = some (.done o) →
        ∃ o', ((Pool.start env rs b).exec sched).threads[i]? = some (.done o') ∧ SameUnlessPanic env.mode o o' := by
  have h : Parallel env.mode (fun i => ∃ r : Request × Bytes, rs[i]? = some r ∧ r.1.commandId ≠ .stats)
      (Pool.start env rs a) (Pool.start env rs b) := by
    refine ⟨hab, rfl, ?_⟩
    intro i t u ht hu
    simp only [Pool.start, List.getElem?_map, Option.map_eq_some_iff] at ht hu
    obtain ⟨r, hr, rfl⟩ := ht
    obtain ⟨r', hr', rfl⟩ := hu
    rw [hr] at hr'
    simp only [Option.some.injEq] at hr'
    subst hr'
    refine ⟨keysAlike_dispatch env r.1 r.2, ?_⟩
    rintro ⟨r', hr', hs⟩
    rw [hr] at hr'
    simp only [Option.some.injEq] at hr'
    subst hr'
    exact abreast_dispatch env hs r.2
  have he := h.exec sched
  refine ⟨he.keys, fun i r hr hs o ho => ?_⟩
  have hlt : i < ((Pool.start env rs a).exec sched).threads.length := by
    rw [List.getElem?_eq_some_iff] at ho
    exact ho.1
  obtain ⟨u, hu⟩ : ∃ u, ((Pool.start env rs b).exec sched).threads[i]? = some u :=
    ⟨_, List.getElem?_eq_getElem (he.length ▸ hlt)⟩
  have := (he.alike i _ u ho hu).2 ⟨r, hr, hs⟩
  cases this with
  | done hsame => exact ⟨_, hu, hsame⟩

/-! ## Claims about commands, without a condition on the counters -/

/-- C21 whatever the counters are. -/
theorem C21_error_no_change_any_partial {env : Env} {r : Request} {c : CommandId} {kt : Option KeyType}
    {args : List Bytes} {resp : Bytes} {db db' : Db} {e : DispatchError} (hv : Views r c kt args)
    (hr : (dispatch env r resp).run db = (.err e, db'))
    (hex : ¬ ((c = .increment ∨ c = .decrement) ∧ kt = some .float ∧ ∀ k, args[0]? = some k → db.keys k = none)) :
    db'.keys = db.keys := by
  by_cases hs : r.commandId = .stats
  · have := C20_read_only env r resp db (by rw [hs]; simp)
    rw [hr] at this
    exact this
  · obtain ⟨db'', h1, h2⟩ := recount hs (by simp) hr
    rw [← h2]
    exact C21_error_no_change_partial (db := { db with ctrs := fun _ => none }) hv (roomy_none 1 (by omega)) h1 hex

/-- C53 whatever the counters are. -/
theorem C53_error_changes_any {env : Env} {r : Request} {c : CommandId} {kt : Option KeyType}
    {args : List Bytes} {resp : Bytes} {db db' : Db} {e : DispatchError} (hv : Views r c kt args)
    (hr : (dispatch env r resp).run db = (.err e, db')) :
    (db'.keys ≠ db.keys ↔ ∃ k more, args = k :: more ∧ (c = .increment ∨ c = .decrement) ∧ kt = some .float ∧
      db.keys k = none ∧ ¬ unusable env.mode k) ∧
    (db'.keys ≠ db.keys → ∃ k, args[0]? = some k ∧
      db'.keys = fun k' => if k' = k then some (.integer 0) else db.keys k') := by
  by_cases hs : r.commandId = .stats
  · have := C20_read_only env r resp db (by rw [hs]; simp)
    rw [hr] at this
    refine ⟨⟨fun h => absurd this h, ?_⟩, fun h => absurd this h⟩
    rintro ⟨k, more, -, hc, -⟩
    rw [hv.command] at hs
    subst hs
    simp at hc
  · obtain ⟨db'', h1, h2⟩ := recount hs (by simp) hr
    rw [← h2]
    exact C53_error_changes_iff (db := { db with ctrs := fun _ => none }) hv (roomy_none 1 (by omega)) h1

/-- C57 whatever the counters are. -/
theorem C57_reserved_changes_any {env : Env} {r : Request} {c : CommandId} {kt : Option KeyType} {args : List Bytes}
    (hv : Views r c kt args) (resp : Bytes) (db : Db) (k : Bytes) (hk : reserved k)
    (hch : ((dispatch env r resp).run db).2.keys k ≠ db.keys k) :
    (((dispatch env r resp).run db).2.keys k = none ∧ args[0]? = some k ∧ (c = .delete ∨ c = .rename ∨ c = .set)) ∨
    (∃ a, c = .rename ∧ args[0]? = some a ∧ args[1]? = some k ∧ db.keys k = none ∧
      ((dispatch env r resp).run db).2.keys k = db.keys a) := by
  rw [← C182_keys env r resp db fun _ => none] at hch ⊢
  exact C57_reserved_changes hv resp { db with ctrs := fun _ => none } (roomy_none 1 (by omega)) k hk hch

/-- C30 whatever the counters are. -/
theorem C30_values_out_of_reach_any_partial {env : Env} {r : Request} {c : CommandId} {kt : Option KeyType} {k : Bytes}
    {more : List Bytes} (hcmd : c ∈ valueCommands) (hv : Views r c kt (k :: more)) (hk : reserved k) (resp : Bytes)
    (db : Db) :
    (∀ out, ((dispatch env r resp).run db).1 ≠ .ok out) ∧ ((dispatch env r resp).run db).2.keys = db.keys := by
  have hs : r.commandId ≠ .stats := by
    rw [hv.command]
    rintro rfl
    simp [valueCommands] at hcmd
  obtain ⟨h1, h2⟩ := C30_values_out_of_reach_partial (env := env) hcmd hv hk resp { db with ctrs := fun _ => none }
    (roomy_none 1 (by omega))
  refine ⟨fun out ho => ?_, by rw [← C182_keys env r resp db fun _ => none]; exact h2⟩
  obtain ⟨db'', h3, -⟩ := recount hs (o := .ok out) (by simp) (Prod.ext ho rfl)
  exact h1 out (by rw [h3])

/-- C52 whatever the counters are. -/
theorem C52_set_collections_any {env : Env} {r : Request} {t : KeyType} {k : Bytes} {items : List Bytes}
    (hv : Views r .set (some t) (k :: items)) (resp : Bytes) (db db' : Db) (out : Bytes)
    (hs : (dispatch env r resp).run db = (.ok out, db')) :
    (t = .map → ∃ m, db'.keys k = some (.map m) ∧ (m.map Prod.fst).Nodup ∧
      ∀ x, List.lookup x m = (pairsOf items).reverse.lookup x) ∧
    (t = .set → ∃ s, db'.keys k = some (.set s) ∧ s.Nodup ∧ ∀ x, x ∈ s ↔ x ∈ items) := by
  obtain ⟨db'', h1, h2⟩ := recount (by rw [hv.command]; simp) (by simp) hs
  rw [← h2]
  exact C52_set_collections hv resp _ db'' out (roomy_none 2 (by omega)) h1

/-- C55 whatever the counters are, but for the panic of a debug build that cannot count the error any more. -/
theorem C55_by_refuses_non_integers_any {env : Env} {r : Request} {c : CommandId} {kt : Option KeyType} {k a : Bytes}
    {more : List Bytes} (hcmd : c = .incrementBy ∨ c = .decrementBy) (hv : Views r c kt (k :: a :: more))
    (resp : Bytes) (db : Db) (v : Value) (hu : ¬ unusable env.mode k) (hk : db.keys k = some v)
    (hi : v.kind ≠ .integer) (hmin : env.mode = .release ∨ a.take 8 ≠ [128, 0, 0, 0, 0, 0, 0, 0]) :
    ((dispatch env r resp).run db).1 =
      recounted env.mode db.ctrs (.err (if 8 ≤ a.length then .keyTypeDifferent else .argumentRetrieval)) ∧
    ((dispatch env r resp).run db).2.keys = db.keys := by
  have hs : r.commandId ≠ .stats := by
    rw [hv.command]
    rintro rfl
    simp at hcmd
  obtain ⟨h1, h2⟩ := C55_by_refuses_non_integers (env := env) hcmd hv resp { db with ctrs := fun _ => none } v hu hk hi hmin
    (roomy_none 1 (by omega))
  rw [C182_outcome env r hs resp db, h1]
  exact ⟨rfl, by rw [← C182_keys env r resp db fun _ => none]; exact h2⟩

/-- C48 in a release build whatever the counters are: the answers to any history without Stats, and the stored keys, are
those of the abstract store. -/
theorem C48_history_any (env : Env) (hm : env.mode = .release) (h : List (Request × Bytes)) (cs : List Call) (db : Db)
    (hv : Sees h cs) (hs : ∀ r ∈ h, r.1.commandId ≠ .stats) (hl : h.length < 2 ^ 64)
    (hd : ∀ a ∈ (performAll env cs { db with ctrs := fun _ => none }).1, Deliverable env.mode a) :
    (serveAll env h db).1 =
      List.zipWith (fun rb a => delivered env rb.2 a) h (performAll env cs { db with ctrs := fun _ => none }).1 ∧
    (serveAll env h db).2.keys = (performAll env cs { db with ctrs := fun _ => none }).2.keys := by
  have h1 := C48_history env h cs { db with ctrs := fun _ => none } hv (roomy_none _ hl) hd
  obtain ⟨h2, h3⟩ := C182_history env h db { db with ctrs := fun _ => none } rfl
  refine ⟨?_, by rw [h2, h1]⟩
  refine Eq.trans ?_ (congrArg Prod.fst h1)
  apply List.ext_getElem?
  intro i
  by_cases hi : i < h.length
  · exact h3 hm i h[i] (List.getElem?_eq_getElem hi) (hs _ (List.getElem_mem hi))
  · have hlen : ∀ (h : List (Request × Bytes)) (d : Db), (serveAll env h d).1.length = h.length := by
      intro h
      induction h with
      | nil => intro d; rfl
      | cons x h ih => intro d; simp [serveAll, ih]
    rw [List.getElem?_eq_none (by rw [hlen]; omega), List.getElem?_eq_none (by rw [hlen]; omega)]

/-- Both counters of the statistics are at their end: a Set in a debug build stores the value and panics, and in a
release build stores it and answers. -/
example :
    let full : Db := { sampleDb [] with ctrs := fun _ => some (2 ^ 64 - 1) }
    ((dispatch (sampleEnv .debug) (call .set (some .bytes) [[107], [1]]) []).run full).1 = .panic ∧
    ((dispatch (sampleEnv .debug) (call .set (some .bytes) [[107], [1]]) []).run full).2.keys [107] = some (.bytes [1]) ∧
    ((dispatch (sampleEnv .release) (call .set (some .bytes) [[107], [1]]) []).run full).1 = .ok (frame (.value (.bytes [1]))) := by
  decide +kernel

/-- The same as one of two concurrent requests, whose schedule ends with the counting. -/
example :
    let full : Db := { sampleDb [([107], .integer 4)] with ctrs := fun _ => some (2 ^ 64 - 1) }
    ((Pool.start (sampleEnv .debug) [(call .increment none [[107]], []), (call .get none [[107]], [])] full).exec
      [0, 1, 0, 1]).db.keys [107] = some (.integer 5) := by
  decide +kernel

/-! ## Further concrete cases -/

/-- The counters of a server that is about to overflow them. -/
private def brimming (l : List (Bytes × Value)) : Db := { sampleDb l with ctrs := fun _ => some (2 ^ 64 - 1) }

/-- Two concurrent requests, on a fresh server and on one about to overflow its counters. -/
example (sched : List Nat) :
    let rs := [(call .increment none [[107]], []), (call .get none [[107]], [])]
    ((Pool.start (sampleEnv .debug) rs (sampleDb [([107], .integer 4)])).exec sched).db.keys =
      ((Pool.start (sampleEnv .debug) rs (brimming [([107], .integer 4)])).exec sched).db.keys :=
  (C182_concurrent _ _ (sampleDb [([107], .integer 4)]) (brimming [([107], .integer 4)]) rfl sched).1

/-- The same one after another. -/
example :
    let rs := [(call .increment none [[107]], []), (call .get none [[107]], [])]
    (serveAll (sampleEnv .release) rs (sampleDb [([107], .integer 4)])).1[1]? =
      (serveAll (sampleEnv .release) rs (brimming [([107], .integer 4)])).1[1]? :=
  (C182_history _ _ _ _ rfl).2 rfl 1 _ rfl (by decide +kernel)

example : ((dispatch (sampleEnv .debug) (call .get none [[107]]) [9]).run (brimming [([107], .integer 4)])).1 = .panic := by
  rw [C182_outcome _ _ (by decide +kernel)]
  decide +kernel

/-- An Append to a value that is not a collection. -/
example : ((dispatch (sampleEnv .release) (call .append none [[107], [1]]) []).run (brimming [([107], .integer 4)])).2.keys =
    (brimming [([107], .integer 4)]).keys :=
  C21_error_no_change_any_partial (c := .append) (kt := none) (args := [[107], [1]]) (e := .keyTypeDifferent) (resp := [])
    (call_views _ _ _ (by decide) (by decide) (by decide)) (Prod.ext (by decide +kernel) rfl) (by simp)

/-- A Get of a reserved key. -/
example : (∀ out, ((dispatch (sampleEnv .debug) (call .get none [ascii "__hop__:a"]) []).run (brimming [(ascii "__hop__:a", .integer 4)])).1 ≠ .ok out) ∧
    ((dispatch (sampleEnv .debug) (call .get none [ascii "__hop__:a"]) []).run (brimming [(ascii "__hop__:a", .integer 4)])).2.keys =
      (brimming [(ascii "__hop__:a", .integer 4)]).keys :=
  C30_values_out_of_reach_any_partial (c := .get) (kt := none) (more := []) (by decide) (call_views _ _ _ (by decide) (by decide) (by decide))
    (by decide) [] _

/-- Two requests in turn, on a server about to overflow its counters. -/
example : (serveAll (sampleEnv .release) [(call .increment none [[107]], []), (call .get none [[107]], [9])] (brimming [([107], .integer 4)])).1 =
    [.ok (frame (.value (.integer 5))), .ok ([9] ++ frame (.value (.integer 5)))] := by
  rw [(C48_history_any (sampleEnv .release) rfl _ [⟨.increment, none, [[107]]⟩, ⟨.get, none, [[107]]⟩] (brimming [([107], .integer 4)])
    (.cons (call_views _ _ _ (by decide) (by decide) (by decide)) (.cons (call_views _ _ _ (by decide) (by decide) (by decide)) .nil))
    (by decide +kernel) (by decide) ?_).1]
  · decide +kernel
  · have h : (performAll (sampleEnv .release) [⟨.increment, none, [[107]]⟩, ⟨.get, none, [[107]]⟩]
        { brimming [([107], .integer 4)] with ctrs := fun _ => none }).1 = [.value (.integer 5), .value (.integer 5)] := by decide +kernel
    rw [h]
    intro a ha
    simp only [List.mem_cons, List.not_mem_nil, or_false, or_self] at ha
    subst ha
    exact ⟨by decide +kernel, by intro _ l h; cases h⟩

/-- A Set of a map with a repeated key. -/
example : ∃ m, ((dispatch (sampleEnv .release) (call .set (some .map) [[107], [1], [2], [1], [3]]) []).run (brimming [])).2.keys [107] = some (.map m) ∧
    List.lookup [1] m = some [3] := by
  obtain ⟨m, h1, -, h2⟩ := (C52_set_collections_any (env := sampleEnv .release) (t := .map) (k := [107]) (items := [[1], [2], [1], [3]])
    (call_views _ _ _ (by decide) (by decide) (by decide)) [] (brimming []) _ (frame (.value (.map [([1], [3])])))
    (Prod.ext (by decide +kernel) rfl)).1 rfl
  exact ⟨m, h1, (h2 [1]).trans rfl⟩

/-- An Increment that is to count in floats creates the key and reports an error. -/
example : ((dispatch (sampleEnv .release) (call .increment (some .float) [[107]]) []).run (brimming [])).2.keys ≠ (brimming []).keys :=
  (C53_error_changes_any (c := .increment) (kt := some .float) (args := [[107]]) (e := .keyTypeDifferent)
    (call_views _ _ _ (by decide) (by decide) (by decide)) (Prod.ext (by decide +kernel) rfl)).1.mpr
    ⟨[107], [], rfl, .inl rfl, rfl, rfl, by decide⟩

/-- A string is not incremented. -/
example : ((dispatch (sampleEnv .release) (call .incrementBy none [[107], [0, 0, 0, 0, 0, 0, 0, 1]]) []).run (brimming [([107], .bytes [4])])).1 =
    .err .keyTypeDifferent :=
  (C55_by_refuses_non_integers_any (c := .incrementBy) (kt := none) (k := [107]) (a := [0, 0, 0, 0, 0, 0, 0, 1]) (more := []) (.inl rfl)
    (call_views _ _ _ (by decide) (by decide) (by decide)) [] (brimming [([107], .bytes [4])]) (.bytes [4]) (by decide) rfl (by decide) (.inl rfl)).1

/-- A Delete of a reserved key. -/
example : ((dispatch (sampleEnv .release) (call .delete none [ascii "__hop__:a"]) []).run (brimming [(ascii "__hop__:a", .integer 4)])).2.keys
    (ascii "__hop__:a") = none := by
  rcases C57_reserved_changes_any (env := sampleEnv .release) (c := .delete) (kt := none) (args := [ascii "__hop__:a"])
    (call_views _ _ _ (by decide) (by decide) (by decide)) [] (brimming [(ascii "__hop__:a", .integer 4)]) (ascii "__hop__:a") (by decide)
    (by decide +kernel) with ⟨h, -⟩ | ⟨a, h, -⟩
  · exact h
  · cases h

end Hop
