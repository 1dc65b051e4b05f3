import Verif.Props.Builds
import Verif.Props.Adaptive

/-!
# What a request that panics leaves behind (C206)
-/

namespace Hop

open Prog Spec

/-- The key space with this one key holding something else, or nothing. -/
def Spec.Replaced (db : Db) (k : Bytes) (o : Option Value) (db' : Db) : Prop :=
  ∀ k', db'.keys k' = if k' = k then o else db.keys k'

/-! ## The debug build -/

/-- What can be left by a `Set` that panics. -/
private def SetLeft (r : Request) (db db' : Db) : Prop :=
  r.commandId = .set ∧ ∃ k, r.arg 0 = some k ∧ ∃ o, (o = none ∨ o = some (.map []) ∨ o = some (.set [])) ∧ db' = db.setKey k o

private def Left (r : Request) (p q : Prog Bytes) : Prop :=
  ∀ db, (p.run db).1 = .panic → (p.run db).2 = db ∨ (p.run db).2 = (q.run db).2 ∨ SetLeft r db (p.run db).2

variable {r : Request}

private theorem Left.same {p q : Prog Bytes} (h : ∀ db, (p.run db).2 = (q.run db).2) : Left r p q := fun db _ => .inr (.inl (h db))

private theorem Left.done {o : Outcome DispatchError Bytes} {q : Prog Bytes} : Left r (.done o) q := fun _ _ => .inl rfl

private theorem Left.orErr {α} {o : Option α} {e : DispatchError} {f g : α → Prog Bytes} (h : ∀ a, o = some a → Left r (f a) (g a)) :
    Left r (orErr o e f) (orErr o e g) := by
  cases o with
  | none => exact .done
  | some a => exact h a rfl

private theorem Left.resolve {k : Bytes} {t : KeyType} {next next' : KeyType → Prog Bytes} (h : ∀ t, Left r (next t) (next' t)) :
    Left r (resolveKeyType r k t next) (resolveKeyType r k t next') := by
  intro db hp
  rw [run_resolveKeyType] at hp ⊢
  rw [run_resolveKeyType]
  exact h _ db hp

private theorem Left.keyRef {env : Env} {k : Bytes} {next next' : Option Value → Prog Bytes} (h : ∀ o, Left r (next o) (next' o)) :
    Left r (Hop.keyRef (builtAs env .debug) k next) (Hop.keyRef (builtAs env .release) k next') := by
  intro db hp
  rw [run_keyRef] at hp ⊢
  rw [run_keyRef]
  by_cases hu : unusable (builtAs env .debug).mode k
  · rw [if_pos hu]; exact .inl rfl
  · rw [if_neg hu] at hp ⊢
    rw [if_neg (fun h' : unusable (builtAs env .release).mode k => hu (h'.elim .inl (fun h => by cases h.1)))]
    exact h _ db hp

private theorem Left.orInsert {env : Env} {k : Bytes} {mk : Value} {body body' : Value → Value × Outcome DispatchError Bytes}
    (hb : ∀ v, (body v).2 = .panic → (body v).1 = (body' v).1 ∨ (body v).1 = v ∧ v ≠ mk) :
    Left r (keyOrInsertWith (builtAs env .debug) k mk body) (keyOrInsertWith (builtAs env .release) k mk body') := by
  intro db hp
  rw [run_keyOrInsertWith] at hp ⊢
  rw [run_keyOrInsertWith]
  by_cases hu : unusable (builtAs env .debug).mode k
  · rw [if_pos hu]; exact .inl rfl
  · rw [if_neg hu] at hp ⊢
    rw [if_neg (fun h' : unusable (builtAs env .release).mode k => hu (h'.elim .inl (fun h => by cases h.1)))]
    cases hb _ hp with
    | inl h => exact .inr (.inl (by rw [h]))
    | inr h =>
      refine .inl ?_
      simp only [h.1]
      cases hk : db.keys k with
      | none => exact absurd (by rw [hk]; rfl) h.2
      | some v => simp only [Option.getD_some]; rw [← hk, Db.setKey_self]

private theorem Left.int (env : Env) (k : Bytes) (i : Int64) (resp : Bytes) :
    Left r (incrementIntBy (builtAs env .debug) k i resp) (incrementIntBy (builtAs env .release) k i resp) := by
  refine .orInsert fun v hp => ?_
  cases v with
  | integer j =>
    simp only [builtAs] at hp ⊢
    cases h : addI64 .debug j i with
    | some n => rw [h] at hp; cases hp
    | none =>
      refine .inr ⟨rfl, ?_⟩
      intro he
      simp only [Value.default, Value.integer.injEq] at he
      subst he
      simp [addI64] at h
  | _ => cases hp

private theorem Left.float (env : Env) (k : Bytes) (i : F64) (resp : Bytes) :
    Left r (incrementFloatBy (builtAs env .debug) k i resp) (incrementFloatBy (builtAs env .release) k i resp) := by
  refine .orInsert fun v hp => ?_
  cases v <;> cases hp

/-- The key is emptied first. -/
private theorem Left.emptied {env : Env} (hc : r.commandId = .set) {k : Bytes} (hk : r.arg 0 = some k) {mk : Value}
    {body body' : Value → Value × Outcome DispatchError Bytes}
    (hb : (body mk).2 = .panic → (body mk).1 = (body' mk).1 ∨ (body mk).1 = .map [] ∨ (body mk).1 = .set []) :
    Left r (removeKey k fun _ => keyOrInsertWith (builtAs env .debug) k mk body) (removeKey k fun _ => keyOrInsertWith (builtAs env .release) k mk body') := by
  intro db hp
  rw [run_removeKey, run_keyOrInsertWith, Db.setKey_keys_self] at hp ⊢
  rw [run_removeKey, run_keyOrInsertWith, Db.setKey_keys_self]
  by_cases hu : unusable (builtAs env .debug).mode k
  · rw [if_pos hu]; exact .inr (.inr ⟨hc, k, hk, none, .inl rfl, rfl⟩)
  · rw [if_neg hu] at hp ⊢
    rw [if_neg (fun h' : unusable (builtAs env .release).mode k => hu (h'.elim .inl (fun h => by cases h.1)))]
    simp only [Option.getD_none, Db.setKey_setKey] at hp ⊢
    rcases hb hp with h | h | h
    · exact .inr (.inl (by rw [h]))
    · exact .inr (.inr ⟨hc, k, hk, _, .inr (.inl rfl), by rw [h]⟩)
    · exact .inr (.inr ⟨hc, k, hk, _, .inr (.inr rfl), by rw [h]⟩)

private theorem key_first {k : Bytes} (h : r.key = some k) : r.arg 0 = some k := by
  unfold Request.key at h
  split at h
  · cases h
  · exact h

private theorem Left.set (env : Env) (hc : r.commandId = .set) (resp : Bytes) :
    Left r (dispatchSet (builtAs env .debug) r resp) (dispatchSet (builtAs env .release) r resp) := by
  refine .orErr fun k hk => ?_
  have hk := key_first hk
  split
  · exact .done
  · refine .resolve fun t => ?_
    cases t with
    | bytes => exact .orErr fun x _ => .emptied hc hk fun _ => .inl rfl
    | list => exact .orErr fun x _ => .emptied hc hk fun _ => .inl rfl
    | string => exact .orErr fun x _ => .emptied hc hk fun _ => .inl rfl
    | boolean => exact .orErr fun x _ => .emptied hc hk fun _ => .inl rfl
    | float => exact .orErr fun x _ => .emptied hc hk fun _ => .inl rfl
    | integer => exact .orErr fun x _ => .emptied hc hk fun _ => .inl rfl
    | map =>
      refine .orErr fun x _ => .emptied hc hk fun hp => ?_
      simp only [Value.default] at hp ⊢
      cases h : Response.writeMap (builtAs env .debug) resp x with
      | none => exact .inr (.inl rfl)
      | some out => rw [h] at hp; cases hp
    | set =>
      refine .orErr fun x _ => .emptied hc hk fun hp => ?_
      simp only [Value.default] at hp ⊢
      cases h : Response.writeSet (builtAs env .debug) resp x with
      | none => exact .inr (.inr rfl)
      | some out => rw [h] at hp; cases hp

private theorem Left.command (env : Env) (resp : Bytes) : Left r (command (builtAs env .debug) r resp) (command (builtAs env .release) r resp) := by
  simp only [Hop.command]
  cases hc : r.commandId with
  | append =>
    refine .orErr fun k _ => .orErr fun l _ => .resolve fun t => ?_
    cases t with
    | bytes => exact .orInsert fun v _ => by cases v <;> exact .inl rfl
    | list => exact .orInsert fun v _ => by cases v <;> exact .inl rfl
    | string => exact .orInsert fun v _ => by cases v <;> exact .inl rfl
    | _ => exact .done
  | set => exact .set env hc resp
  | rename =>
    refine .same fun db => ?_
    simp only [dispatchRename]
    split
    · rfl
    · simp only [run_orErr]
      cases r.arg 0 with
      | none => rfl
      | some k =>
        cases r.arg 1 with
        | none => rfl
        | some x =>
          simp only [run_containsKey]
          split
          · rfl
          · simp only [run_containsKey]
            split
            · rfl
            · simp only [run_removeKey]
              cases db.keys k <;> rfl
  | decrementBy =>
    refine .orErr fun k _ => ?_
    cases (r.arg 1).bind convInt with
    | some i =>
      simp only [builtAs]
      cases h : negI64 .debug i with
      | none => exact .done
      | some n =>
        have : negI64 .release i = some n := by
          simp only [negI64] at h ⊢
          split at h
          · rename_i hlt; rw [if_pos hlt]; exact h
          · cases h
        rw [this]; exact .int env k _ _
    | none =>
      simp only []
      cases (r.arg 1).bind convFloat with
      | some f => exact .float env k _ _
      | none => exact .done
  | incrementBy =>
    refine .orErr fun k _ => ?_
    cases (r.arg 1).bind convInt with
    | some i => exact .int env k _ _
    | none =>
      simp only []
      cases (r.arg 1).bind convFloat with
      | some f => exact .float env k _ _
      | none => exact .done
  | decrement =>
    refine .orErr fun k _ => ?_
    split
    · exact .float env k _ _
    · exact .int env k _ _
  | increment =>
    refine .orErr fun k _ => ?_
    split
    · exact .float env k _ _
    · exact .int env k _ _
  | delete =>
    simp only [dispatchDelete]
    split
    · exact .done
    · refine .orErr fun k _ => .same fun db => ?_
      simp only [run_removeKey]
      cases db.keys k <;> rfl
  | echo =>
    simp only [dispatchEcho]
    split <;> exact .done
  | «exists» =>
    simp only [dispatchExists]
    split
    · exact .done
    · exact .orErr fun _ _ => .same fun db => by simp only [run_allExist]
  | get =>
    refine .orErr fun k _ => .keyRef fun o => ?_
    cases o with
    | none => exact .done
    | some v =>
      simp only []
      split
      · split <;> exact .done
      · exact .done
  | is => exact .orErr fun _ _ => .orErr fun _ _ => .same fun db => rfl
  | keys =>
    refine .orErr fun k _ => .resolve fun t => ?_
    cases t with
    | map =>
      refine .keyRef fun o => ?_
      cases o with
      | none => exact .done
      | some v => cases v <;> exact .done
    | _ => exact .done
  | length =>
    have hl : ∀ t k, Left r (lengthAs (builtAs env .debug) t k resp) (lengthAs (builtAs env .release) t k resp) := fun t k => .keyRef fun o => by
      cases o with
      | none => exact .done
      | some v =>
        simp only []
        split <;> exact .done
    refine .orErr fun k _ => .resolve fun t => ?_
    cases t <;> first | exact .done | exact hl _ _
  | stats =>
    simp only [dispatchStats]
    split
    · exact .done
    · exact .same fun db => by simp only [run_statsLoop]; rfl
  | type =>
    refine .orErr fun k _ => .same fun db => rfl

private theorem replaced (db : Db) (k : Bytes) (o : Option Value) : Replaced db k o (db.setKey k o) := fun _ => rfl

/-- Counting leaves the key space, and if it panics the counters as numbers. -/
private theorem counting (env : Env) (m : Metric) (o : Outcome DispatchError Bytes) (db : Db) :
    ((incrementMetric env m (.done o)).run db).2.keys = db.keys ∧
      (((incrementMetric env m (.done o)).run db).1 = .panic → o ≠ .panic → ∀ m', (((incrementMetric env m (.done o)).run db).2.ctrs m').getD 0 = (db.ctrs m').getD 0) := by
  simp only [incrementMetric, Prog.run]
  cases h : addU env.mode 64 ((db.ctrs m).getD 0) 1 with
  | some n => exact ⟨rfl, fun hp hn => absurd hp hn⟩
  | none =>
    refine ⟨rfl, fun _ _ m' => ?_⟩
    simp only [run_done, Db.setCtr]
    split
    · rename_i hm; rw [hm]; simp
    · rfl

private theorem counting_keys (env : Env) (o : Outcome DispatchError Bytes) (db : Db) : ((countOutcome env o).run db).2.keys = db.keys := by
  cases o with
  | ok a => exact (counting env _ _ db).1
  | err e => exact (counting env _ _ db).1
  | panic => rfl
  | stuck => rfl

/-- **C206, debug.** Whatever a request holds and whatever is stored: if serving it panics in a debug build, the counters count what
they did, and the key space is as it was, or as serving the request in a release build would leave it, or the request is a `Set` and
its key holds nothing, or an empty map or set; all else is as it was. -/
theorem C206_debug (env : Env) (r : Request) (resp : Bytes) (db : Db) (h : ((dispatch (builtAs env .debug) r resp).run db).1 = .panic) :
    (∀ m, (((dispatch (builtAs env .debug) r resp).run db).2.ctrs m).getD 0 = (db.ctrs m).getD 0) ∧
    (((dispatch (builtAs env .debug) r resp).run db).2.keys = db.keys ∨
      ((dispatch (builtAs env .debug) r resp).run db).2.keys = ((dispatch (builtAs env .release) r resp).run db).2.keys ∨
      (r.commandId = .set ∧ ∃ k, r.arg 0 = some k ∧ ∃ o, (o = none ∨ o = some (.map []) ∨ o = some (.set [])) ∧
        Replaced db k o ((dispatch (builtAs env .debug) r resp).run db).2)) := by
  have hq := (quiet_command (builtAs env .debug) r resp).run db
  simp only [dispatch, run_andThen] at h ⊢
  rw [counting_keys, counting_keys]
  by_cases hp : ((command (builtAs env .debug) r resp).run db).1 = .panic
  · rw [hp]
    simp only [countOutcome, run_done]
    refine ⟨fun _ => by rw [hq], ?_⟩
    rcases Left.command env resp db hp with h' | h' | ⟨hc, k, hk, o, ho, h'⟩
    · exact .inl (by rw [h'])
    · exact .inr (.inl (by rw [h']))
    · exact .inr (.inr ⟨hc, k, hk, o, ho, by rw [h']; exact replaced db k o⟩)
  · have hs := (agree_command env r resp).run (db := db) hp
    rw [hs]
    refine ⟨fun m => ?_, .inr (.inl rfl)⟩
    rw [← hq]
    cases ho : ((command (builtAs env .debug) r resp).run db).1 with
    | ok a => rw [ho] at h; exact (counting _ _ _ _).2 h (fun h => by cases h) m
    | err e => rw [ho] at h; exact (counting _ _ _ _).2 h (fun h => by cases h) m
    | panic => exact absurd ho hp
    | stuck => rw [ho] at h; cases h

private theorem AllEnds.runs {α} {Q : Outcome DispatchError α → Prop} {p : Prog α} (hp : AllEnds Q p) : ∀ db, Q (p.run db).1 := by
  induction p with
  | done r => exact fun _ => hp
  | onKey k upd next ih => exact fun db => ih _ (hp _) _
  | onCtr m upd next ih => exact fun db => ih _ (hp _) _

/-- A command that refuses to use the key. -/
private def KeyRefused (S : Db → Db → Prop) (p : Prog Bytes) : Prop := ∀ db, (p.run db).1 = .panic → S db (p.run db).2

private theorem KeyRefused.orErr {α} {S : Db → Db → Prop} {o : Option α} {e : DispatchError} {f : α → Prog Bytes} (h : ∀ a, o = some a → KeyRefused S (f a)) :
    KeyRefused S (orErr o e f) := by
  cases o with
  | none => exact fun _ h => by cases h
  | some a => exact h a rfl

private theorem KeyRefused.fail {S : Db → Db → Prop} {e : DispatchError} : KeyRefused S (fail e) := fun _ h => by cases h

private theorem KeyRefused.resolve {S : Db → Db → Prop} {k : Bytes} {t : KeyType} {next : KeyType → Prog Bytes} (h : ∀ t, KeyRefused S (next t)) :
    KeyRefused S (resolveKeyType r k t next) := by
  intro db hp
  rw [run_resolveKeyType] at hp ⊢
  exact h _ db hp

private theorem KeyRefused.keyRef {env : Env} {k : Bytes} (hk : reserved k) {next : Option Value → Prog Bytes} :
    KeyRefused (fun db db' => db' = db) (Hop.keyRef env k next) := by
  intro db _
  rw [run_keyRef, if_pos (show unusable env.mode k from .inl hk)]

private theorem KeyRefused.orInsert {env : Env} {k : Bytes} (hk : reserved k) {mk : Value} {body : Value → Value × Outcome DispatchError Bytes} :
    KeyRefused (fun db db' => db' = db) (keyOrInsertWith env k mk body) := by
  intro db _
  rw [run_keyOrInsertWith, if_pos (show unusable env.mode k from .inl hk)]

private theorem KeyRefused.emptied {env : Env} {k : Bytes} (hk : reserved k) {mk : Value} {body : Value → Value × Outcome DispatchError Bytes} :
    KeyRefused (fun db db' => db' = db.setKey k none) (removeKey k fun _ => keyOrInsertWith env k mk body) := by
  intro db _
  rw [run_removeKey, run_keyOrInsertWith, if_pos (show unusable env.mode k from .inl hk)]

private theorem KeyRefused.set {env : Env} {k : Bytes} (h0 : r.arg 0 = some k) (hk : reserved k) (resp : Bytes) :
    KeyRefused (fun db db' => db' = db.setKey k none) (dispatchSet env r resp) := by
  refine .orErr fun k' hk' => ?_
  have hk' := key_first hk'
  rw [h0] at hk'
  cases hk'
  split
  · exact .fail
  · refine .resolve fun t => ?_
    cases t <;> exact .orErr fun x _ => .emptied hk

private theorem KeyRefused.value {env : Env} {k : Bytes} (h0 : r.arg 0 = some k) (hk : reserved k) (resp : Bytes) (hc : r.commandId ∈ valueCommands) :
    KeyRefused (fun db db' => db' = db) (command env r resp) := by
  have hkey : ∀ {k'}, r.key = some k' → reserved k' := fun h => by
    have h := key_first h
    rw [h0] at h
    cases h
    exact hk
  simp only [command]
  cases hc' : r.commandId <;> rw [hc'] at hc <;> first | exact absurd hc (by decide) | simp only []
  case append =>
    refine .orErr fun k' h => .orErr fun l _ => .resolve fun t => ?_
    rw [h0] at h
    cases h
    cases t <;> first | exact .fail | exact .orInsert hk
  case decrementBy =>
    refine .orErr fun k' h => ?_
    cases (r.arg 1).bind convInt with
    | some i =>
      simp only []
      split
      · exact .orInsert (hkey h)
      · exact fun _ _ => rfl
    | none =>
      simp only []
      split
      · exact .orInsert (hkey h)
      · exact .fail
  case incrementBy =>
    refine .orErr fun k' h => ?_
    split
    · exact .orInsert (hkey h)
    · split
      · exact .orInsert (hkey h)
      · exact .fail
  case decrement =>
    refine .orErr fun k' h => ?_
    split <;> exact .orInsert (hkey h)
  case increment =>
    refine .orErr fun k' h => ?_
    split <;> exact .orInsert (hkey h)
  case get => exact .orErr fun k' h => .keyRef (hkey h)
  case keys =>
    refine .orErr fun k' h => .resolve fun t => ?_
    cases t <;> first | exact .fail | exact .keyRef (hkey h)
  case length =>
    refine .orErr fun k' h => .resolve fun t => ?_
    cases t <;> first | exact .fail | exact .keyRef (hkey h)

/-- **C206, release.** If serving a request panics in a release build, its first argument is an internal key, and the request is one
of those that use their key's value, which leaves everything as it was, or a `Set`, which leaves the key without a value and everything else as it was. -/
theorem C206_release (env : Env) (r : Request) (resp : Bytes) (db : Db) (h : ((dispatch (builtAs env .release) r resp).run db).1 = .panic) :
    ((dispatch (builtAs env .release) r resp).run db).2.ctrs = db.ctrs ∧ ∃ k, r.arg 0 = some k ∧ reserved k ∧
      (r.commandId ∈ valueCommands ∧ ((dispatch (builtAs env .release) r resp).run db).2.keys = db.keys ∨
        r.commandId = .set ∧ Replaced db k none ((dispatch (builtAs env .release) r resp).run db).2) := by
  by_cases hk : r.commandId ∈ .set :: valueCommands → ∀ k, r.arg 0 = some k → ¬ reserved k
  · exact absurd h ((calm_dispatch (env := builtAs env .release) (resp := resp) rfl hk).runs db)
  · have hq := (quiet_command (builtAs env .release) r resp).run db
    have hp : ((command (builtAs env .release) r resp).run db).1 = .panic := by
      simp only [dispatch, run_andThen] at h
      cases ho : ((command (builtAs env .release) r resp).run db).1 with
      | ok a => rw [ho] at h; simp [countOutcome, incrementMetric, Prog.run, builtAs, addU_release] at h
      | err e => rw [ho] at h; simp [countOutcome, incrementMetric, Prog.run, builtAs, addU_release] at h
      | panic => rfl
      | stuck => rw [ho] at h; cases h
    simp only [dispatch, run_andThen]
    rw [hp]
    simp only [countOutcome, run_done]
    refine ⟨hq, ?_⟩
    simp only [Classical.not_imp, Classical.not_forall, Classical.not_not] at hk
    obtain ⟨hc, k, h0, hr⟩ := hk
    refine ⟨k, h0, hr, ?_⟩
    cases List.mem_cons.mp hc with
    | inl hc =>
      refine .inr ⟨hc, ?_⟩
      have := KeyRefused.set (env := builtAs env .release) h0 hr resp db
      simp only [command, hc] at hp ⊢
      rw [this hp]
      exact replaced db k none
    | inr hc => exact .inl ⟨hc, by rw [KeyRefused.value h0 hr resp hc db hp]⟩

/-- Beside C206: in a debug build, incrementing the largest number panics and leaves it; deleting when the successes can be counting no
further panics and has deleted; setting an internal key panics and has removed what it held. -/
example :
    (let d := sampleDb [([1], .integer (Int64.ofInt (2 ^ 63 - 1)))]
     let o := (dispatch (builtAs (sampleEnv .debug) .debug) (call .increment none [[1]]) []).run d
     o.1 = .panic ∧ o.2.keys [1] = some (.integer (Int64.ofInt (2 ^ 63 - 1)))) ∧
    (let d : Db := { sampleDb [([1], .integer 5), ([2], .boolean true)] with ctrs := fun _ => some (2 ^ 64 - 1) }
     let o := (dispatch (builtAs (sampleEnv .debug) .debug) (call .delete none [[1]]) []).run d
     o.1 = .panic ∧ o.2.keys [1] = none ∧ o.2.keys [2] = some (.boolean true) ∧ o.2.ctrs .commandsSuccessful = some (2 ^ 64 - 1)) ∧
    (let d := sampleDb [(ascii "__hop__:a", .integer 5), ([2], .boolean true)]
     let o := (dispatch (builtAs (sampleEnv .debug) .debug) (call .set (some .bytes) [ascii "__hop__:a", [7]]) []).run d
     o.1 = .panic ∧ o.2.keys (ascii "__hop__:a") = none ∧ o.2.keys [2] = some (.boolean true)) := by
  decide +kernel

/-- Beside C206: in a release build, reading an internal key leaves it and setting it has removed what it held and
nothing else. -/
example :
    (let d := sampleDb [(ascii "__hop__:a", .integer 5), ([1], .integer 6)]
     let run := fun r => (dispatch (builtAs (sampleEnv .debug) .release) r []).run d
     (run (call .get none [ascii "__hop__:a"])).1 = .panic ∧
     (run (call .get none [ascii "__hop__:a"])).2.keys (ascii "__hop__:a") = some (.integer 5) ∧
     (run (call .set (some .bytes) [ascii "__hop__:a", [7]])).1 = .panic ∧
     (run (call .set (some .bytes) [ascii "__hop__:a", [7]])).2.keys (ascii "__hop__:a") = none ∧
     (run (call .set (some .bytes) [ascii "__hop__:a", [7]])).2.keys [1] = some (.integer 6)) := by
  decide +kernel

end Hop
