import Verif.Props.ClientStores
import Verif.Lemmas.Stores
import Verif.Props.UsersFair

/-!
# What may be stored while tasks share an in-memory client (C208)
-/

namespace Hop

open Prog Spec

/-- The values there can be at any moment while tasks use a client together: items of lists are not empty; a set has at most 254
members, a map at most 127 entries, neither with a repetition. Byte strings, strings, sets and maps may be empty. -/
def Spec.Midway : Value → Prop
  | .list l => ∀ x ∈ l, x ≠ []
  | .set s => s.Nodup ∧ s.length ≤ 254
  | .map m => (m.map Prod.fst).Nodup ∧ m.length ≤ 127
  | _ => True

/-- The stores there can be at any moment: finitely many keys, none of them empty, with values as described. -/
structure Spec.MidwayStore (s : Store) : Prop where
  finite : ∃ l : List Bytes, ∀ k, k ∉ l → s k = none
  keys : s [] = none
  values : ∀ k v, s k = some v → Midway v

/-- A task that makes one call. -/
def Spec.once (a : Api) : Caller := fun past => if past = [] then some a else none

/-! ## What a command stores -/

private theorem mid_default (t : KeyType) : Midway (.default t) := by
  cases t <;> simp [Value.default, Midway]

private theorem mid_float {env : Env} {k : Bytes} {a : F64} {resp : Bytes} : Stores Midway (incrementFloatBy env k a resp) := by
  refine Stores.keyOrInsertWith (mid_default .integer) fun v hv => ?_
  cases v <;> first | exact hv | trivial

private theorem mid_int {env : Env} {k : Bytes} {a : Int64} {resp : Bytes} : Stores Midway (incrementIntBy env k a resp) :=
  Stores.incrementIntBy fun _ => trivial

private theorem mid_resolve {α} {r : Request} {t : KeyType} (ht : r.keyType = some t) {k : Bytes} {d : KeyType} {next : KeyType → Prog α}
    (h : Stores Midway (next t)) : Stores Midway (resolveKeyType r k d next) := by
  unfold Hop.resolveKeyType
  rw [ht]
  exact h

/-- Appending, where any items for a list are not empty. -/
private theorem mid_append {env : Env} {r : Request} {resp : Bytes} {t : KeyType} (ht : r.keyType = some t)
    (hl : t = .list → ∀ args, r.argsFrom 1 = some args → ∀ x ∈ args, x ≠ []) : Stores Midway (dispatchAppend env r resp) := by
  refine Stores.orErr fun k _ => Stores.orErr fun args ha => mid_resolve ht ?_
  cases t <;> first
    | trivial
    | (refine Stores.keyOrInsertWith (mid_default .bytes) fun v hv => ?_
       cases v <;> first | exact hv | trivial)
    | (refine Stores.keyOrInsertWith (mid_default .string) fun v hv => ?_
       cases v <;> first | exact hv | trivial)
    | (refine Stores.keyOrInsertWith (mid_default .list) fun v hv => ?_
       cases v with
       | list l =>
         intro x hx
         rcases List.mem_append.mp hx with hx | hx
         · exact hv x hx
         · exact hl rfl args ha x hx
       | _ => exact hv)

/-- A value put in place of what there was. -/
private theorem mid_replace {env : Env} {k : Bytes} {t : KeyType} {body : Value → Value × Outcome DispatchError Bytes}
    (h : ∀ v, Midway v → Midway (body v).1) : Stores Midway (removeKey k fun _ => keyOrInsertWith env k (Value.default t) body) :=
  fun _ _ => ⟨by simp, Stores.keyOrInsertWith (mid_default t) h⟩

/-- Setting, where any items for a list are not empty, and there are at most 254 for a set or a map. -/
private theorem mid_set {env : Env} {r : Request} {resp : Bytes} {t : KeyType} (ht : r.keyType = some t)
    (hl : t = .list → ∀ args, r.argsFrom 1 = some args → ∀ x ∈ args, x ≠ [])
    (hn : ∀ args, r.argsFrom 1 = some args → args.length ≤ 254) : Stores Midway (dispatchSet env r resp) := by
  refine Stores.orErr fun k _ => ?_
  split
  · trivial
  refine mid_resolve ht ?_
  cases t with
  | list =>
    refine Stores.orErr fun args ha => mid_replace fun v hv => ?_
    cases v <;> first | exact hl rfl args ha | exact hv
  | map =>
    refine Stores.orErr fun m hm => mid_replace fun v hv => ?_
    obtain ⟨args, ha, rfl⟩ := Option.map_eq_some_iff.mp hm
    cases v with
    | map old =>
      dsimp only
      split
      · have h1 := (convMapAux_most args []).1
        have h2 := hn args ha
        exact ⟨convMapAux_nodup _ _ (by simp), by simp only [convMap]; simp only [List.length_nil] at h1; omega⟩
      · exact hv
    | _ => exact hv
  | set =>
    refine Stores.orErr fun m hm => mid_replace fun v hv => ?_
    obtain ⟨args, ha, rfl⟩ := Option.map_eq_some_iff.mp hm
    cases v with
    | set old =>
      dsimp only
      split
      · have h1 := insertAll_most args []
        have h2 := hn args ha
        exact ⟨foldl_insert_nodup _ _ (by simp), by simp only [convSet]; simp only [List.length_nil] at h1; omega⟩
      · exact hv
    | _ => exact hv
  | _ =>
    refine Stores.orErr fun _ _ => mid_replace fun v hv => ?_
    cases v <;> first | exact hv | trivial

private theorem mid_command {env : Env} {r : Request} {resp : Bytes}
    (ha : r.commandId = .append → Stores Midway (dispatchAppend env r resp)) (hs : r.commandId = .set → Stores Midway (dispatchSet env r resp)) :
    Stores Midway (command env r resp) := by
  by_cases h1 : r.commandId = .append
  · simp only [command, h1]; exact ha h1
  by_cases h2 : r.commandId = .set
  · simp only [command, h2]; exact hs h2
  by_cases h3 : r.commandId = .incrementBy
  · simp only [command, h3]
    refine Stores.orErr fun k _ => ?_
    split
    · exact mid_int
    · split
      · exact mid_float
      · trivial
  by_cases h4 : r.commandId = .decrementBy
  · simp only [command, h4]
    refine Stores.orErr fun k _ => ?_
    split
    · split
      · exact mid_int
      · trivial
    · split
      · exact mid_float
      · trivial
  by_cases h5 : r.commandId = .increment
  · simp only [command, h5]
    refine Stores.orErr fun k _ => ?_
    split
    · exact mid_float
    · exact mid_int
  by_cases h6 : r.commandId = .decrement
  · simp only [command, h6]
    refine Stores.orErr fun k _ => ?_
    split
    · exact mid_float
    · exact mid_int
  exact stores_command (fun _ => trivial) ⟨h1, h2, h3, h4⟩ (by rintro (h | h) <;> contradiction)

/-! ## What a call stores -/

private theorem list_items {env : Env} {v : Value} (hh : hollow v = false) (ht : v.kind = .list) : ∀ x ∈ spelled env v, x ≠ [] := by
  cases v <;> simp only [Value.kind, reduceCtorEq] at ht
  rintro x hx rfl
  simp only [hollow, List.any_eq_false] at hh
  exact hh [] hx rfl

private theorem start_mid (env : Env) (a : Api) : Stores Midway (a.start env) := by
  rcases start_any env a with ⟨o, h⟩ | ⟨hr, hl, r, g, hv, h, hg⟩
  · rw [h]; trivial
  rw [h]
  have hrest : ∀ (k : Bytes) (l : List Bytes), (a.call env).args = k :: l → ∀ args, r.argsFrom 1 = some args → args = l := by
    intro k l hkl args ha
    rw [argsFrom_eq hv, hkl] at ha
    simpa using ha.symm
  refine Stores.andThen (Stores.andThen (mid_command ?_ ?_) Stores.countOutcome) fun o => ?_
  · intro hc
    rw [hv.command] at hc
    cases a <;> simp only [Api.call, reduceCtorEq] at hc
    rename_i k v
    refine mid_append hv.keyType fun ht args ha => ?_
    rw [hrest k (spelled env v) rfl args ha]
    refine list_items ?_ ht
    simp only [Api.refusal] at hr
    cases h : hollow v with
    | false => rfl
    | true => rw [h, ht] at hr; by_cases hk : k = [] <;> simp [hk, appendable] at hr
  · intro hc
    rw [hv.command] at hc
    cases a <;> simp only [Api.call, reduceCtorEq] at hc
    rename_i k v
    refine mid_set hv.keyType (fun ht args ha => ?_) fun args ha => ?_
    · rw [hrest k (spelled env v) rfl args ha]
      refine list_items ?_ ht
      simp only [Api.refusal] at hr
      cases h : hollow v with
      | false => rfl
      | true => rw [h] at hr; by_cases hk : k = [] <;> simp [hk] at hr
    · rw [hrest k (spelled env v) rfl args ha]
      rcases hl with hl | hl
      · simp only [Api.call, List.length_cons] at hl; omega
      · exact absurd rfl hl
  · obtain ⟨x, hx⟩ := hg o
    rw [hx]; trivial

private theorem caller_mid (env : Env) (c : Caller) (n : Nat) (past : List Resolved) : Stores Midway (Caller.prog env c n past) := by
  induction n generalizing past with
  | zero => trivial
  | succ n ih =>
    simp only [Caller.prog]
    split
    · trivial
    · exact (start_mid env _).andThen fun o => ih _

private theorem start_spares (env : Env) (a : Api) : Writes (fun k => ¬ k = []) (a.start env) := by
  rcases start_any env a with ⟨o, h⟩ | ⟨hr, hl, r, g, hv, h, hg⟩
  · rw [h]; trivial
  · rw [h]
    refine (bystander_writes (env := env) (K := (· = [])) (c := a.call env) hv (by rintro _ rfl; exact call_bystander env a hr) []).andThen fun o => ?_
    obtain ⟨x, hx⟩ := hg o
    rw [hx]; trivial

private theorem caller_spares (env : Env) (c : Caller) (n : Nat) (past : List Resolved) :
    Writes (fun k => ¬ k = []) (Caller.prog env c n past) := by
  induction n generalizing past with
  | zero => trivial
  | succ n ih =>
    simp only [Caller.prog]
    split
    · trivial
    · exact (start_spares env _).andThen fun o => ih _

/-! ## At every moment -/

private theorem step_one {α} (p : Prog α) (db : Db) : ∃ k', ∀ k, k ≠ k' → (p.step db).2.keys k = db.keys k := by
  cases p with
  | done r => exact ⟨[], fun _ _ => rfl⟩
  | onKey k upd next => exact ⟨k, fun k' h => by simp [Prog.step, Db.setKey, h]⟩
  | onCtr m upd next => exact ⟨[], fun _ _ => rfl⟩

private theorem pool_mid {α} (p : Pool α) (ht : ∀ t ∈ p.threads, Stores Midway t ∧ Writes (fun k => ¬ k = []) t)
    (hs : MidwayStore p.db.keys) (sched : List Nat) : MidwayStore (p.exec sched).db.keys := by
  induction sched generalizing p with
  | nil => exact hs
  | cons i sched ih =>
    show MidwayStore ((p.stepAt i).exec sched).db.keys
    unfold Pool.stepAt
    cases hi : p.threads[i]? with
    | none => exact ih p ht hs
    | some t =>
      obtain ⟨h1, h2⟩ := ht t (List.mem_of_getElem? hi)
      obtain ⟨h3, h4⟩ := h1.step p.db hs.values
      obtain ⟨h5, h6⟩ := h2.step p.db
      refine ih _ ?_ ⟨?_, ?_, h3⟩
      · intro u hu
        rcases List.mem_or_eq_of_mem_set hu with hu | rfl
        · exact ht u hu
        · exact ⟨h4, h5⟩
      · obtain ⟨l, hl⟩ := hs.finite
        obtain ⟨k', hk'⟩ := step_one t p.db
        refine ⟨k' :: l, fun k hk => ?_⟩
        rw [List.mem_cons, not_or] at hk
        exact (hk' k hk.1).trans (hl k hk.2)
      · exact (h6 [] (not_not_intro rfl)).trans hs.keys

/-- **C208, at every moment.** Any number of tasks share an in-memory client and make any calls, each depending on what the task's calls before came
to; they take turns between the atomic operations in any way whatever. At every moment: every stored value is as described, if it
was so at first; only finitely many keys are present; and the empty key is not. This is so in debug and in release builds, whether or not
calls panic. -/
theorem C208_always {env : Env} (cs : List (Caller × Nat)) {db : Db} (h : MidwayStore db.keys) (sched : List Nat) :
    MidwayStore ((Callers.pool env cs db).exec sched).db.keys := by
  refine pool_mid _ ?_ h sched
  intro t ht
  simp only [Callers.pool, List.mem_map] at ht
  obtain ⟨c, -, rfl⟩ := ht
  exact ⟨caller_mid env _ _ _, caller_spares env _ _ _⟩

/-- A store that meets the hypothesis, with values of the kinds it is about, and tasks that make calls about the same key. The moment shown is
one at which a set that is being stored is still empty. -/
example : MidwayStore (sampleDb [([1], .set []), ([2], .list [[7]]), ([3], .bytes [])]).keys ∧
    ((Callers.pool (sampleEnv .debug) [(once (.set [1] (.set [[7], [8]])), 1), (once (.append [2] (.list [[9]])), 1)]
      (sampleDb [([1], .set [[6]]), ([2], .list [[7]])])).exec [0, 0, 0]).db.keys [1] = some (.set []) := by
  refine ⟨⟨⟨[[1], [2], [3]], fun k hk => ?_⟩, rfl, fun k v hv => ?_⟩, rfl⟩
  · simp only [List.mem_cons, List.not_mem_nil, or_false, not_or] at hk
    simp [sampleDb, List.lookup, beq_eq_false_iff_ne.mpr hk.1, beq_eq_false_iff_ne.mpr hk.2.1, beq_eq_false_iff_ne.mpr hk.2.2]
  · simp only [sampleDb, List.lookup] at hv
    repeat' split at hv
    all_goals cases hv
    all_goals simp [Midway]

/-- **C208, how much more.** What calls one after the other can store is within what may be stored at some moment; the difference is that values of four types
may be empty. -/
theorem C208_wider (v : Value) :
    Midway v ↔ ClientStorable v ∨ v = .bytes [] ∨ v = .string [] ∨ v = .set [] ∨ v = .map [] := by
  cases v with
  | bytes b => by_cases h : b = [] <;> simp [Midway, ClientStorable, h]
  | string t => by_cases h : t = [] <;> simp [Midway, ClientStorable, h]
  | set s => by_cases h : s = [] <;> simp [Midway, ClientStorable, h]
  | map s => by_cases h : s = [] <;> simp [Midway, ClientStorable, h]
  | _ => simp [Midway, ClientStorable]

/-- Both sides: a value of the kind described for calls one after the other, and one of those that are not. -/
example : ClientStorable (.set [[], [7]]) ∧ Midway (.set [[], [7]]) ∧ ¬ ClientStorable (.set []) ∧ Midway (.set []) ∧ ¬ Midway (.list [[]]) := by
  simp [ClientStorable, Midway]

/-- **C208, to stay.** Each of the four empty values can come to be stored for good: one task sets a key, another renames it, in an
empty store; both calls have succeeded, nothing is left to do, and the empty value is under the new name. Calls one after the other never leave it
there (C207). -/
theorem C208_stays (m : Mode) {v : Value} (hv : v ∈ [Value.bytes [7], .string ['x'], .set [[7]], .map [([7], [8])]]) :
    ∃ sched, let p := (Callers.pool (sampleEnv m) [(once (.set [1] v), 1), (once (.rename [1] [2]), 1)] (sampleDb [])).exec sched
      (∃ a b, p.threads = [.done (.ok [.ok (.ok a)]), .done (.ok [.ok (.ok b)])]) ∧
      p.db.keys [1] = some v ∧ p.db.keys [2] = some (.default v.kind) := by
  refine ⟨[0, 0, 0] ++ List.replicate 12 1 ++ List.replicate 12 0, ?_⟩
  simp only [List.mem_cons, List.not_mem_nil, or_false] at hv
  rcases hv with rfl | rfl | rfl | rfl <;> cases m <;> exact ⟨⟨_, _, rfl⟩, rfl, rfl⟩

/-- The four values are there to be set. -/
example : ∃ v, v ∈ [Value.bytes [7], .string ['x'], .set [[7]], .map [([7], [8])]] ∧ Value.default v.kind = .map [] := ⟨.map [([7], [8])], by simp, rfl⟩

/-- All tasks have come to their end, and none of their calls is still running. -/
def Spec.AllEnded (ts : List (Prog (List Resolved))) : Prop := ∀ t ∈ ts, ∃ got, t = .done (.ok got) ∧ Outcome.stuck ∉ got

/-! ## Running one task at a time -/

private theorem exec_append {α} (p : Pool α) (s s' : List Nat) : p.exec (s ++ s') = (p.exec s).exec s' := List.foldl_append ..

private theorem stepAt_mid {α} (A B : List (Prog α)) (t : Prog α) (db : Db) :
    Pool.stepAt { threads := A ++ t :: B, db := db } A.length = { threads := A ++ (t.step db).1 :: B, db := (t.step db).2 } := by
  simp [Pool.stepAt]

private theorem one_alone {α} (p : Prog α) (db : Db) : ∃ n, ∀ A B : List (Prog α),
    Pool.exec { threads := A ++ p :: B, db := db } (List.replicate n A.length) = { threads := A ++ .done (p.run db).1 :: B, db := (p.run db).2 } := by
  induction p generalizing db with
  | done r => exact ⟨0, fun A B => rfl⟩
  | onKey k upd next ih =>
    obtain ⟨n, hn⟩ := ih (db.keys k) (db.setKey k (upd (db.keys k)))
    refine ⟨n + 1, fun A B => ?_⟩
    rw [List.replicate_succ]
    show Pool.exec (Pool.stepAt _ _) _ = _
    rw [stepAt_mid]
    exact hn A B
  | onCtr m upd next ih =>
    obtain ⟨n, hn⟩ := ih (db.ctrs m) (db.setCtr m (upd (db.ctrs m)))
    refine ⟨n + 1, fun A B => ?_⟩
    rw [List.replicate_succ]
    show Pool.exec (Pool.stepAt _ _) _ = _
    rw [stepAt_mid]
    exact hn A B

/-- Tasks that, whatever other tasks there are, if scheduled in some way come to their end and leave `db'`. -/
private def Leads (env : Env) (db db' : Db) : Prop :=
  ∃ (cs : List (Caller × Nat)) (ts : List (Prog (List Resolved))) (sched : List Nat), ts.length = cs.length ∧ AllEnded ts ∧
    ∀ A B, Pool.exec { threads := A ++ ((cs.map fun c => Caller.prog env c.1 c.2 []) ++ B), db := db } (sched.map (· + A.length)) =
      { threads := A ++ (ts ++ B), db := db' }

private theorem Leads.trans {env : Env} {d1 d2 d3 : Db} (h1 : Leads env d1 d2) (h2 : Leads env d2 d3) : Leads env d1 d3 := by
  obtain ⟨cs, ts, s, hl, he, h⟩ := h1
  obtain ⟨cs', ts', s', hl', he', h'⟩ := h2
  refine ⟨cs ++ cs', ts ++ ts', s ++ s'.map (· + ts.length), by simp [hl, hl'], ?_, fun A B => ?_⟩
  · intro t ht
    rcases List.mem_append.mp ht with ht | ht
    · exact he t ht
    · exact he' t ht
  · simp only [List.map_append]
    rw [exec_append, List.append_assoc, h, List.map_map]
    have := h' (A ++ ts) B
    rw [List.append_assoc, List.append_assoc] at this
    rw [List.append_assoc, ← this]
    congr 1
    refine List.map_congr_left fun i _ => ?_
    simp only [Function.comp, List.length_append]
    omega

private theorem Leads.pool {env : Env} {db db' : Db} (h : Leads env db db') :
    ∃ cs sched, AllEnded ((Callers.pool env cs db).exec sched).threads ∧ ((Callers.pool env cs db).exec sched).db = db' := by
  obtain ⟨cs, ts, s, -, he, h⟩ := h
  have := h [] []
  simp only [List.nil_append, List.append_nil, List.length_nil, Nat.add_zero, List.map_id'] at this
  refine ⟨cs, s, ?_⟩
  simp only [Callers.pool, this]
  exact ⟨he, trivial⟩

/-! ## Calls one after the other -/

/-- A task that makes the calls one after the other. -/
private def script (l : List Api) : Caller := fun past => l[past.length]?

private theorem script_run (env : Env) (l' l : List Api) (past : List Resolved) (hp : past.length = l'.length) (db : Db) :
    (Caller.prog env (script (l' ++ l)) l.length past).run db = (.ok (past ++ (callAll env l db).1), (callAll env l db).2) := by
  induction l generalizing l' past db with
  | nil => simp [Caller.prog, Prog.run, callAll]
  | cons a l ih =>
    have hs : script (l' ++ a :: l) past = some a := by simp [script, hp]
    simp only [List.length_cons, Caller.prog, hs]
    rw [run_andThen]
    have := ih (l' ++ [a]) (past ++ [((a.start env).run db).1]) (by simp [hp]) ((a.start env).run db).2
    rw [List.append_assoc, List.singleton_append] at this
    rw [this]
    simp [callAll]

theorem sends_awake (env : Env) (a : Api) (hn : (a.call env).args.length ≤ 255) (hr : a.refusal = none) :
    ∃ r f, Views r (a.call env).cmd (a.call env).kt (a.call env).args ∧ a.start env = (dispatch env r []).andThen (readOutcome env f) ∧
      ∀ v, ∃ o, f v = .done o ∧ o ≠ .stuck := by
  by_cases hk : ∃ k, a = .keyType k
  · obtain ⟨k, rfl⟩ := hk
    have hk : k ≠ [] := by rintro rfl; simp [Api.refusal] at hr
    obtain ⟨b, h1, h2⟩ := one_arg env.mode .type none k rfl hk
    refine ⟨b.intoRequest, fun v => wrap Got.kind (Client.asKeyType v), h2.views, ?_, fun v => ?_⟩
    · rw [← bind_send]
      simp only [Api.start, Client.keyType, wrap_bind, Builder.new_eq, built_ok h1]
    · cases v with
      | integer i =>
        simp only [Client.asKeyType]
        cases KeyType.ofByte (UInt8.ofNat (i.toUInt64.toNat % 256)) <;> exact ⟨_, rfl, nofun⟩
      | _ => exact ⟨_, rfl, nofun⟩
  · obtain ⟨b, f, hv, hs, hf, -⟩ := sends_done env a hn hr
    refine ⟨b.intoRequest, f, hv, by rw [hs, bind_send], fun v => ?_⟩
    rw [hf v fun k h => absurd ⟨k, h⟩ hk]
    unfold reading
    split <;> exact ⟨_, rfl, nofun⟩

theorem readOutcome_awake {env : Env} {f : Value → Client.Job Got} (hf : ∀ v, ∃ o, f v = .done o ∧ o ≠ .stuck) {r : Outcome DispatchError Bytes}
    (hr : r ≠ .stuck) : ∃ o, readOutcome env f r = .done o ∧ o ≠ .stuck := by
  cases r with
  | ok resp =>
    simp only [readOutcome]
    have hs := RespParser.feed_not_stuck env.mode .new resp
    cases h : (RespParser.feed env.mode .new resp).1 with
    | concluded x =>
      cases x with
      | value v => exact hf v
      | _ => exact ⟨_, rfl, nofun⟩
    | stuck => exact absurd h hs
    | _ => exact ⟨_, rfl, nofun⟩
  | stuck => exact absurd rfl hr
  | _ => exact ⟨_, rfl, nofun⟩

private theorem dispatch_awake {env : Env} (hs : 1 ≤ env.spins) (r : Request) (resp : Bytes) (db : Db) : ((dispatch env r resp).run db).1 ≠ .stuck := by
  obtain ⟨n, hn⟩ := one_alone (dispatch env r resp) db
  have h := start_not_stuck env [(r, resp)] db 0 (r, resp) rfl (fun k _ => Nat.le_trans (List.countP_le_length) hs) (List.replicate n 0)
  have h1 := hn [] []
  simp only [List.nil_append, List.length_nil] at h1
  intro he
  apply h
  simp only [Pool.start, List.map_cons, List.map_nil, h1, he, List.getElem?_cons_zero]

private theorem start_awake {env : Env} (hs : 1 ≤ env.spins) (a : Api) (hn : (a.call env).args.length ≤ 255) (db : Db) :
    ((a.start env).run db).1 ≠ .stuck := by
  cases hr : a.refusal with
  | some e =>
    have := Api.start_eq env a hn
    rw [hr] at this
    rw [this]
    nofun
  | none =>
    obtain ⟨r, f, -, h, hf⟩ := sends_awake env a hn hr
    rw [h, run_andThen]
    obtain ⟨o, h1, h2⟩ := readOutcome_awake (env := env) hf (dispatch_awake hs r [] db)
    rw [h1]
    exact h2

private theorem callAll_awake {env : Env} (hs : 1 ≤ env.spins) (l : List Api) (hn : ∀ a ∈ l, (a.call env).args.length ≤ 255) (db : Db) :
    Outcome.stuck ∉ (callAll env l db).1 := by
  induction l generalizing db with
  | nil => simp [callAll]
  | cons a l ih =>
    simp only [callAll, List.mem_cons, not_or]
    exact ⟨(start_awake hs a (hn a (List.mem_cons_self ..)) db).symm, ih (fun a ha => hn a (List.mem_cons_of_mem _ ha)) _⟩

private theorem Leads.calls {env : Env} (hs : 1 ≤ env.spins) (l : List Api) (hn : ∀ a ∈ l, (a.call env).args.length ≤ 255) (db : Db) :
    Leads env db (callAll env l db).2 := by
  obtain ⟨n, h⟩ := one_alone (Caller.prog env (script l) l.length []) db
  have hr := script_run env [] l [] rfl db
  simp only [List.nil_append] at hr
  rw [hr] at h
  refine ⟨[(script l, l.length)], [.done (.ok (callAll env l db).1)], List.replicate n 0, rfl, ?_, fun A B => ?_⟩
  · intro t ht
    rw [List.mem_singleton.mp ht]
    exact ⟨_, rfl, callAll_awake hs l hn db⟩
  · rw [List.map_replicate, Nat.zero_add]
    exact h A B

/-! ## An empty value to stay -/

/-- Setting a value of one of the types that can be empty: the key is removed, and then there are attempts to find it, before each of which but the first it is
inserted with an empty value. -/
private theorem set_halves {env : Env} {j : Bytes} (hj : ¬ unusable env.mode j) {t : KeyType}
    (ht : t = .bytes ∨ t = .string ∨ t = .set ∨ t = .map) {r : Request} {x : Bytes} {rest : List Bytes}
    (hv : Views r .set (some t) (j :: x :: rest)) (hx : t = .string → (convStr x).isSome) :
    ∃ body : Value → Value × Outcome DispatchError Bytes, (∀ v, (body v).2 ≠ .stuck) ∧
      command env r [] = removeKey j fun _ => keyOrInsertLoop j (.default t) body (env.spins + 2) := by
  have h0 : r.key = some j := by
    unfold Request.key
    rw [hv.command, hv.arg]
    rfl
  have h1 : r.arg 1 = some x := by rw [hv.arg]; rfl
  have h2 : r.argsFrom 1 = some (x :: rest) := by rw [argsFrom_eq hv 1]; simp
  have hw : ∀ (mk : Value) (body : Value → Value × Outcome DispatchError Bytes), keyOrInsertWith env j mk body = keyOrInsertLoop j mk body (env.spins + 2) := by
    intro mk body
    unfold keyOrInsertWith
    rw [if_neg fun h => hj (.inl ((isInternal_iff _).mp h)), if_neg fun h => hj (.inr h)]
  simp only [command, hv.command, dispatchSet, h0, h1, orErr, resolveKeyType, hv.keyType, Option.isNone_some, Bool.false_eq_true, if_false]
  rcases ht with rfl | rfl | rfl | rfl
  · simp only [setBytes, h1, orErr, hw]
    refine ⟨_, fun v => ?_, rfl⟩
    cases v <;> dsimp only <;> first | exact ofOption_ne_stuck _ | nofun
  · obtain ⟨s, hs⟩ := Option.isSome_iff_exists.mp (hx rfl)
    simp only [setString, h1, orErr, hw, Option.bind_some, hs]
    refine ⟨_, fun v => ?_, rfl⟩
    cases v <;> dsimp only <;> first | exact ofOption_ne_stuck _ | nofun
  · simp only [setSet, h2, orErr, hw, Option.map_some]
    refine ⟨_, fun v => ?_, rfl⟩
    cases v <;> dsimp only <;> (try split) <;> nofun
  · simp only [setMap, h2, orErr, hw, Option.map_some]
    refine ⟨_, fun v => ?_, rfl⟩
    cases v <;> dsimp only <;> (try split) <;> nofun

private theorem count_awake {env : Env} {o : Outcome DispatchError Bytes} (ho : o ≠ .stuck) (db : Db) :
    ((countOutcome env o).run db).1 ≠ .stuck ∧ ((countOutcome env o).run db).2.keys = db.keys := by
  cases o with
  | stuck => exact absurd rfl ho
  | panic => exact ⟨nofun, rfl⟩
  | _ =>
    simp only [countOutcome, incrementMetric, Prog.run]
    split <;> exact ⟨nofun, rfl⟩

private theorem loop_run {k : Bytes} {mk : Value} {body : Value → Value × Outcome DispatchError Bytes} (n : Nat) {db : Db} (h : db.keys k = none) :
    ((keyOrInsertLoop k mk body (n + 2)).run db).1 = (body mk).2 ∧
      ∀ i, i ≠ k → ((keyOrInsertLoop k mk body (n + 2)).run db).2.keys i = db.keys i := by
  simp only [keyOrInsertLoop, Prog.run, h, insertKey]
  simp only [Db.setKey, if_true, Prog.run, true_and]
  intro i hi
  simp [hi]

private theorem rename_run {env : Env} (hs : 1 ≤ env.spins) {j k : Bytes} (hj : j ≠ []) (hk : k ≠ []) {db : Db} {v : Value} (h1 : db.keys j = some v)
    (h2 : db.keys k = none) :
    (((Api.rename j k).start env).run db).1 ≠ .stuck ∧
      ∀ i, (((Api.rename j k).start env).run db).2.keys i = if i = k then some v else if i = j then none else db.keys i := by
  have hn : ((Api.rename j k).call env).args.length ≤ 255 := by simp [Api.call]
  refine ⟨start_awake hs _ hn db, fun i => ?_⟩
  obtain ⟨r, f, hv, h, hf⟩ := sends_awake env _ hn (by simp [Api.refusal, hj, hk])
  rw [h, run_andThen]
  obtain ⟨o, ho, -⟩ := readOutcome_awake (env := env) hf (dispatch_awake hs r [] db)
  rw [ho]
  show ((dispatch env r []).run db).2.keys i = _
  rw [keys_once (c := (Api.rename j k).call env) hv [] db (fun _ => none) (.inr (.inl nofun))]
  simp only [Api.call, execute, h1, h2, Option.isSome_none, Option.isNone_some, Bool.false_eq_true, if_false, Store.put]

private theorem delete_run {env : Env} (hs : 1 ≤ env.spins) {j : Bytes} (hj : j ≠ []) (db : Db) :
    ∀ i, (callAll env [.delete j] db).2.keys i = if i = j then none else db.keys i := by
  intro i
  obtain ⟨r, f, hv, h, hf⟩ := sends_awake env (.delete j) (by simp [Api.call]) (by simp [Api.refusal, hj])
  simp only [callAll]
  rw [h, run_andThen]
  obtain ⟨o, ho, -⟩ := readOutcome_awake (env := env) hf (dispatch_awake hs r [] db)
  rw [ho]
  show ((dispatch env r []).run db).2.keys i = _
  rw [keys_once (c := (Api.delete j).call env) hv [] db (fun _ => none) (.inr (.inl nofun))]
  simp only [Api.call, execute, Option.isSome_none, Bool.false_eq_true, if_false]
  cases hd : db.keys j with
  | none => by_cases hi : i = j <;> simp [hi, hd]
  | some v => simp [Store.put]

/-- A value of each of the types, not empty. -/
private def filled : KeyType → Value
  | .string => .string ['x']
  | .set => .set [[7]]
  | .map => .map [([7], [8])]
  | _ => .bytes [7]

private theorem filled_call (env : Env) {t : KeyType} (ht : t = .bytes ∨ t = .string ∨ t = .set ∨ t = .map) (j : Bytes) :
    ∃ x rest, ((Api.set j (filled t)).call env).cmd = .set ∧ ((Api.set j (filled t)).call env).kt = some t ∧
      ((Api.set j (filled t)).call env).args = j :: x :: rest ∧ rest.length ≤ 1 ∧ (t = .string → (convStr x).isSome) ∧ hollow (filled t) = false := by
  have hm : env.mapOrd [([7], [8])] = [([7], [8])] := List.perm_singleton.mp (env.mapOrd_perm _)
  have hs : env.setOrd [[7]] = [[7]] := List.perm_singleton.mp (env.setOrd_perm _)
  rcases ht with rfl | rfl | rfl | rfl
  · exact ⟨_, _, rfl, rfl, rfl, by simp, nofun, rfl⟩
  · exact ⟨_, _, rfl, rfl, rfl, by simp, fun _ => rfl, rfl⟩
  · refine ⟨[7], [], rfl, rfl, ?_, by simp, nofun, rfl⟩
    simp only [Api.call, filled, spelled, hs]
  · refine ⟨[7], [[8]], rfl, rfl, ?_, by simp, nofun, rfl⟩
    simp only [Api.call, filled, spelled, hm, alternating]

/-- Two tasks, one of which sets a key while the other renames it. -/
private theorem Leads.empty {env : Env} (hs : 1 ≤ env.spins) {j k : Bytes} (hu : ¬ unusable env.mode j) (hj : j ≠ []) (hk : k ≠ []) (hne : j ≠ k)
    {t : KeyType} (ht : t = .bytes ∨ t = .string ∨ t = .set ∨ t = .map) {db : Db} (hn : db.keys k = none) :
    ∃ db', Leads env db db' ∧ ∀ i, i ≠ j → db'.keys i = if i = k then some (.default t) else db.keys i := by
  obtain ⟨x, rest, hc, hkt, ha, hl, hx, hh⟩ := filled_call env ht j
  obtain ⟨r, f, hv, h, hf⟩ := sends_awake env (.set j (filled t)) (by rw [ha]; simp only [List.length_cons]; omega) (by simp [Api.refusal, hj, hh])
  rw [hc, hkt, ha] at hv
  obtain ⟨body, hb, hcmd⟩ := set_halves hu ht hv hx
  -- the rest of the call once the empty value is there
  let fin : Outcome DispatchError Bytes → Prog (List Resolved) := fun o =>
    ((countOutcome env o).andThen (readOutcome env f)).andThen fun o => .done (.ok [o])
  have assoc : ∀ p : Prog Bytes, ((p.andThen (countOutcome env)).andThen (readOutcome env f)).andThen (fun o => Prog.done (.ok [o])) = p.andThen fin := by
    intro p
    induction p with
    | done r => rfl
    | onKey k upd next ih => simp only [Prog.andThen, ih]
    | onCtr m upd next ih => simp only [Prog.andThen, ih]
  have hp : Caller.prog env (once (.set j (filled t))) 1 [] =
      removeKey j fun _ => (keyOrInsertLoop j (.default t) body (env.spins + 2)).andThen fin := by
    show ((Api.set j (filled t)).start env).andThen (fun o => .done (.ok ([] ++ [o]))) = _
    rw [h]
    unfold dispatch
    simp only [List.nil_append]
    rw [assoc, hcmd]
    rfl
  have hq : ∀ db, (Caller.prog env (once (.rename j k)) 1 []).run db =
      (.ok [(((Api.rename j k).start env).run db).1], (((Api.rename j k).start env).run db).2) := by
    intro db
    show (((Api.rename j k).start env).andThen (fun o => .done (.ok ([] ++ [o])))).run db = _
    rw [run_andThen]
    rfl
  let db1 := ((db.setKey j none).setKey j none).setKey j (some (.default t))
  have hr := rename_run (env := env) hs (db := db1) hj hk (v := .default t) (by simp [db1, Db.setKey]) (by simp [db1, Db.setKey, hne.symm, hn])
  let db2 := (((Api.rename j k).start env).run db1).2
  obtain ⟨S, hS⟩ : ∃ S, env.spins = S + 1 := ⟨env.spins - 1, by omega⟩
  have h2 : db2.keys j = none := by simp only [db2]; rw [hr.2]; simp [hne]
  have h3 := loop_run (mk := .default t) (body := body) S h2
  let p3 := (keyOrInsertLoop j (.default t) body (S + 2)).andThen fin
  have h4 : ∃ got, (p3.run db2).1 = .ok got ∧ Outcome.stuck ∉ got ∧ ∀ i, i ≠ j → (p3.run db2).2.keys i = db2.keys i := by
    simp only [p3, fin]
    rw [run_andThen, h3.1, run_andThen, run_andThen]
    obtain ⟨h5, h6⟩ := count_awake (env := env) (hb (.default t)) ((keyOrInsertLoop j (.default t) body (S + 2)).run db2).2
    obtain ⟨o, h7, h8⟩ := readOutcome_awake (env := env) hf h5
    rw [h7]
    refine ⟨[o], rfl, by simpa using h8.symm, fun i hi => ?_⟩
    show ((countOutcome env _).run _).2.keys i = _
    rw [h6]
    exact h3.2 i hi
  obtain ⟨got, h5, h6, h7⟩ := h4
  refine ⟨(p3.run db2).2, ?_, fun i hi => ?_⟩
  · obtain ⟨n, hn⟩ := one_alone (Caller.prog env (once (.rename j k)) 1 []) db1
    obtain ⟨m, hm⟩ := one_alone p3 db2
    refine ⟨[(once (.set j (filled t)), 1), (once (.rename j k), 1)], [.done (.ok got), .done (.ok [(((Api.rename j k).start env).run db1).1])],
      [0, 0, 0] ++ List.replicate n 1 ++ List.replicate m 0, rfl, ?_, fun A B => ?_⟩
    · intro u hu
      simp only [List.mem_cons, List.not_mem_nil, or_false] at hu
      rcases hu with rfl | rfl
      · exact ⟨_, rfl, h6⟩
      · exact ⟨_, rfl, by simpa using hr.1.symm⟩
    · simp only [List.map_append, List.map_replicate, Nat.zero_add, List.map_cons, List.map_nil]
      rw [exec_append, exec_append]
      have first : Pool.exec { threads := A ++ ([Caller.prog env (once (.set j (filled t))) 1 [], Caller.prog env (once (.rename j k)) 1 []] ++ B), db := db }
          [A.length, A.length, A.length] = { threads := (A ++ [p3]) ++ Caller.prog env (once (.rename j k)) 1 [] :: B, db := db1 } := by
        simp only [List.cons_append, List.nil_append, List.append_assoc]
        show Pool.stepAt (Pool.stepAt (Pool.stepAt _ _) _) _ = _
        rw [stepAt_mid, stepAt_mid, stepAt_mid, hp]
        simp only [removeKey, Prog.step, keyOrInsertLoop, Prog.andThen]
        have : (db.setKey j none).keys j = none := by simp [Db.setKey]
        simp only [this, Option.map_none, insertKey, Prog.andThen]
        rw [hS]
        rfl
      rw [first]
      have second := hn (A ++ [p3]) B
      simp only [List.length_append, List.length_cons, List.length_nil, Nat.zero_add] at second
      rw [Nat.add_comm 1, second, hq]
      have third := hm A (.done (.ok [(((Api.rename j k).start env).run db1).1]) :: B)
      simp only [List.append_assoc, List.cons_append, List.nil_append]
      rw [third, h5]
  · rw [h7 i hi]
    simp only [db2]
    rw [hr.2, if_neg hi]
    simp [db1, Db.setKey, hi]

/-! ## Everything -/

private theorem same_midway {s s' : Store} (h : SameStore s s') (hr : MidwayStore s) : MidwayStore s' := by
  have none_iff : ∀ k, s k = none → s' k = none := by
    intro k hk
    have := h k
    rw [hk] at this
    cases hs : s' k with
    | none => rfl
    | some v => rw [hs] at this; exact this.elim
  refine ⟨?_, none_iff _ hr.keys, fun k v hv => ?_⟩
  · obtain ⟨l, hl⟩ := hr.finite
    exact ⟨l, fun k hk => none_iff k (hl k hk)⟩
  · have h1 := h k
    rw [hv] at h1
    cases hs : s k with
    | none => rw [hs] at h1; exact h1.elim
    | some w =>
      rw [hs] at h1
      have h2 := hr.values k w hs
      change Same w v at h1
      cases w with
      | map m =>
        cases v <;> simp only [Same, reduceCtorEq] at h1
        exact ⟨(h1.map Prod.fst).nodup_iff.mp h2.1, h1.length_eq ▸ h2.2⟩
      | set m =>
        cases v <;> simp only [Same, reduceCtorEq] at h1
        exact ⟨h1.nodup_iff.mp h2.1, h1.length_eq ▸ h2.2⟩
      | _ => cases v <;> simp only [Same, reduceCtorEq] at h1 <;> cases h1 <;> exact h2

/-- An empty value of the types that are at issue. -/
private def void (v : Value) : Bool := v = .bytes [] ∨ v = .string [] ∨ v = .set [] ∨ v = .map []

private theorem void_iff {v : Value} : void v = true ↔ ∃ t, (t = .bytes ∨ t = .string ∨ t = .set ∨ t = .map) ∧ v = .default t := by
  simp only [void, decide_eq_true_eq]
  constructor
  · rintro (h | h | h | h)
    · exact ⟨.bytes, by simp, h⟩
    · exact ⟨.string, by simp, h⟩
    · exact ⟨.set, by simp, h⟩
    · exact ⟨.map, by simp, h⟩
  · rintro ⟨t, (rfl | rfl | rfl | rfl), rfl⟩ <;> simp [Value.default]

private theorem leads_voids {env : Env} (hs : 1 ≤ env.spins) {s : Store} (h0 : s [] = none) {j : Bytes} (hu : ¬ unusable env.mode j) (hj : j ≠ [])
    (hsj : s j = none) {db : Db} (hd : SameStore db.keys fun k => (s k).filter fun v => !void v) :
    ∀ l : List Bytes, ∃ db', Leads env db db' ∧ SameStore db'.keys fun k => (s k).filter fun v => !void v || l.contains k
  | [] => ⟨db, Leads.calls hs [] (by simp) db, by simpa using hd⟩
  | k :: l => by
    obtain ⟨d1, h1, h2⟩ := leads_voids hs h0 hu hj hsj hd l
    by_cases hk : (∃ v, s k = some v ∧ void v = true) ∧ k ∉ l
    · obtain ⟨⟨v, hv, hvoid⟩, hkl⟩ := hk
      obtain ⟨t, ht, rfl⟩ := void_iff.mp hvoid
      have hne : j ≠ k := by rintro rfl; rw [hsj] at hv; cases hv
      have hk0 : k ≠ [] := by rintro rfl; rw [h0] at hv; cases hv
      have hn : d1.keys k = none := by
        have := h2 k
        simp only [hv, Option.filter, hvoid, Bool.not_true, Bool.false_or, List.contains_iff_mem, hkl, if_false] at this
        cases hd1 : d1.keys k with
        | none => rfl
        | some w => rw [hd1] at this; exact this.elim
      obtain ⟨d2, h3, h4⟩ := Leads.empty hs hu hj hk0 hne ht hn
      refine ⟨_, (h1.trans h3).trans (Leads.calls hs [.delete j] (by simp [Api.call]) d2), fun i => ?_⟩
      rw [delete_run hs hj]
      have h5 := h2 i
      by_cases hij : i = j
      · subst hij
        simp only [if_true, hsj, Option.filter]
        trivial
      · rw [if_neg hij, h4 i hij]
        by_cases hik : i = k
        · subst hik
          simp only [if_true, hv, Option.filter, List.contains_cons, beq_self_eq_true, Bool.true_or, Bool.or_true]
          cases t <;> simp [SameEntry, Value.default, Same]
        · simp only [if_neg hik, List.contains_cons, beq_eq_false_iff_ne.mpr hik, Bool.false_or]
          exact h5
    · refine ⟨d1, h1, fun i => ?_⟩
      have h5 := h2 i
      by_cases hik : i = k
      · subst hik
        rw [Classical.not_and_iff_not_or_not, Classical.not_not] at hk
        have : ((s i).filter fun v => !void v || (i :: l).contains i) = (s i).filter fun v => !void v || l.contains i := by
          cases hsi : s i with
          | none => rfl
          | some v =>
            simp only [Option.filter]
            rcases hk with hk | hk
            · have : void v = false := by
                cases hv : void v with
                | false => rfl
                | true => exact absurd ⟨v, hsi, hv⟩ hk
              simp [this]
            · simp [hk]
        show SameEntry (d1.keys i) ((s i).filter fun v => !void v || (i :: l).contains i)
        rw [this]
        exact h5
      · simp only [List.contains_cons, beq_eq_false_iff_ne.mpr hik, Bool.false_or]
        exact h5

/-- **C208, exactly.** In a release build the stores that tasks sharing an in-memory client can leave behind when all of their calls have come to an end, beginning with an
empty store, are, up to the order in sets and maps, exactly those described. (The number of rounds the model gives to the retry loop is at least three, i.e. `spins` at
least one; see C134.) -/
theorem C208_stores {env : Env} (hm : env.mode = .release) (hs : 1 ≤ env.spins) (s : Store) :
    (∃ cs sched, AllEnded ((Callers.pool env cs (sampleDb [])).exec sched).threads ∧
      SameStore ((Callers.pool env cs (sampleDb [])).exec sched).db.keys s) ↔ MidwayStore s := by
  constructor
  · rintro ⟨cs, sched, -, h⟩
    exact same_midway h (C208_always cs ⟨⟨[], fun _ _ => rfl⟩, rfl, fun _ _ h => by cases h⟩ sched)
  · intro h
    have hc : ClientReached fun k => (s k).filter fun v => !void v := by
      obtain ⟨l, hl⟩ := h.finite
      refine ⟨⟨l, fun k hk => by rw [hl k hk]; rfl⟩, by rw [h.keys]; rfl, fun k v hv => ?_⟩
      obtain ⟨h1, h2⟩ := Option.filter_eq_some_iff.mp hv
      rcases (C208_wider v).mp (h.values k v h1) with h3 | h3
      · exact h3
      · simp [void, h3] at h2
    obtain ⟨as, h1, h2⟩ := C207_anywhere (env := env) hc (fun _ _ _ => .inl hm) (db := sampleDb []) ⟨[], fun _ _ => rfl⟩ rfl
    obtain ⟨l, hl⟩ := h.finite
    obtain ⟨n, hn⟩ := unlike l
    have hj : ¬ unusable env.mode (1 :: List.replicate n 1) := by
      rintro (h | h)
      · have := congrArg List.head? h
        rw [show (List.head? (ascii "__hop__:")) = some 95 from by decide] at this
        simp at this
      · exact absurd h.2 (by simp)
    have hjl : s (1 :: List.replicate n 1) = none := hl _ fun h => absurd (hn _ h) (by simp)
    obtain ⟨db', h3, h4⟩ := leads_voids hs h.keys hj (by simp) hjl h2 l
    obtain ⟨cs, sched, h5, h6⟩ := ((Leads.calls hs as (fun a ha => (h1 a ha).2) _).trans h3).pool
    refine ⟨cs, sched, h5, ?_⟩
    rw [h6]
    have he : (fun k => (s k).filter fun v => !void v || l.contains k) = s := by
      funext k
      cases hk : s k with
      | none => rfl
      | some v =>
        have : k ∈ l := Classical.byContradiction fun h => by rw [hl k h] at hk; cases hk
        simp [Option.filter, this]
    rw [he] at h4
    exact h4

/-- The hypotheses are met, and among the stores described is one with an empty map and an empty byte string under internal keys. -/
example : (sampleEnv .release).mode = .release ∧ 1 ≤ (sampleEnv .release).spins ∧
    MidwayStore (sampleDb [(ascii "__hop__:a", .map []), (ascii "__hop__:b", .bytes [])]).keys := by
  refine ⟨rfl, by decide, ⟨[ascii "__hop__:a", ascii "__hop__:b"], fun k hk => ?_⟩, by decide, fun k v hv => ?_⟩
  · simp only [List.mem_cons, List.not_mem_nil, or_false, not_or] at hk
    simp [sampleDb, List.lookup, beq_eq_false_iff_ne.mpr hk.1, beq_eq_false_iff_ne.mpr hk.2]
  · simp only [sampleDb, List.lookup] at hv
    repeat' split at hv
    all_goals cases hv
    all_goals simp [Midway]

end Hop
