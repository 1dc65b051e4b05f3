import Verif.Props.Guards
import Verif.Props.Promises

/-! # C118: commands dispatched while guards are held -/

namespace Hop

open Spec Prog

variable {env : Env} {r : Request} {resp : Bytes} {c : Call}

/-- The program panics at once, or begins with an access to the key. -/
def Opens {α : Type} (k : Bytes) (p : Prog α) : Prop := p = .done .panic ∨ ∃ upd rest, p = .onKey k upd rest

theorem Opens.orInsert {α : Type} (k : Bytes) (mk : Value) (body : Value → Value × Outcome DispatchError α) :
    Opens k (keyOrInsertWith env k mk body) := by
  unfold keyOrInsertWith
  split
  · exact .inl rfl
  · split
    · exact .inl rfl
    · exact .inr ⟨_, _, rfl⟩

theorem Opens.ref {α : Type} (k : Bytes) (next : Option Value → Prog α) : Opens k (keyRef env k next) := by
  unfold keyRef
  split
  · exact .inl rfl
  · split
    · exact .inl rfl
    · exact .inr ⟨_, _, rfl⟩

theorem Opens.lengthAs (t : KeyType) (k resp : Bytes) : Opens k (lengthAs env t k resp) := Opens.ref _ _

/-- A command that is not wrong in itself begins with an access to its key. -/
theorem command_opens (hv : Views r c.cmd c.kt c.args) (hm : malformed c = none) (he : c.cmd ≠ .echo) (hs : c.cmd ≠ .stats)
    {k : Bytes} {items : List Bytes} (ha : c.args = k :: items) : Opens k (command env r resp) := by
  obtain ⟨cmd, kt, args⟩ := c
  dsimp only at hv ha he hs
  subst ha
  unfold command
  rw [hv.command]
  cases cmd <;> dsimp only
  case append =>
    unfold dispatchAppend
    rw [hv.arg, argsFrom_eq hv]
    simp only [List.getElem?_cons_zero, orErr, List.cons_ne_nil, if_false, resolveKeyType, hv.keyType]
    cases kt with
    | none => exact .inr ⟨_, _, rfl⟩
    | some t => cases t <;> simp [malformed, wrong] at hm <;> exact Opens.orInsert _ _ _
  case increment | decrement =>
    all_goals
      first | unfold dispatchIncrement | unfold dispatchDecrement
      rw [key_eq hv (by decide)]
      simp only [List.getElem?_cons_zero, orErr]
      split <;> exact Opens.orInsert _ _ _
  case incrementBy | decrementBy =>
    all_goals
      first | unfold dispatchIncrementBy | unfold dispatchDecrementBy
      rw [key_eq hv (by decide), hv.arg]
      match items, hv with
      | [], _ => simp [malformed, wrong, noNumber] at hm
      | a :: items, hv =>
        simp only [List.getElem?_cons_zero, List.getElem?_cons_succ, orErr, Option.bind_some, convInt_eq, convFloat_eq]
        simp [malformed, wrong, noNumber] at hm
        rw [if_pos (by omega)]
        first
        | exact Opens.orInsert _ _ _
        | (dsimp only
           split
           · exact Opens.orInsert _ _ _
           · exact .inl rfl)
  case delete =>
    unfold dispatchDelete
    rw [key_eq hv (by decide), hv.keyType]
    cases kt with
    | some t => simp [malformed, wrong] at hm
    | none => exact .inr ⟨_, _, rfl⟩
  case echo => exact absurd rfl he
  case «exists» =>
    unfold dispatchExists
    rw [argsFrom_eq hv, hv.keyType]
    cases kt with
    | some t => simp [malformed, wrong] at hm
    | none => exact .inr ⟨_, _, rfl⟩
  case is =>
    unfold dispatchIs
    rw [argsFrom_eq hv, hv.keyType]
    cases kt with
    | none => simp [malformed, wrong] at hm
    | some t => exact .inr ⟨_, _, rfl⟩
  case get =>
    unfold dispatchGet
    rw [key_eq hv (by decide)]
    exact Opens.ref _ _
  case keys =>
    unfold dispatchKeys
    rw [key_eq hv (by decide)]
    simp only [List.getElem?_cons_zero, orErr, resolveKeyType, hv.keyType]
    cases kt with
    | none => exact .inr ⟨_, _, rfl⟩
    | some t => cases t <;> simp [malformed, wrong] at hm <;> exact Opens.ref _ _
  case length =>
    unfold dispatchLength
    rw [key_eq hv (by decide)]
    simp only [List.getElem?_cons_zero, orErr, resolveKeyType, hv.keyType]
    cases kt with
    | none => exact .inr ⟨_, _, rfl⟩
    | some t => cases t <;> simp [malformed, wrong] at hm <;> exact Opens.lengthAs _ _ _
  case rename =>
    unfold dispatchRename
    rw [hv.arg, hv.arg, hv.keyType]
    cases kt with
    | some t => simp [malformed, wrong] at hm
    | none =>
      match items with
      | [] => simp [malformed, wrong] at hm
      | k' :: items => exact .inr ⟨_, _, rfl⟩
  case set =>
    unfold dispatchSet
    rw [key_eq hv (by decide), hv.arg]
    match items, hv with
    | [], _ => simp [malformed, wrong] at hm
    | a :: items, hv =>
      have ha : r.arg 1 = some a := by rw [hv.arg]; rfl
      have hf : r.argsFrom 1 = some (a :: items) := by rw [argsFrom_eq hv]; rfl
      simp only [List.getElem?_cons_zero, List.getElem?_cons_succ, orErr, Option.isNone_some, Bool.false_eq_true, if_false,
        resolveKeyType, hv.keyType]
      cases kt with
      | none => exact .inr ⟨_, _, rfl⟩
      | some t =>
        simp [malformed, wrong] at hm
        cases t <;> simp [parseValue] at hm <;> dsimp only
        case boolean =>
          cases a with
          | nil => exact absurd rfl hm
          | cons x xs => simp only [setBoolean, ha, Option.bind_some, convBool]; exact .inr ⟨_, _, rfl⟩
        case float => simp only [setFloat, ha, Option.bind_some, convFloat_eq]; rw [if_pos (by omega)]; exact .inr ⟨_, _, rfl⟩
        case integer => simp only [setInteger, ha, Option.bind_some, convInt_eq]; rw [if_pos (by omega)]; exact .inr ⟨_, _, rfl⟩
        case string =>
          simp only [setString, ha, Option.bind_some, convStr]
          cases hp : fromUtf8 a with
          | none => exact absurd hp hm
          | some s => exact .inr ⟨_, _, rfl⟩
        case bytes => simp only [setBytes, ha]; exact .inr ⟨_, _, rfl⟩
        case list => simp only [setList, hf]; exact .inr ⟨_, _, rfl⟩
        case map => simp only [setMap, hf]; exact .inr ⟨_, _, rfl⟩
        case set => simp only [setSet, hf]; exact .inr ⟨_, _, rfl⟩
  case stats => exact absurd rfl hs
  case type =>
    unfold dispatchType
    rw [key_eq hv (by decide), hv.keyType]
    cases kt with
    | some t => simp [malformed, wrong] at hm
    | none => exact .inr ⟨_, _, rfl⟩

theorem dispatch_opens (hv : Views r c.cmd c.kt c.args) (hm : malformed c = none) (he : c.cmd ≠ .echo) (hs : c.cmd ≠ .stats)
    {k : Bytes} {items : List Bytes} (ha : c.args = k :: items) : Opens k (dispatch env r resp) := by
  unfold dispatch
  rcases command_opens (env := env) (resp := resp) hv hm he hs ha with h | ⟨upd, rest, h⟩
  · rw [h]; exact .inl rfl
  · rw [h]; exact .inr ⟨_, _, rfl⟩

/-! ## Waiting for oneself -/

/-- C118. A thread that holds an exclusive guard of a key and dispatches a command on the same key, or on any key that
shares its lock, gets no answer: the command panics at once, or the thread waits for ever, whatever the others
do. Commands that are wrong in themselves, Echo and Stats are excepted. -/
theorem C118_own_guard (shard : Bytes → Nat) (ex : List (Option Value) → Bool) (p : GPool) (i : Nat) (t : GThread)
    (next : Outcome DispatchError Bytes → GProg) (ht : p.threads[i]? = some t)
    (hp : t.prog = .ofProg ex [] (dispatch env r resp) next) (k' : Bytes) (hg : (k', true) ∈ t.held)
    (hv : Views r c.cmd c.kt c.args) (hm : malformed c = none) (he : c.cmd ≠ .echo) (hs : c.cmd ≠ .stats)
    {k : Bytes} {items : List Bytes} (ha : c.args = k :: items) (hk : shard k' = shard k) :
    dispatch env r resp = .done .panic ∨ ∀ sched, (p.exec shard sched).threads[i]? = some t := by
  rcases dispatch_opens (env := env) (resp := resp) hv hm he hs ha with h | ⟨upd, rest, h⟩
  · exact .inl h
  · right
    intro sched
    rw [C117_deadlock shard p [i] ?_ sched i (List.mem_singleton.mpr rfl), ht]
    intro j hj
    rw [List.mem_singleton] at hj
    subst hj
    have hw : ∃ e, t.prog.wants = some (k, e) := by rw [hp, h]; exact ⟨_, rfl⟩
    obtain ⟨e, hw⟩ := hw
    exact ⟨t, (k, e), j, t, (k', true), ht, hw, List.mem_singleton.mpr rfl, ht, hg, hk, .inl rfl⟩

/-- C118. With a shared guard this happens to the commands that must have exclusive access first: Delete, and Set with
a key type. -/
theorem C118_shared_guard (shard : Bytes → Nat) (ex : List (Option Value) → Bool) (p : GPool) (i : Nat) (t : GThread)
    (next : Outcome DispatchError Bytes → GProg) (ht : p.threads[i]? = some t)
    (hp : t.prog = .ofProg ex [] (dispatch env r resp) next) (g : Bytes × Bool) (hg : g ∈ t.held)
    (hv : Views r c.cmd c.kt c.args) (hm : malformed c = none) (hc : c.cmd = .delete ∨ (c.cmd = .set ∧ c.kt ≠ none))
    {k : Bytes} {items : List Bytes} (ha : c.args = k :: items) (hk : shard g.1 = shard k) :
    ∀ sched, (p.exec shard sched).threads[i]? = some t := by
  intro sched
  have hopen : ∃ rest, dispatch env r resp = .onKey k (fun _ => none) rest := by
    obtain ⟨cmd, kt, args⟩ := c
    dsimp only at hv hc ha
    subst ha
    unfold dispatch command
    rw [hv.command]
    rcases hc with rfl | ⟨rfl, hkt⟩
    · dsimp only
      unfold dispatchDelete
      rw [key_eq hv (by decide), hv.keyType]
      cases kt with
      | some t => simp [malformed, wrong] at hm
      | none => exact ⟨_, rfl⟩
    · dsimp only
      unfold dispatchSet
      rw [key_eq hv (by decide), hv.arg]
      match items, hv with
      | [], _ => simp [malformed, wrong] at hm
      | a :: items, hv =>
        have ha : r.arg 1 = some a := by rw [hv.arg]; rfl
        have hf : r.argsFrom 1 = some (a :: items) := by rw [argsFrom_eq hv]; rfl
        simp only [List.getElem?_cons_zero, List.getElem?_cons_succ, orErr, Option.isNone_some, Bool.false_eq_true, if_false,
          resolveKeyType, hv.keyType]
        cases kt with
        | none => exact absurd rfl hkt
        | some t =>
          simp [malformed, wrong] at hm
          cases t <;> simp [parseValue] at hm <;> dsimp only
          case boolean =>
            cases a with
            | nil => exact absurd rfl hm
            | cons x xs => simp only [setBoolean, ha, Option.bind_some, convBool]; exact ⟨_, rfl⟩
          case float => simp only [setFloat, ha, Option.bind_some, convFloat_eq]; rw [if_pos (by omega)]; exact ⟨_, rfl⟩
          case integer => simp only [setInteger, ha, Option.bind_some, convInt_eq]; rw [if_pos (by omega)]; exact ⟨_, rfl⟩
          case string =>
            simp only [setString, ha, Option.bind_some, convStr]
            cases hp : fromUtf8 a with
            | none => exact absurd hp hm
            | some s => exact ⟨_, rfl⟩
          case bytes => simp only [setBytes, ha]; exact ⟨_, rfl⟩
          case list => simp only [setList, hf]; exact ⟨_, rfl⟩
          case map => simp only [setMap, hf]; exact ⟨_, rfl⟩
          case set => simp only [setSet, hf]; exact ⟨_, rfl⟩
  obtain ⟨rest, h⟩ := hopen
  rw [C117_deadlock shard p [i] ?_ sched i (List.mem_singleton.mpr rfl), ht]
  intro j hj
  rw [List.mem_singleton] at hj
  subst hj
  refine ⟨t, (k, true), j, t, g, ht, ?_, List.mem_singleton.mpr rfl, ht, hg, hk, .inr rfl⟩
  rw [hp, h]
  have hd : ∃ o : Option Value, none ≠ o := ⟨some (.boolean true), by simp⟩
  simp only [GProg.ofProg, GProg.wants, hd, decide_true, Bool.or_true]

/-! ## Commands among guards -/

/-- C118. Dispatching commands is no reason to wait for ever for threads that hold no guard when they do so: such
threads ask for nothing while they hold a guard, if the rest of what they do is like that (C117_one_at_a_time). -/
theorem C118_orderly {α : Type} (ex : List (Option Value) → Bool) (p : Prog α) (next : Outcome DispatchError α → GProg)
    (hn : ∀ o, Orderly oneAtATime [] (next o)) : ∀ seen, Orderly oneAtATime [] (.ofProg ex seen p next) := by
  induction p with
  | done o => intro seen; exact hn o
  | onKey k upd rest ih => intro seen; exact ⟨rfl, fun o => ih o _⟩
  | onCtr m upd rest ih => intro seen o; exact ih o _

theorem ofProg_runs {α : Type} (shard : Bytes → Nat) (ex : List (Option Value) → Bool) (q : Prog α)
    (next : Outcome DispatchError α → GProg) (i : Nat) (held : List (Bytes × Bool)) : ∀ (seen : List (Option Value)) (p : GPool),
    p.threads[i]? = some ⟨held, .ofProg ex seen q next⟩ →
    Touches (fun k => ∀ t ∈ p.threads, ∀ g ∈ t.held, shard g.1 ≠ shard k) q →
    ∃ n, p.exec shard (List.replicate n i) =
      { threads := p.threads.set i ⟨held, next (q.run p.db).1⟩, db := (q.run p.db).2 } := by
  have hheld : ∀ {p : GPool} {pr pr' : GProg}, p.threads[i]? = some ⟨held, pr⟩ → ∀ t' ∈ p.threads.set i ⟨held, pr'⟩,
      ∃ t ∈ p.threads, t.held = t'.held := by
    intro p pr pr' hi t' ht'
    obtain ⟨j, hj⟩ := List.getElem?_of_mem ht'
    rcases getElem?_set_cases hj with ⟨-, rfl⟩ | ⟨-, hj'⟩
    · exact ⟨_, List.mem_of_getElem? hi, rfl⟩
    · exact ⟨t', List.mem_of_getElem? hj', rfl⟩
  induction q with
  | done o =>
    intro seen p hi _
    refine ⟨0, ?_⟩
    obtain ⟨h1, h2⟩ := List.getElem?_eq_some_iff.mp hi
    have : p.threads.set i ⟨held, next o⟩ = p.threads := by
      conv => rhs; rw [← List.set_getElem_self h1]
      rw [h2]; rfl
    show p = _
    simp only [Prog.run]
    rw [this]
  | onKey k upd rest ih =>
    intro seen p hi ht
    have hstep : p.stepAt shard i =
        { threads := p.threads.set i ⟨held, .ofProg ex (p.db.keys k :: seen) (rest (p.db.keys k)) next⟩
          db := p.db.setKey k (upd (p.db.keys k)) } := by
      rw [GPool.stepAt_free hi]
      · dsimp only [GProg.ofProg, GThread.step]
        congr 1
        split
        · rfl
        · rename_i hx
          simp only [Bool.or_eq_true, decide_eq_true_eq, not_or, not_exists, Decidable.not_not] at hx
          rw [hx.2]
          exact (Db.setKey_self p.db k).symm
      · intro w hw
        simp only [GProg.ofProg, GProg.wants, Option.some.injEq] at hw
        subst hw
        rw [GPool.free_iff]
        intro j t hj g hg
        have := ht.1 t (List.mem_of_getElem? hj) g hg
        simp [conflicts, this]
    have hi' : (p.stepAt shard i).threads[i]? = some ⟨held, .ofProg ex (p.db.keys k :: seen) (rest (p.db.keys k)) next⟩ := by
      rw [hstep]
      exact List.getElem?_set_self (List.getElem?_eq_some_iff.mp hi).1
    obtain ⟨n, hn⟩ := ih (p.db.keys k) (p.db.keys k :: seen) (p.stepAt shard i) hi' (by
      refine Touches.mono ?_ (ht.2 _)
      intro k' hk' t' ht' g hg
      rw [hstep] at ht'
      obtain ⟨t, h1, h2⟩ := hheld hi t' ht'
      exact hk' t h1 g (h2 ▸ hg))
    refine ⟨n + 1, ?_⟩
    rw [List.replicate_succ]
    show (p.stepAt shard i).exec shard _ = _
    rw [hn, hstep]
    simp only [List.set_set, Prog.run]
  | onCtr m upd rest ih =>
    intro seen p hi ht
    have hstep : p.stepAt shard i =
        { threads := p.threads.set i ⟨held, .ofProg ex seen (rest (p.db.ctrs m)) next⟩
          db := p.db.setCtr m (upd (p.db.ctrs m)) } := by
      unfold GPool.stepAt
      rw [hi]
      rfl
    have hi' : (p.stepAt shard i).threads[i]? = some ⟨held, .ofProg ex seen (rest (p.db.ctrs m)) next⟩ := by
      rw [hstep]
      exact List.getElem?_set_self (List.getElem?_eq_some_iff.mp hi).1
    obtain ⟨n, hn⟩ := ih (p.db.ctrs m) seen (p.stepAt shard i) hi' (by
      refine Touches.mono ?_ (ht _)
      intro k' hk' t' ht' g hg
      rw [hstep] at ht'
      obtain ⟨t, h1, h2⟩ := hheld hi t' ht'
      exact hk' t h1 g (h2 ▸ hg))
    refine ⟨n + 1, ?_⟩
    rw [List.replicate_succ]
    show (p.stepAt shard i).exec shard _ = _
    rw [hn, hstep]
    simp only [List.set_set, Prog.run]

/-- C118. A command dispatched while neither the thread's own guards nor those of others are for keys that share a lock with
one the command names is carried out as if it were alone, if the others are idle. -/
theorem C118_out_of_the_way (shard : Bytes → Nat) (ex : List (Option Value) → Bool) (p : GPool) (i : Nat)
    (held : List (Bytes × Bool)) (next : Outcome DispatchError Bytes → GProg)
    (hi : p.threads[i]? = some ⟨held, .ofProg ex [] (dispatch env r resp) next⟩) (hv : Views r c.cmd c.kt c.args)
    (hg : ∀ t ∈ p.threads, ∀ g ∈ t.held, ∀ k ∈ named c, shard g.1 ≠ shard k) :
    ∃ n, p.exec shard (List.replicate n i) =
      { threads := p.threads.set i ⟨held, next ((dispatch env r resp).run p.db).1⟩, db := ((dispatch env r resp).run p.db).2 } :=
  ofProg_runs shard ex _ next i held [] p hi (by
    refine Touches.mono ?_ (touches_named hv resp)
    intro k hk t ht g hgm
    exact hg t ht g hgm k hk)

/-! ## Concrete cases -/

/-- A thread that keeps a mutable guard of a key and gets the same key through the engine. -/
noncomputable def getUnderGuard : GProg :=
  .keyMut (sampleEnv .debug) [107] fun _ => .ofProg (fun _ => false) [] (dispatch (sampleEnv .debug) (call .get none [[107]]) []) fun _ => .done

/-- It never gets an answer. -/
example (sched : List Nat) :
    ∃ t, ((begun [getUnderGuard] (sampleDb [([107], .integer 5)])).exec (fun _ => 0) (0 :: sched)).threads[0]? = some t ∧
      t.held = [([107], true)] := by
  have ht : ((begun [getUnderGuard] (sampleDb [([107], .integer 5)])).exec (fun _ => 0) [0]).threads[0]? =
      some ⟨[([107], true)], .ofProg (fun _ => false) [] (dispatch (sampleEnv .debug) (call .get none [[107]]) []) fun _ => .done⟩ := rfl
  rcases C118_own_guard (env := sampleEnv .debug) (c := ⟨.get, none, [[107]]⟩) (fun _ => 0) (fun _ => false)
      ((begun [getUnderGuard] (sampleDb [([107], .integer 5)])).exec (fun _ => 0) [0]) 0 _ (fun _ => .done) ht rfl [107] (by simp)
      (call_views .get none [[107]] (by decide) (by decide) (by decide)) (by decide) (by decide) (by decide) rfl rfl with h | h
  · exact absurd h (by intro h; cases h)
  · exact ⟨_, h sched, rfl⟩

/-- Nor does a thread that keeps a shared guard of a key and deletes it. -/
example (p : GPool) (sched : List Nat)
    (ht : p.threads[1]? = some ⟨[([107], false)],
      .ofProg (fun _ => false) [] (dispatch (sampleEnv .release) (call .delete none [[107]]) []) fun _ => .done⟩) :
    (p.exec List.length sched).threads[1]? = p.threads[1]? := by
  rw [C118_shared_guard (env := sampleEnv .release) (c := ⟨.delete, none, [[107]]⟩) List.length (fun _ => false) p 1 _ (fun _ => .done) ht rfl
    ([107], false) (by simp) (call_views .delete none [[107]] (by decide) (by decide) (by decide)) (by decide) (.inl rfl) rfl rfl sched, ht]

/-- The same for a key with another lock. -/
noncomputable def getBesideGuard : GPool :=
  ⟨[⟨[([107], true)], .ofProg (fun _ => false) [] (dispatch (sampleEnv .debug) (call .get none [[107, 107]]) []) fun _ => .done⟩],
    sampleDb [([107], .integer 5)]⟩

/-- It gets its answer. -/
example : ∃ n, getBesideGuard.exec List.length (List.replicate n 0) = ⟨[⟨[([107], true)], .done⟩],
    ((dispatch (sampleEnv .debug) (call .get none [[107, 107]]) []).run (sampleDb [([107], .integer 5)])).2⟩ := by
  refine C118_out_of_the_way (c := ⟨.get, none, [[107, 107]]⟩) List.length (fun _ => false) getBesideGuard 0 _ (fun _ => .done) rfl
    (call_views .get none [[107, 107]] (by decide) (by decide) (by decide)) ?_
  intro t ht g hg k hk
  cases List.mem_singleton.mp ht
  cases List.mem_singleton.mp hg
  cases List.mem_singleton.mp hk
  decide

/-- Any command, and then another, keeping no guard. -/
example (ex : List (Option Value) → Bool) (r r' : Request) :
    Orderly oneAtATime [] (.ofProg ex [] (dispatch (sampleEnv .debug) r []) fun _ => .ofProg ex [] (dispatch (sampleEnv .debug) r' []) fun _ => .done) :=
  C118_orderly ex _ _ (fun _ => C118_orderly ex _ (fun _ => .done) (fun _ => trivial) []) []

end Hop
