import Verif.Props.GuardedCommands

/-!
# Commands that are refused while guards of their keys are kept (C195)
-/

namespace Hop

open Prog Spec

variable {env : Env} {r : Request} {resp : Bytes} {c : Call}

/-- No guard is in the way of the accesses the program makes on this database. -/
private def Unhindered {α : Type} (ok : Bytes × Bool → Prop) (ex : List (Option Value) → Bool) : List (Option Value) → Db → Prog α → Prop
  | _, _, .done _ => True
  | seen, db, .onKey k upd rest => (∀ e : Bool, (e = true → ex seen = true ∨ ∃ o, upd o ≠ o) → ok (k, e)) ∧
      Unhindered ok ex (db.keys k :: seen) (db.setKey k (upd (db.keys k))) (rest (db.keys k))
  | seen, db, .onCtr m upd rest => Unhindered ok ex seen (db.setCtr m (upd (db.ctrs m))) (rest (db.ctrs m))

private theorem Unhindered.mono {α : Type} {ok ok' : Bytes × Bool → Prop} {ex : List (Option Value) → Bool} (h : ∀ w, ok w → ok' w) {q : Prog α} :
    ∀ {seen db}, Unhindered ok ex seen db q → Unhindered ok' ex seen db q := by
  induction q with
  | done o => exact fun _ => trivial
  | onKey k upd rest ih => exact fun hq => ⟨fun e he => h _ (hq.1 e he), ih _ hq.2⟩
  | onCtr m upd rest ih => exact fun hq => ih _ hq

private theorem along_runs {α : Type} (shard : Bytes → Nat) (ex : List (Option Value) → Bool) (q : Prog α)
    (next : Outcome DispatchError α → GProg) (i : Nat) (held : List (Bytes × Bool)) : ∀ (seen : List (Option Value)) (p : GPool),
    p.threads[i]? = some ⟨held, .ofProg ex seen q next⟩ → Unhindered (fun w => p.free shard w = true) ex seen p.db q →
    ∃ n, p.exec shard (List.replicate n i) =
      { threads := p.threads.set i ⟨held, next (q.run p.db).1⟩, db := (q.run p.db).2 } := by
  induction q with
  | done o =>
    intro seen p hi _
    exact passes_runs shard ex (.done o) next i held seen p hi trivial
  | onKey k upd rest ih =>
    intro seen p hi ht
    have hstep := ofProg_step hi ht.1
    have hi' : (p.stepAt shard i).threads[i]? = some ⟨held, .ofProg ex (p.db.keys k :: seen) (rest (p.db.keys k)) next⟩ := by
      rw [hstep]
      exact List.getElem?_set_self (List.getElem?_eq_some_iff.mp hi).1
    obtain ⟨n, hn⟩ := ih (p.db.keys k) (p.db.keys k :: seen) (p.stepAt shard i) hi' (by
      have := ht.2
      rw [hstep]
      refine Unhindered.mono ?_ this
      intro w hw
      exact free_set hi hw)
    refine ⟨n + 1, ?_⟩
    rw [List.replicate_succ]
    show (p.stepAt shard i).exec shard _ = _
    rw [hn, hstep]
    simp only [List.set_set, Prog.run]
  | onCtr m upd rest ih =>
    intro seen p hi ht
    have hstep := ofProg_count (shard := shard) hi
    have hi' : (p.stepAt shard i).threads[i]? = some ⟨held, .ofProg ex seen (rest (p.db.ctrs m)) next⟩ := by
      rw [hstep]
      exact List.getElem?_set_self (List.getElem?_eq_some_iff.mp hi).1
    obtain ⟨n, hn⟩ := ih (p.db.ctrs m) seen (p.stepAt shard i) hi' (by
      have ht' : Unhindered (fun w => p.free shard w = true) ex seen (p.db.setCtr m (upd (p.db.ctrs m))) (rest (p.db.ctrs m)) := ht
      rw [hstep]
      refine Unhindered.mono ?_ ht'
      intro w hw
      exact free_set hi hw)
    refine ⟨n + 1, ?_⟩
    rw [List.replicate_succ]
    show (p.stepAt shard i).exec shard _ = _
    rw [hn, hstep]
    simp only [List.set_set, Prog.run]

private theorem Unhindered.andThen {α β : Type} {ok : Bytes × Bool → Prop} {ex : List (Option Value) → Bool}
    {q : Prog α} {f : Outcome DispatchError α → Prog β} (hf : ∀ o seen db, Unhindered ok ex seen db (f o)) :
    ∀ {seen db}, Unhindered ok ex seen db q → Unhindered ok ex seen db (q.andThen f) := by
  induction q with
  | done o => exact fun _ => hf o _ _
  | onKey k upd rest ih => exact fun hq => ⟨hq.1, ih _ hq.2⟩
  | onCtr m upd rest ih => exact fun hq => ih _ hq

private theorem Unhindered.counted {ok : Bytes × Bool → Prop} {ex : List (Option Value) → Bool} (o : Outcome DispatchError Bytes)
    (seen : List (Option Value)) (db : Db) : Unhindered ok ex seen db (countOutcome env o) := by
  cases o with
  | ok a => simp only [countOutcome, incrementMetric, Unhindered]; split <;> trivial
  | err e => simp only [countOutcome, incrementMetric, Unhindered]; split <;> trivial
  | panic => trivial
  | stuck => trivial

/-- Either no guard is in the way, or the command is not refused. -/
private def Gets {α : Type} (ok : Bytes × Bool → Prop) (ex : List (Option Value) → Bool) (seen : List (Option Value)) (db : Db) (q : Prog α) : Prop :=
  (∀ e, (q.run db).1 ≠ .err e) ∨ Unhindered ok ex seen db q

private theorem Gets.failed {α : Type} {ok : Bytes × Bool → Prop} {ex : List (Option Value) → Bool} {seen : List (Option Value)} {db : Db} {e : DispatchError} :
    Gets ok ex seen db (fail e : Prog α) := .inr trivial

private theorem Gets.orErr {α β : Type} {ok : Bytes × Bool → Prop} {ex : List (Option Value) → Bool} {seen : List (Option Value)} {db : Db}
    {o : Option α} {e : DispatchError} {f : α → Prog β} (h : ∀ a, o = some a → Gets ok ex seen db (f a)) : Gets ok ex seen db (orErr o e f) := by
  cases o with
  | none => exact .inr trivial
  | some a => exact h a rfl

private theorem Gets.read {α : Type} {ok : Bytes × Bool → Prop} {ex : List (Option Value) → Bool} {seen : List (Option Value)} {db : Db} {k : Bytes}
    {next : Option Value → Prog α} (hex : ex seen = false) (hk : ok (k, false)) (h : Gets ok ex (db.keys k :: seen) db (next (db.keys k))) :
    Gets ok ex seen db (readKey k next) := by
  have e : db.setKey k (db.keys k) = db := Db.setKey_self db k
  rcases h with h | h
  · left
    show ∀ e, ((next (db.keys k)).run (db.setKey k (db.keys k))).1 ≠ _
    rw [e]
    exact h
  · right
    refine ⟨fun b hb => ?_, ?_⟩
    · cases b with
      | false => exact hk
      | true =>
        rcases hb rfl with h1 | ⟨o, ho⟩
        · rw [hex] at h1; cases h1
        · exact absurd rfl ho
    · show Unhindered ok ex _ (db.setKey k (db.keys k)) _
      rw [e]
      exact h

private theorem insert_run {α : Type} {k : Bytes} {mk : Value} {body : Value → Value × Outcome DispatchError α} {db : Db} (hk : db.keys k = none)
    (hb : ∀ e, (body mk).2 ≠ .err e) (e : DispatchError) : ((keyOrInsertWith env k mk body).run db).1 ≠ .err e := by
  unfold keyOrInsertWith
  split
  · exact nofun
  · split
    · exact nofun
    · simp only [keyOrInsertLoop, Prog.run, insertKey, hk, Db.setKey]
      simpa [Prog.run] using hb e

private theorem found_run {α : Type} {k : Bytes} {mk v : Value} {body : Value → Value × Outcome DispatchError α} {db : Db} (hk : db.keys k = some v)
    (hb : ∀ e, (body v).2 ≠ .err e) (e : DispatchError) : ((keyOrInsertWith env k mk body).run db).1 ≠ .err e := by
  unfold keyOrInsertWith
  split
  · exact nofun
  · split
    · exact nofun
    · simp only [keyOrInsertLoop, Prog.run, hk]
      exact hb e

private theorem writes_out {α : Type} (o : Option α) (e : DispatchError) : (Outcome.ofOption o : Outcome DispatchError α) ≠ .err e := by
  cases o <;> exact nofun

private theorem appends {ok : Bytes × Bool → Prop} {ex : List (Option Value) → Bool} {seen : List (Option Value)} {db : Db} {k : Bytes}
    {mk : Value} {body : Value → Value × Outcome DispatchError Bytes} (h1 : db.keys k = none → ∀ e, (body mk).2 ≠ .err e)
    (h2 : ∀ v, db.keys k = some v → ∀ e, (body v).2 ≠ .err e) : Gets ok ex seen db (keyOrInsertWith env k mk body) := by
  cases hk : db.keys k with
  | none => exact .inl (insert_run hk (h1 hk))
  | some v => exact .inl (found_run hk (h2 v hk))

private theorem sets {ok : Bytes × Bool → Prop} {ex : List (Option Value) → Bool} {seen : List (Option Value)} {db : Db} {k : Bytes}
    {mk : Value} {body : Value → Value × Outcome DispatchError Bytes} (h1 : ∀ e, (body mk).2 ≠ .err e) :
    Gets ok ex seen db (removeKey k fun _ => keyOrInsertWith env k mk body) := by
  refine .inl fun e => ?_
  show ((keyOrInsertWith env k mk body).run (db.setKey k none)).1 ≠ _
  exact insert_run (by simp [Db.setKey]) h1 e

private theorem among {l : List Bytes} {k : Bytes} {n i : Nat} (h : l[i]? = some k) (hi : i < n) : k ∈ l.take n := by
  refine List.mem_of_getElem? (i := i) ?_
  rw [List.getElem?_take, if_pos hi]
  exact h

private theorem command_gets (hv : Views r c.cmd c.kt c.args) (hc : c.cmd ∈ [.append, .set, .rename]) (hkt : c.kt = none) {ok : Bytes × Bool → Prop}
    (hok : ∀ k ∈ named c, ok (k, false)) (db : Db) : Gets ok (exclusive r.commandId r.keyType) [] db (command env r resp) := by
  obtain ⟨cmd, kt, args⟩ := c
  dsimp only at hkt hv hc
  subst hkt
  unfold command
  rw [hv.command, hv.keyType]
  cases cmd <;> first | (exfalso; revert hc; decide) | dsimp only
  case append =>
    refine Gets.orErr fun k hk => Gets.orErr fun args' _ => ?_
    unfold resolveKeyType
    rw [hv.keyType]
    refine Gets.read rfl (hok k ?_) ?_
    · simp only [named]; exact among (hv.arg 0 ▸ hk) (by omega)
    · cases h : db.keys k with
      | none => exact appends (fun _ e => writes_out _ e) (fun v hv => by rw [h] at hv; cases hv)
      | some v =>
        cases v <;> first
          | exact Gets.failed
          | exact appends (fun hn => by rw [h] at hn; cases hn) (fun v hv => by rw [h] at hv; cases hv; exact fun e => writes_out _ e)
  case set =>
    refine Gets.orErr fun k hk => ?_
    split
    · exact Gets.failed
    · unfold resolveKeyType
      rw [hv.keyType]
      refine Gets.read rfl (hok k ?_) ?_
      · simp only [named]; exact among (hv.arg 0 ▸ Request.key_arg hk) (by omega)
      · dsimp only
        split
        · exact Gets.orErr fun _ _ => sets fun e => writes_out _ e
        · exact Gets.orErr fun _ _ => sets fun e => nofun
        · exact Gets.orErr fun _ _ => sets fun e => nofun
        · exact Gets.orErr fun _ _ => sets fun e => nofun
        · exact Gets.orErr fun _ _ => sets fun e => writes_out _ e
        · exact Gets.orErr fun _ _ => sets fun e => by dsimp only [Value.default]; split <;> exact nofun
        · exact Gets.orErr fun _ _ => sets fun e => by dsimp only [Value.default]; split <;> exact nofun
        · exact Gets.orErr fun _ _ => sets fun e => writes_out _ e
  case rename =>
    unfold dispatchRename
    rw [hv.keyType]
    refine Gets.orErr fun a ha => Gets.orErr fun b hb => Gets.read rfl (hok a ?_) ?_
    · simp only [named]; exact among (hv.arg 0 ▸ ha) (by omega)
    · dsimp only
      split
      · exact Gets.failed
      · rename_i h1
        refine Gets.read rfl (hok b ?_) ?_
        · simp only [named]; exact among (hv.arg 1 ▸ hb) (by omega)
        · dsimp only
          split
          · exact Gets.failed
          · refine .inl fun e => ?_
            cases h : db.keys a with
            | none => rw [h] at h1; simp at h1
            | some v =>
              simp only [removeKey, Prog.run, h, insertKey]
              exact writes_out _ e

/-- **C195.** An Append, Set or Rename without a key type that is refused when it is alone is refused with the same error, and has the same
effect, while guards of its keys or of others with the same locks are kept, by the same thread or by others, if all those guards are shared. -/
theorem C195_refused (shard : Bytes → Nat) (p : GPool) (i : Nat) (held : List (Bytes × Bool)) (next : Outcome DispatchError Bytes → GProg)
    (hi : p.threads[i]? = some ⟨held, .dispatch env r resp next⟩) (hv : Views r c.cmd c.kt c.args) (hc : c.cmd ∈ [.append, .set, .rename])
    (hkt : c.kt = none) (hg : ∀ t ∈ p.threads, ∀ g ∈ t.held, ∀ k ∈ named c, shard g.1 = shard k → g.2 = false)
    {e : DispatchError} (he : ((dispatch env r resp).run p.db).1 = .err e) :
    ∃ n, p.exec shard (List.replicate n i) =
      { threads := p.threads.set i ⟨held, next (.err e)⟩, db := ((dispatch env r resp).run p.db).2 } := by
  have hf : ∀ k ∈ named c, p.free shard (k, false) = true := by
    intro k hk
    rw [GPool.free_iff]
    intro j t hj g hgm
    simp only [conflicts, Bool.or_false, Bool.and_eq_false_iff, beq_eq_false_iff_ne]
    by_cases hs : shard g.1 = shard k
    · exact .inr (hg t (List.mem_of_getElem? hj) g hgm k hk hs)
    · exact .inl hs
  have ha : Unhindered (fun w => p.free shard w = true) (exclusive r.commandId r.keyType) [] p.db (command env r resp) := by
    rcases command_gets (env := env) (resp := resp) (ok := fun w => p.free shard w = true) hv hc hkt hf p.db with h | h
    · exfalso
      unfold dispatch at he
      rw [run_andThen] at he
      cases hr : ((command env r resp).run p.db).1 with
      | err e' => exact h e' hr
      | ok a =>
        rw [hr] at he
        simp only [countOutcome, incrementMetric, Prog.run] at he
        split at he <;> cases he
      | panic => rw [hr] at he; cases he
      | stuck => rw [hr] at he; cases he
    · exact h
  unfold GProg.dispatch at hi
  rw [← he]
  exact along_runs shard _ (dispatch env r resp) next i held [] p hi (Unhindered.andThen Unhindered.counted ha)

/-! ## Concrete cases -/

/-- A thread that keeps a shared guard of a key, and appends to the key, which holds an integer. -/
noncomputable def appendUnderShared : GPool :=
  ⟨[⟨[([107], false)], .dispatch (sampleEnv .debug) (call .append none [[107], [1]]) [] fun _ => .done⟩], sampleDb [([107], .integer 5)]⟩

/-- It is told that the type is different. -/
example : ∃ n, appendUnderShared.exec List.length (List.replicate n 0) = ⟨[⟨[([107], false)], .done⟩],
    ((dispatch (sampleEnv .debug) (call .append none [[107], [1]]) []).run (sampleDb [([107], .integer 5)])).2⟩ := by
  refine C195_refused (c := ⟨.append, none, [[107], [1]]⟩) (e := .keyTypeDifferent) List.length appendUnderShared 0 _ (fun _ => .done) rfl
    (call_views .append none [[107], [1]] (by decide) (by decide) (by decide)) (by decide) rfl ?_ (by decide +kernel)
  intro t ht g hg k hk _
  cases List.mem_singleton.mp ht
  cases List.mem_singleton.mp hg
  rfl

end Hop
