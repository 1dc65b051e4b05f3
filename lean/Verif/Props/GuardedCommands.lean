import Verif.Model.GuardedCommands
import Verif.Props.GuardsDispatch

/-! # C186: commands dispatched while guards are held, with the locks each of them takes -/

namespace Hop

open Spec Prog

variable {env : Env} {r : Request} {resp : Bytes} {c : Call}

namespace Spec

/-- The commands that may change a key. -/
def changing : List CommandId := [.append, .decrement, .decrementBy, .delete, .increment, .incrementBy, .rename, .set]

/-- The keys a command may change: its first argument, and for Rename the second too. -/
def changes (c : Call) (k : Bytes) : Prop := c.args[0]? = some k ∨ (c.cmd = .rename ∧ c.args[1]? = some k)

end Spec

/-! ## Commands that get through -/

/-- No guard of the pool is in the way of any access of the program. -/
def Passes {α : Type} (ok : Bytes × Bool → Prop) (ex : List (Option Value) → Bool) : List (Option Value) → Prog α → Prop
  | _, .done _ => True
  | seen, .onKey k upd rest => (∀ e : Bool, (e = true → ex seen = true ∨ ∃ o, upd o ≠ o) → ok (k, e)) ∧
      ∀ o, Passes ok ex (o :: seen) (rest o)
  | seen, .onCtr _ _ rest => ∀ o, Passes ok ex seen (rest o)

theorem Passes.mono {α : Type} {ok ok' : Bytes × Bool → Prop} {ex : List (Option Value) → Bool} (h : ∀ w, ok w → ok' w) {q : Prog α} :
    ∀ {seen}, Passes ok ex seen q → Passes ok' ex seen q := by
  induction q with
  | done o => exact fun _ => trivial
  | onKey k upd rest ih => exact fun hq => ⟨fun e he => h _ (hq.1 e he), fun o => ih o (hq.2 o)⟩
  | onCtr m upd rest ih => exact fun hq o => ih o (hq o)

/-- A step of a command that need not wait. -/
theorem ofProg_step {α : Type} {shard : Bytes → Nat} {ex : List (Option Value) → Bool} {next : Outcome DispatchError α → GProg} {i : Nat}
    {held : List (Bytes × Bool)} {seen : List (Option Value)} {p : GPool} {k : Bytes} {upd : Option Value → Option Value}
    {rest : Option Value → Prog α} (hi : p.threads[i]? = some ⟨held, .ofProg ex seen (.onKey k upd rest) next⟩)
    (hf : ∀ e : Bool, (e = true → ex seen = true ∨ ∃ o, upd o ≠ o) → p.free shard (k, e) = true) :
    p.stepAt shard i =
      { threads := p.threads.set i ⟨held, .ofProg ex (p.db.keys k :: seen) (rest (p.db.keys k)) next⟩
        db := p.db.setKey k (upd (p.db.keys k)) } := by
  rw [GPool.stepAt_free hi]
  · dsimp only [GProg.ofProg, GThread.step]
    congr 1
    split
    · rfl
    · rename_i hx
      simp only [Bool.or_eq_true, decide_eq_true_eq, not_or, not_exists, Decidable.not_not] at hx
      rw [hx.2]
      exact (Db.setKey_self p.db k).symm
  · intro w hw
    simp only [GProg.ofProg, GProg.wants, Option.some.injEq] at hw
    subst hw
    refine hf _ fun he => ?_
    simpa only [Bool.or_eq_true, decide_eq_true_eq] using he

theorem ofProg_count {α : Type} {shard : Bytes → Nat} {ex : List (Option Value) → Bool} {next : Outcome DispatchError α → GProg} {i : Nat}
    {held : List (Bytes × Bool)} {seen : List (Option Value)} {p : GPool} {m : Metric} {upd : Option Nat → Option Nat}
    {rest : Option Nat → Prog α} (hi : p.threads[i]? = some ⟨held, .ofProg ex seen (.onCtr m upd rest) next⟩) :
    p.stepAt shard i =
      { threads := p.threads.set i ⟨held, .ofProg ex seen (rest (p.db.ctrs m)) next⟩, db := p.db.setCtr m (upd (p.db.ctrs m)) } := by
  unfold GPool.stepAt
  rw [hi]
  rfl

/-- Locks are free as before if the thread keeps the guards it had. -/
theorem free_set {shard : Bytes → Nat} {p : GPool} {i : Nat} {held : List (Bytes × Bool)} {pr pr' : GProg} {db : Db} {w : Bytes × Bool}
    (hi : p.threads[i]? = some ⟨held, pr⟩) (hf : p.free shard w = true) :
    GPool.free shard { threads := p.threads.set i ⟨held, pr'⟩, db := db } w = true := by
  rw [GPool.free_iff] at hf ⊢
  intro j t hj g hg
  dsimp only at hj
  rcases getElem?_set_cases hj with ⟨-, rfl⟩ | ⟨-, hj'⟩
  · exact hf i _ hi g hg
  · exact hf j t hj' g hg

theorem passes_runs {α : Type} (shard : Bytes → Nat) (ex : List (Option Value) → Bool) (q : Prog α)
    (next : Outcome DispatchError α → GProg) (i : Nat) (held : List (Bytes × Bool)) : ∀ (seen : List (Option Value)) (p : GPool),
    p.threads[i]? = some ⟨held, .ofProg ex seen q next⟩ → Passes (fun w => p.free shard w = true) ex seen q →
    ∃ n, p.exec shard (List.replicate n i) =
      { threads := p.threads.set i ⟨held, next (q.run p.db).1⟩, db := (q.run p.db).2 } := by
  induction q with
  | done o =>
    intro seen p hi _
    refine ⟨0, ?_⟩
    obtain ⟨h1, h2⟩ := List.getElem?_eq_some_iff.mp hi
    have : p.threads.set i ⟨held, next o⟩ = p.threads := by
      conv => rhs; rw [← List.set_getElem_self h1]
      rw [h2]; rfl
    show p = _
    simp only [Prog.run]
    rw [this]
  | onKey k upd rest ih =>
    intro seen p hi ht
    have hstep := ofProg_step hi ht.1
    have hi' : (p.stepAt shard i).threads[i]? = some ⟨held, .ofProg ex (p.db.keys k :: seen) (rest (p.db.keys k)) next⟩ := by
      rw [hstep]
      exact List.getElem?_set_self (List.getElem?_eq_some_iff.mp hi).1
    obtain ⟨n, hn⟩ := ih (p.db.keys k) (p.db.keys k :: seen) (p.stepAt shard i) hi' (by
      refine Passes.mono ?_ (ht.2 _)
      intro w hw
      rw [hstep]
      exact free_set hi hw)
    refine ⟨n + 1, ?_⟩
    rw [List.replicate_succ]
    show (p.stepAt shard i).exec shard _ = _
    rw [hn, hstep]
    simp only [List.set_set, Prog.run]
  | onCtr m upd rest ih =>
    intro seen p hi ht
    have hstep := ofProg_count (shard := shard) hi
    have hi' : (p.stepAt shard i).threads[i]? = some ⟨held, .ofProg ex seen (rest (p.db.ctrs m)) next⟩ := by
      rw [hstep]
      exact List.getElem?_set_self (List.getElem?_eq_some_iff.mp hi).1
    obtain ⟨n, hn⟩ := ih (p.db.ctrs m) seen (p.stepAt shard i) hi' (by
      refine Passes.mono ?_ (ht _)
      intro w hw
      rw [hstep]
      exact free_set hi hw)
    refine ⟨n + 1, ?_⟩
    rw [List.replicate_succ]
    show (p.stepAt shard i).exec shard _ = _
    rw [hn, hstep]
    simp only [List.set_set, Prog.run]

theorem passes_reads {α : Type} {K : Bytes → Prop} {ok : Bytes × Bool → Prop} (h : ∀ k, K k → ok (k, false)) {q : Prog α}
    (ht : Touches K q) (hw : Writes (fun _ => False) q) : ∀ seen, Passes ok (fun _ => false) seen q := by
  induction q with
  | done o => exact fun _ => trivial
  | onKey k upd rest ih =>
    intro seen
    refine ⟨fun e he => ?_, fun o => ih o (ht.2 o) (hw.2 o) _⟩
    cases e with
    | false => exact h k ht.1
    | true =>
      rcases he rfl with h1 | ⟨o, ho⟩
      · cases h1
      · exact absurd (hw.1.resolve_left id o) ho
  | onCtr m upd rest ih => exact fun seen o => ih o (ht o) (hw o) _

/-- C186. A command that changes no key (Echo, Exists, Get, Is, Keys, Length, Stats, Type) is carried out as if it were alone, the other
threads being idle, even while guards of its keys or of others with the same locks are kept, by the same thread or by
others, if all those guards are shared. -/
theorem C186_reads (shard : Bytes → Nat) (p : GPool) (i : Nat) (held : List (Bytes × Bool)) (next : Outcome DispatchError Bytes → GProg)
    (hi : p.threads[i]? = some ⟨held, .dispatch env r resp next⟩) (hv : Views r c.cmd c.kt c.args) (hc : c.cmd ∉ changing)
    (hg : ∀ t ∈ p.threads, ∀ g ∈ t.held, ∀ k ∈ named c, shard g.1 = shard k → g.2 = false) :
    ∃ n, p.exec shard (List.replicate n i) =
      { threads := p.threads.set i ⟨held, next ((dispatch env r resp).run p.db).1⟩, db := ((dispatch env r resp).run p.db).2 } := by
  have hex : exclusive r.commandId r.keyType = fun _ => false := by
    rw [hv.command]
    funext seen
    revert hc
    cases c.cmd <;> simp [changing, exclusive]
  unfold GProg.dispatch at hi
  rw [hex] at hi
  refine passes_runs shard _ _ next i held [] p hi (passes_reads (K := fun k => k ∈ named c) ?_ (touches_named hv resp) ?_ [])
  · intro k hk
    rw [GPool.free_iff]
    intro j t hj g hgm
    simp only [conflicts, Bool.or_false, Bool.and_eq_false_iff, beq_eq_false_iff_ne]
    by_cases hs : shard g.1 = shard k
    · exact .inr (hg t (List.mem_of_getElem? hj) g hgm k hk hs)
    · exact .inl hs
  · refine Writes.andThen (writes_command ?_ ?_) fun o => Writes.countOutcome o
    · intro h
      rw [hv.command] at h
      exact absurd (by revert hc; cases c.cmd <;> simp [changing]) h
    · intro h
      rw [hv.command] at h
      rw [h] at hc
      exact absurd (by decide) hc

/-! ## Commands that do not -/

/-- C186. A thread that keeps any guard, shared or exclusive, whose lock is that of the command's key, and dispatches a command whose
first access is exclusive (the counters, Delete, Append and Set with a key type) never gets an answer: the command panics at
once, or waits for ever. Commands that are wrong in themselves are excepted. -/
theorem C186_waits (shard : Bytes → Nat) (p : GPool) (i : Nat) (t : GThread) (next : Outcome DispatchError Bytes → GProg)
    (ht : p.threads[i]? = some t) (hp : t.prog = .dispatch env r resp next) (g : Bytes × Bool) (hg : g ∈ t.held)
    (hv : Views r c.cmd c.kt c.args) (hm : malformed c = none)
    (hc : c.cmd ∈ [.decrement, .decrementBy, .delete, .increment, .incrementBy] ∨ (c.cmd ∈ [.append, .set] ∧ c.kt ≠ none))
    {k : Bytes} {items : List Bytes} (ha : c.args = k :: items) (hk : shard g.1 = shard k) :
    dispatch env r resp = .done .panic ∨ ∀ sched, (p.exec shard sched).threads[i]? = some t := by
  have hex : exclusive r.commandId r.keyType [] = true := by
    rw [hv.command, hv.keyType]
    revert hc
    cases c.cmd <;> cases c.kt <;> simp [exclusive]
  have he : c.cmd ≠ .echo ∧ c.cmd ≠ .stats := by
    revert hc
    cases c.cmd <;> simp
  rcases dispatch_opens (env := env) (resp := resp) hv hm he.1 he.2 ha with h | ⟨upd, rest, h⟩
  · exact .inl h
  · right
    intro sched
    rw [C117_deadlock shard p [i] ?_ sched i (List.mem_singleton.mpr rfl), ht]
    intro j hj
    rw [List.mem_singleton] at hj
    subst hj
    refine ⟨t, (k, true), j, t, g, ht, ?_, List.mem_singleton.mpr rfl, ht, hg, hk, .inr rfl⟩
    rw [hp, GProg.dispatch, h]
    simp only [GProg.ofProg, GProg.wants, hex, Bool.true_or]

/-- The program has no success without exclusive access to the lock. -/
def Denied {α : Type} (shard : Bytes → Nat) (s : Nat) (ex : List (Option Value) → Bool) : List (Option Value) → Prog α → Prop
  | _, .done o => ∀ b, o ≠ .ok b
  | seen, .onKey k upd rest => (shard k = s ∧ (ex seen = true ∨ ∃ o, upd o ≠ o)) ∨ ∀ o, Denied shard s ex (o :: seen) (rest o)
  | seen, .onCtr _ _ rest => ∀ o, Denied shard s ex seen (rest o)

theorem Denied.andThen {α β : Type} {shard : Bytes → Nat} {s : Nat} {ex : List (Option Value) → Bool}
    {f : Outcome DispatchError α → Prog β} (hf : ∀ seen o, (∀ b, o ≠ .ok b) → Denied shard s ex seen (f o)) {q : Prog α} :
    ∀ {seen}, Denied shard s ex seen q → Denied shard s ex seen (q.andThen f) := by
  induction q with
  | done o => exact fun h => hf _ o h
  | onKey k upd rest ih => exact fun h => h.imp id fun h o => ih o (h o)
  | onCtr m upd rest ih => exact fun h o => ih o (h o)

theorem Denied.counted {shard : Bytes → Nat} {s : Nat} {ex : List (Option Value) → Bool} (seen : List (Option Value))
    (o : Outcome DispatchError Bytes) (h : ∀ b, o ≠ .ok b) : Denied shard s ex seen (countOutcome env o) := by
  cases o with
  | ok b => exact absurd rfl (h b)
  | err e =>
    intro o
    dsimp only
    split <;> exact fun b hb => by cases hb
  | panic => exact fun b hb => by cases hb
  | stuck => exact fun b hb => by cases hb

theorem Denied.orInsert {α : Type} {shard : Bytes → Nat} {ex : List (Option Value) → Bool} {seen : List (Option Value)} (hex : ex seen = true)
    (k : Bytes) (mk : Value) (body : Value → Value × Outcome DispatchError α) :
    Denied shard (shard k) ex seen (keyOrInsertWith env k mk body) := by
  unfold keyOrInsertWith
  split
  · exact fun b hb => by cases hb
  · split
    · exact fun b hb => by cases hb
    · exact .inl ⟨rfl, .inl hex⟩

theorem Denied.orErr {α β : Type} {shard : Bytes → Nat} {s : Nat} {ex : List (Option Value) → Bool} {seen : List (Option Value)}
    {o : Option β} {e : DispatchError} {f : β → Prog α} (h : ∀ a, o = some a → Denied shard s ex seen (f a)) :
    Denied shard s ex seen (orErr o e f) := by
  cases o with
  | none => exact fun b hb => by cases hb
  | some a => exact h a rfl

theorem Denied.failed {α : Type} {shard : Bytes → Nat} {s : Nat} {ex : List (Option Value) → Bool} {seen : List (Option Value)}
    {e : DispatchError} : Denied shard s ex seen (fail e : Prog α) := fun b hb => by cases hb

theorem Denied.removed {α : Type} {shard : Bytes → Nat} {ex : List (Option Value) → Bool} {seen : List (Option Value)}
    {k : Bytes} {f : Option Value → Prog α} : Denied shard (shard k) ex seen (removeKey k f) :=
  .inl ⟨rfl, .inr ⟨some (.boolean true), by simp⟩⟩

theorem command_denied (shard : Bytes → Nat) (hv : Views r c.cmd c.kt c.args) (hc : c.cmd ∈ changing) {k : Bytes} (hk : changes c k) :
    Denied shard (shard k) (exclusive r.commandId r.keyType) [] (command env r resp) := by
  obtain ⟨cmd, kt, args⟩ := c
  simp only [changes] at hv hk hc
  unfold command
  rw [hv.command]
  have h0 : cmd ≠ .rename → ∀ k', r.arg 0 = some k' → k' = k := by
    intro hne k' h
    rw [hv.arg] at h
    rcases hk with hk | hk
    · exact Option.some.inj (h.symm.trans hk)
    · exact absurd hk.1 hne
  have h0' : cmd ≠ .rename → ∀ k', r.key = some k' → k' = k := fun hne k' h => h0 hne k' (Request.key_arg h)
  cases cmd <;> first | (exfalso; revert hc; decide) | dsimp only
  case append =>
    have h0 := h0 (by decide)
    refine Denied.orErr fun k' hk' => Denied.orErr fun args' _ => ?_
    cases h0 k' hk'
    unfold resolveKeyType
    rw [hv.keyType]
    cases kt with
    | none =>
      refine .inr fun o => ?_
      dsimp only
      split <;> first | exact Denied.failed | exact Denied.orInsert rfl _ _ _
    | some t => cases t <;> first | exact Denied.failed | exact Denied.orInsert rfl _ _ _
  case decrement | increment =>
    all_goals
      have h0 := h0' (by decide)
      refine Denied.orErr fun k' hk' => ?_
      cases h0 k' hk'
      split <;> exact Denied.orInsert rfl _ _ _
  case decrementBy | incrementBy =>
    all_goals
      have h0 := h0' (by decide)
      refine Denied.orErr fun k' hk' => ?_
      cases h0 k' hk'
      repeat' split
      all_goals first | exact Denied.failed | exact Denied.orInsert rfl _ _ _ | exact fun b hb => by cases hb
  case delete =>
    have h0 := h0' (by decide)
    unfold dispatchDelete
    split
    · exact Denied.failed
    · refine Denied.orErr fun k' hk' => ?_
      cases h0 k' hk'
      exact Denied.removed
  case rename =>
    unfold dispatchRename
    split
    · exact Denied.failed
    · refine Denied.orErr fun a ha => Denied.orErr fun b hb => .inr fun o => ?_
      dsimp only
      split
      · exact Denied.failed
      · refine .inr fun o' => ?_
        dsimp only
        split
        · exact Denied.failed
        · rw [hv.arg] at ha hb
          rcases hk with hk | ⟨-, hk⟩
          · cases Option.some.inj (ha.symm.trans hk)
            exact Denied.removed
          · cases Option.some.inj (hb.symm.trans hk)
            refine .inr fun o'' => ?_
            cases o'' with
            | none => exact Denied.failed
            | some v => exact .inl ⟨rfl, .inl rfl⟩
  case set =>
    have h0 := h0' (by decide)
    refine Denied.orErr fun k' hk' => ?_
    cases h0 k' hk'
    split
    · exact Denied.failed
    · unfold resolveKeyType
      rw [hv.keyType]
      cases kt with
      | none =>
        refine .inr fun o => ?_
        dsimp only
        split <;> exact Denied.orErr fun _ _ => Denied.removed
      | some t => cases t <;> exact Denied.orErr fun _ _ => Denied.removed

/-- Two pools that differ at most in what thread `i` goes on with after a success it cannot have. -/
def AlikeButSuccess (shard : Bytes → Nat) (ex : List (Option Value) → Bool) (next next' : Outcome DispatchError Bytes → GProg)
    (held : List (Bytes × Bool)) (s i : Nat) (p p' : GPool) : Prop :=
  p = p' ∨ ∃ seen q, Denied shard s ex seen q ∧ p.threads[i]? = some ⟨held, .ofProg ex seen q next⟩ ∧
    p' = { p with threads := p.threads.set i ⟨held, .ofProg ex seen q next'⟩ }

theorem GPool.stepAt_waits {shard : Bytes → Nat} {p : GPool} {i : Nat} {t : GThread} {w : Bytes × Bool} (hi : p.threads[i]? = some t)
    (hw : t.prog.wants = some w) (hf : p.free shard w = false) : p.stepAt shard i = p := by
  rcases GPool.stepAt_cases shard p i with h | ⟨t', hi', hf', -⟩
  · exact h
  · cases Option.some.inj (hi.symm.trans hi')
    rw [hf' w hw] at hf
    cases hf

/-- Whether a lock is free depends on the guards alone. -/
theorem free_congr {shard : Bytes → Nat} {p : GPool} {i : Nat} {held : List (Bytes × Bool)} {pr pr' : GProg} {db : Db} {w : Bytes × Bool}
    (hi : p.threads[i]? = some ⟨held, pr⟩) :
    GPool.free shard { threads := p.threads.set i ⟨held, pr'⟩, db := db } w = p.free shard w := by
  have hlt := (List.getElem?_eq_some_iff.mp hi).1
  rw [Bool.eq_iff_iff]
  refine ⟨fun h => ?_, free_set hi⟩
  have h' := free_set (p := { threads := p.threads.set i ⟨held, pr'⟩, db := db }) (pr := pr') (pr' := pr) (db := p.db)
    (List.getElem?_set_self hlt) h
  dsimp only at h'
  rw [List.set_set] at h'
  have : p.threads.set i ⟨held, pr⟩ = p.threads := by
    conv => rhs; rw [← List.set_getElem_self hlt]
    rw [(List.getElem?_eq_some_iff.mp hi).2]
  rw [this] at h'
  exact h'

/-- What a thread would go on with later has no part in the steps of another. -/
theorem stepAt_set {shard : Bytes → Nat} {p : GPool} {i n : Nat} {held : List (Bytes × Bool)} {pr pr' : GProg} (hn : n ≠ i)
    (hi : p.threads[i]? = some ⟨held, pr⟩) :
    GPool.stepAt shard { p with threads := p.threads.set i ⟨held, pr'⟩ } n =
      { p.stepAt shard n with threads := (p.stepAt shard n).threads.set i ⟨held, pr'⟩ } := by
  cases ht : p.threads[n]? with
  | none =>
    unfold GPool.stepAt
    dsimp only
    rw [List.getElem?_set_ne (Ne.symm hn), ht]
  | some t =>
    have ht' : (p.threads.set i ⟨held, pr'⟩)[n]? = some t := by rw [List.getElem?_set_ne (Ne.symm hn), ht]
    by_cases hw : ∀ w, t.prog.wants = some w → p.free shard w = true
    · rw [GPool.stepAt_free ht hw,
        GPool.stepAt_free (p := { p with threads := p.threads.set i ⟨held, pr'⟩ }) ht' fun w h => (free_congr hi).trans (hw w h)]
      dsimp only
      rw [List.set_comm _ _ hn]
    · have ⟨w, hw⟩ := Classical.not_forall.mp hw
      rw [Classical.not_imp] at hw
      have hf : p.free shard w = false := by simpa using hw.2
      rw [GPool.stepAt_waits ht hw.1 hf,
        GPool.stepAt_waits (p := { p with threads := p.threads.set i ⟨held, pr'⟩ }) ht' hw.1 ((free_congr hi).trans hf)]

theorem AlikeButSuccess.stepAt {shard : Bytes → Nat} {ex : List (Option Value) → Bool} {next next' : Outcome DispatchError Bytes → GProg}
    {held : List (Bytes × Bool)} {s i : Nat} {p p' : GPool} (hn : ∀ o, (∀ b, o ≠ .ok b) → next o = next' o) {g : Bytes × Bool} (hg : g ∈ held)
    (hs : shard g.1 = s) (h : AlikeButSuccess shard ex next next' held s i p p') (n : Nat) :
    AlikeButSuccess shard ex next next' held s i (p.stepAt shard n) (p'.stepAt shard n) := by
  rcases h with rfl | ⟨seen, q, hb, hi, rfl⟩
  · exact .inl rfl
  have hlt := (List.getElem?_eq_some_iff.mp hi).1
  by_cases hni : n = i
  · subst hni
    cases q with
    | done o =>
      left
      have : p.threads.set n ⟨held, GProg.ofProg ex seen (.done o) next'⟩ = p.threads := by
        conv => rhs; rw [← List.set_getElem_self hlt]
        rw [(List.getElem?_eq_some_iff.mp hi).2]
        simp only [GProg.ofProg]
        rw [hn o hb]
      rw [this]
    | onCtr m upd rest =>
      right
      refine ⟨seen, rest (p.db.ctrs m), hb _, ?_, ?_⟩
      · rw [ofProg_count hi]
        exact List.getElem?_set_self hlt
      · rw [ofProg_count hi, ofProg_count (p := { p with threads := p.threads.set n ⟨held, _⟩ }) (List.getElem?_set_self hlt)]
        simp only [List.set_set]
    | onKey k upd rest =>
      by_cases hf : ∀ e : Bool, (e = true → ex seen = true ∨ ∃ o, upd o ≠ o) → p.free shard (k, e) = true
      · have hb' : ∀ o, Denied shard s ex (o :: seen) (rest o) := by
          rcases hb with ⟨h1, h2⟩ | h
          · have := GPool.free_iff.mp (hf true fun _ => h2) n _ hi g hg
            simp [conflicts, hs, h1] at this
          · exact h
        right
        refine ⟨p.db.keys k :: seen, rest (p.db.keys k), hb' _, ?_, ?_⟩
        · rw [ofProg_step hi hf]
          exact List.getElem?_set_self hlt
        · rw [ofProg_step hi hf, ofProg_step (p := { p with threads := p.threads.set n ⟨held, _⟩ }) (List.getElem?_set_self hlt)
            fun e he => (free_congr hi).trans (hf e he)]
          simp only [List.set_set]
      · have hf' : p.free shard (k, (open Classical in ex seen || decide (∃ o, upd o ≠ o))) = false := by
          have ⟨e, he⟩ := Classical.not_forall.mp hf
          rw [Classical.not_imp] at he
          have hfe : p.free shard (k, e) = false := by simpa using he.2
          rw [← Bool.not_eq_true] at hfe ⊢
          intro h
          apply hfe
          rw [GPool.free_iff] at h ⊢
          intro j t hj g' hg'
          have := h j t hj g' hg'
          cases e with
          | true =>
            have he' : (open Classical in ex seen || decide (∃ o, upd o ≠ o)) = true := by
              simpa only [Bool.or_eq_true, decide_eq_true_eq] using he.1 rfl
            rw [he'] at this
            exact this
          | false =>
            simp only [conflicts, Bool.and_eq_false_iff, Bool.or_eq_false_iff] at this ⊢
            exact this.imp id fun h => ⟨h.1, trivial⟩
        right
        refine ⟨seen, .onKey k upd rest, hb, ?_, ?_⟩
        · rw [GPool.stepAt_waits hi (by rfl) hf']
          exact hi
        · rw [GPool.stepAt_waits hi (by rfl) hf',
            GPool.stepAt_waits (p := { p with threads := p.threads.set n ⟨held, _⟩ }) (List.getElem?_set_self hlt) (by rfl)
              ((free_congr hi).trans hf')]
  · right
    refine ⟨seen, q, hb, ?_, stepAt_set hni hi⟩
    rw [GPool.stepAt_other hni]
    exact hi

/-- C186. A thread that keeps any guard, shared or exclusive, whose lock is that of a key the command may change, and dispatches a command
that may change a key (Append, the counters, Delete, Rename, Set), never gets a success, whatever the other threads do: what it
would go on with after a success makes no difference to the database or to the other threads, ever. -/
theorem C186_no_success (shard : Bytes → Nat) (p : GPool) (i : Nat) (held : List (Bytes × Bool))
    (next next' : Outcome DispatchError Bytes → GProg) (hn : ∀ o, (∀ b, o ≠ .ok b) → next o = next' o)
    (hi : p.threads[i]? = some ⟨held, .dispatch env r resp next⟩) (g : Bytes × Bool) (hg : g ∈ held)
    (hv : Views r c.cmd c.kt c.args) (hc : c.cmd ∈ changing) {k : Bytes} (hk : changes c k) (hs : shard g.1 = shard k) (sched : List Nat) :
    let q := p.exec shard sched
    let q' := { p with threads := p.threads.set i ⟨held, .dispatch env r resp next'⟩ }.exec shard sched
    q'.db = q.db ∧ ∀ j, j ≠ i → q'.threads[j]? = q.threads[j]? := by
  have h : AlikeButSuccess shard (exclusive r.commandId r.keyType) next next' held (shard k) i p
      { p with threads := p.threads.set i ⟨held, .dispatch env r resp next'⟩ } :=
    .inr ⟨[], dispatch env r resp, Denied.andThen Denied.counted (command_denied shard hv hc hk), hi, rfl⟩
  clear hi
  generalize { p with threads := p.threads.set i ⟨held, GProg.dispatch env r resp next'⟩ } = p' at h
  induction sched generalizing p p' with
  | nil =>
    rcases h with rfl | ⟨seen, q, -, -, rfl⟩
    · exact ⟨rfl, fun _ _ => rfl⟩
    · exact ⟨rfl, fun j hj => List.getElem?_set_ne (Ne.symm hj)⟩
  | cons n ns ih => exact ih _ _ (h.stepAt hn hg hs n)

/-! ## Locks in order -/

theorem ofProg_orderly {α : Type} {ok : List Bytes → Bytes → Prop} {held : List Bytes} (ex : List (Option Value) → Bool) {q : Prog α}
    {next : Outcome DispatchError α → GProg} (ht : Touches (ok held) q) (hn : ∀ o, Orderly ok held (next o)) :
    ∀ seen, Orderly ok held (.ofProg ex seen q next) := by
  induction q with
  | done o => exact fun _ => hn o
  | onKey k upd rest ih => exact fun seen => ⟨ht.1, fun o => ih o (ht.2 o) _⟩
  | onCtr m upd rest ih => exact fun seen o => ih o (ht o) _

/-- C186. Dispatching a command while guards are kept is no reason to wait for ever if the locks of all keys the command names come
after those of the guards, in an order of the locks that all threads follow: such a command may be part of any program of
which C117_can_finish and C172_all_finish speak. -/
theorem C186_ordered (shard : Bytes → Nat) (held : List Bytes) (next : Outcome DispatchError Bytes → GProg)
    (hn : ∀ o, Orderly (ascending shard) held (next o)) (hv : Views r c.cmd c.kt c.args)
    (hk : ∀ h ∈ held, ∀ k ∈ named c, shard h < shard k) : Orderly (ascending shard) held (.dispatch env r resp next) :=
  ofProg_orderly _ (Touches.mono (fun k h g hg => hk g hg k h) (touches_named hv resp)) hn []

/-! ## A Rename that takes the value away -/

/-- C186. A Rename to a key that shares its lock with a shared guard kept by the same thread removes the old key and then waits for
ever with the value, which is under neither key. -/
theorem C186_rename_loses (shard : Bytes → Nat) (p : GPool) (i : Nat) (held : List (Bytes × Bool))
    (next : Outcome DispatchError Bytes → GProg) (hi : p.threads[i]? = some ⟨held, .dispatch env r resp next⟩)
    {k k' : Bytes} {items : List Bytes} (hv : Views r .rename none (k :: k' :: items)) {v : Value} (hk : p.db.keys k = some v)
    (hk' : p.db.keys k' = none) (g : Bytes × Bool) (hg : g ∈ held) (hs : shard g.1 = shard k')
    (hfree : ∀ t ∈ p.threads, ∀ g ∈ t.held, shard g.1 ≠ shard k ∧ (shard g.1 = shard k' → g.2 = false)) :
    ∃ t, t.held = held ∧ t.prog.wants = some (k', true) ∧
      p.exec shard [i, i, i] = { threads := p.threads.set i t, db := p.db.setKey k none } ∧
      ∀ sched, (p.exec shard ([i, i, i] ++ sched)).threads[i]? = some t := by
  have hlt := (List.getElem?_eq_some_iff.mp hi).1
  have hfk : ∀ e, p.free shard (k, e) = true := by
    intro e
    rw [GPool.free_iff]
    intro j t hj g hg
    have := (hfree t (List.mem_of_getElem? hj) g hg).1
    simp [conflicts, this]
  have hfk' : p.free shard (k', false) = true := by
    rw [GPool.free_iff]
    intro j t hj g hg
    have := (hfree t (List.mem_of_getElem? hj) g hg).2
    simp only [conflicts, Bool.or_false, Bool.and_eq_false_iff, beq_eq_false_iff_ne]
    by_cases h : shard g.1 = shard k'
    · exact .inr (this h)
    · exact .inl h
  have hex : exclusive r.commandId r.keyType = exclusive .rename none := by rw [hv.command, hv.keyType]
  have hd : dispatch env r resp = .onKey k id fun o => ((if !o.isSome then fail .keyNonexistent
      else containsKey k' fun taken => if taken then fail .preconditionFailed else removeKey k fun o =>
        match o with
        | none => fail .keyNonexistent
        | some v => insertKey k' v (.done (.ofOption (Response.writeBytes env.mode resp k')))) : Prog Bytes).andThen (countOutcome env) := by
    unfold dispatch command
    rw [hv.command]
    dsimp only
    unfold dispatchRename
    rw [hv.keyType, hv.arg, hv.arg]
    rfl
  unfold GProg.dispatch at hi
  rw [hex, hd] at hi
  have h1 := ofProg_step (shard := shard) hi fun e _ => hfk e
  rw [hk, id, ← hk, Db.setKey_self, hk] at h1
  let rest2 : Option Value → Prog Bytes := fun o => ((if o.isSome then fail .preconditionFailed else removeKey k fun o =>
        match o with
        | none => fail .keyNonexistent
        | some v => insertKey k' v (.done (.ofOption (Response.writeBytes env.mode resp k')))) : Prog Bytes).andThen (countOutcome env)
  have hi2 : (p.stepAt shard i).threads[i]? = some ⟨held, .ofProg (exclusive .rename none) [some v] (.onKey k' id rest2) next⟩ := by
    rw [h1]
    exact List.getElem?_set_self hlt
  have h2 := ofProg_step (shard := shard) hi2 fun e he => by
    have : e = false := by
      cases e with
      | false => rfl
      | true => rcases he rfl with h | ⟨o, ho⟩ <;> first | cases h | exact absurd rfl ho
    subst this
    rw [h1]
    exact free_set hi hfk'
  have hdb : (p.stepAt shard i).db = p.db := by rw [h1]
  rw [hdb, hk', id, ← hk', Db.setKey_self, hk'] at h2
  let rest3 : Option Value → Prog Bytes := fun o => (match o with
        | none => fail .keyNonexistent
        | some v => insertKey k' v (.done (.ofOption (Response.writeBytes env.mode resp k'))) : Prog Bytes).andThen (countOutcome env)
  have hlt2 : i < (p.stepAt shard i).threads.length := (List.getElem?_eq_some_iff.mp hi2).1
  have hi3 : ((p.stepAt shard i).stepAt shard i).threads[i]? =
      some ⟨held, .ofProg (exclusive .rename none) [none, some v] (.onKey k (fun _ => none) rest3) next⟩ := by
    rw [h2]
    exact List.getElem?_set_self hlt2
  have h3 := ofProg_step (shard := shard) hi3 fun e he => by
    rw [h2]
    refine free_set hi2 ?_
    rw [h1]
    exact free_set hi (hfk e)
  have hdb2 : ((p.stepAt shard i).stepAt shard i).db = p.db := by rw [h2]
  rw [hdb2, hk] at h3
  refine ⟨⟨held, .ofProg (exclusive .rename none) [some v, none, some v] (rest3 (some v)) next⟩, rfl, by rfl, ?_, ?_⟩
  · show ((p.stepAt shard i).stepAt shard i).stepAt shard i = _
    rw [h3, h2, h1]
    simp only [List.set_set]
  · intro sched
    rw [GPool.exec_append]
    show ((((p.stepAt shard i).stepAt shard i).stepAt shard i).exec shard sched).threads[i]? = _
    have hi4 : (((p.stepAt shard i).stepAt shard i).stepAt shard i).threads[i]? =
        some ⟨held, .ofProg (exclusive .rename none) [some v, none, some v] (rest3 (some v)) next⟩ := by
      rw [h3]
      exact List.getElem?_set_self (List.getElem?_eq_some_iff.mp hi3).1
    rw [C117_deadlock shard _ [i] ?_ sched i (List.mem_singleton.mpr rfl), hi4]
    intro j hj
    rw [List.mem_singleton] at hj
    subst hj
    exact ⟨_, (k', true), j, _, g, hi4, by rfl, List.mem_singleton.mpr rfl, hi4, hg, hs, .inr rfl⟩

/-! ## Concrete cases -/

/-- A thread that keeps a shared guard of a key, and gets the same key through the engine. -/
noncomputable def getUnderShared : GPool :=
  ⟨[⟨[([107], false)], .dispatch (sampleEnv .debug) (call .get none [[107]]) [] fun _ => .done⟩], sampleDb [([107], .integer 5)]⟩

/-- It gets its answer. -/
example : ∃ n, getUnderShared.exec List.length (List.replicate n 0) = ⟨[⟨[([107], false)], .done⟩],
    ((dispatch (sampleEnv .debug) (call .get none [[107]]) []).run (sampleDb [([107], .integer 5)])).2⟩ := by
  refine C186_reads (c := ⟨.get, none, [[107]]⟩) List.length getUnderShared 0 _ (fun _ => .done) rfl
    (call_views .get none [[107]] (by decide) (by decide) (by decide)) (by decide) ?_
  intro t ht g hg k hk _
  cases List.mem_singleton.mp ht
  cases List.mem_singleton.mp hg
  rfl

/-- An Increment of a key never answers while the same thread keeps a shared guard of it. -/
example (p : GPool) (sched : List Nat)
    (ht : p.threads[1]? = some ⟨[([107], false)], .dispatch (sampleEnv .debug) (call .increment none [[107]]) [] fun _ => .done⟩) :
    (p.exec List.length sched).threads[1]? = p.threads[1]? := by
  rcases C186_waits (env := sampleEnv .debug) (c := ⟨.increment, none, [[107]]⟩) List.length p 1 _ (fun _ => .done) ht rfl
    ([107], false) (by simp) (call_views .increment none [[107]] (by decide) (by decide) (by decide)) (by decide) (.inl (by decide)) rfl rfl
    with h | h
  · exact absurd h (by intro h; cases h)
  · rw [h sched, ht]

/-- A thread that keeps a mutable guard of a key, and increments another with a later lock. -/
noncomputable def incrementBesideGuard (a b : Bytes) : GProg :=
  .keyMut (sampleEnv .debug) a fun _ => .dispatch (sampleEnv .debug) (call .increment none [b]) [] fun _ => .drop a .done

/-- Any two of these can always finish. -/
example (db : Db) (sched : List Nat) : ∃ more, ∀ t ∈ ((begun [incrementBesideGuard [107] [107, 107], incrementBesideGuard [107, 107] [107, 107, 107]]
    db).exec List.length (sched ++ more)).threads, Gone t := by
  refine C117_can_finish _ _ _ ?_ _
  have hn : ∀ (h : Bytes) (_ : Outcome DispatchError Bytes), Orderly (ascending List.length) [h] (.drop h .done) := fun _ _ => trivial
  intro q hq
  rcases List.mem_cons.mp hq with rfl | hq
  · refine ⟨fun _ h => (by cases h), C186_ordered (c := ⟨.increment, none, [[107, 107]]⟩) _ _ _ (fun _ => trivial)
      (call_views .increment none [[107, 107]] (by decide) (by decide) (by decide)) (fun _ h => (by cases h)),
      fun _ => C186_ordered (c := ⟨.increment, none, [[107, 107]]⟩) _ _ _ (hn _)
      (call_views .increment none [[107, 107]] (by decide) (by decide) (by decide)) ?_⟩
    intro h hh k hk
    cases List.mem_singleton.mp hh
    cases List.mem_singleton.mp hk
    decide
  · cases List.mem_singleton.mp hq
    refine ⟨fun _ h => (by cases h), C186_ordered (c := ⟨.increment, none, [[107, 107, 107]]⟩) _ _ _ (fun _ => trivial)
      (call_views .increment none [[107, 107, 107]] (by decide) (by decide) (by decide)) (fun _ h => (by cases h)),
      fun _ => C186_ordered (c := ⟨.increment, none, [[107, 107, 107]]⟩) _ _ _ (hn _)
      (call_views .increment none [[107, 107, 107]] (by decide) (by decide) (by decide)) ?_⟩
    intro h hh k hk
    cases List.mem_singleton.mp hh
    cases List.mem_singleton.mp hk
    decide

/-- A thread that keeps a shared guard of a key, and sets the key without saying a type. -/
noncomputable def setUnderShared (next : Outcome DispatchError Bytes → GProg) : GPool :=
  ⟨[⟨[([107], false)], .dispatch (sampleEnv .debug) (call .set none [[107], [120]]) [] next⟩, ⟨[], .remove [104] fun _ => .done⟩],
    sampleDb [([107], .bytes [5]), ([104], .integer 1)]⟩

/-- What it would do after a success is never done. -/
example (sched : List Nat) :
    ((setUnderShared fun _ => .done).exec List.length sched).db =
      ((setUnderShared fun | .ok _ => .remove [107, 107] fun _ => .done | _ => .done).exec List.length sched).db :=
  (C186_no_success (c := ⟨.set, none, [[107], [120]]⟩) List.length
    (setUnderShared fun | .ok _ => .remove [107, 107] fun _ => .done | _ => .done) 0 _ _ (fun _ => .done)
    (fun o h => by cases o <;> first | exact absurd rfl (h _) | rfl) rfl ([107], false) (by simp)
    (call_views .set none [[107], [120]] (by decide) (by decide) (by decide)) (by decide) (.inl rfl) rfl sched).1

/-- A thread that keeps a shared guard of a key, and renames another to a third, which shares its lock with the first. -/
noncomputable def renameUnderShared : GPool :=
  ⟨[⟨[([107], false)], .dispatch (sampleEnv .debug) (call .rename none [[104, 104], [109]]) [] fun _ => .done⟩],
    sampleDb [([107], .integer 5), ([104, 104], .integer 9)]⟩

/-- The value is gone, and the thread waits for ever. -/
example : (renameUnderShared.exec List.length [0, 0, 0]).db.keys [104, 104] = none ∧
    (renameUnderShared.exec List.length [0, 0, 0]).db.keys [109] = none ∧
    ∃ t, ∀ sched, (renameUnderShared.exec List.length ([0, 0, 0] ++ sched)).threads[0]? = some t := by
  obtain ⟨t, -, -, h, h'⟩ := C186_rename_loses List.length renameUnderShared 0 _ (fun _ => .done) rfl
    (call_views .rename none [[104, 104], [109]] (by decide) (by decide) (by decide)) (v := .integer 9) rfl rfl ([107], false) (by simp) rfl (by
      intro t ht g hg
      cases List.mem_singleton.mp ht
      cases List.mem_singleton.mp hg
      exact ⟨by decide, fun _ => rfl⟩)
  rw [h]
  exact ⟨rfl, rfl, t, h'⟩


end Hop
