import Verif.Props.BuildsAround
import Verif.Spec.Adaptive
import Verif.Spec.Callers

/-!
# Clients that act on answers, in debug and release builds (C204)
-/

namespace Hop

open Prog Spec

/-- However the program goes on, it ends badly. -/
private inductive Doomed {α} (bad : Outcome DispatchError α → Prop) : Prog α → Prop
  | done {r : Outcome DispatchError α} : bad r → Doomed bad (.done r)
  | onKey {k : Bytes} {upd : Option Value → Option Value} {next : Option Value → Prog α} : (∀ o, Doomed bad (next o)) → Doomed bad (.onKey k upd next)
  | onCtr {m : Metric} {upd : Option Nat → Option Nat} {next : Option Nat → Prog α} : (∀ o, Doomed bad (next o)) → Doomed bad (.onCtr m upd next)

private theorem Doomed.step {α} {bad : Outcome DispatchError α → Prop} {p : Prog α} (h : Doomed bad p) (db : Db) : Doomed bad (p.step db).1 := by
  cases h with
  | done h => exact .done h
  | onKey h => exact h _
  | onCtr h => exact h _

private theorem Doomed.andThen {α β} {bad : Outcome DispatchError β → Prop} {f : Outcome DispatchError α → Prog β} (hf : ∀ r, Doomed bad (f r)) (p : Prog α) :
    Doomed bad (p.andThen f) := by
  induction p with
  | done r => exact hf r
  | onKey _ _ _ ih => exact .onKey ih
  | onCtr _ _ _ ih => exact .onCtr ih

/-- The two programs do and answer the same, until the first can only end badly. -/
private inductive Alongside {α} (bad : Outcome DispatchError α → Prop) : Prog α → Prog α → Prop
  | doomed {p q : Prog α} : Doomed bad p → Alongside bad p q
  | same (r : Outcome DispatchError α) : Alongside bad (.done r) (.done r)
  | onKey {k : Bytes} {upd upd' : Option Value → Option Value} {next next' : Option Value → Prog α} :
    (∀ o, Alongside bad (next o) (next' o)) → (∀ o, upd o = upd' o ∨ Doomed bad (next o)) → Alongside bad (.onKey k upd next) (.onKey k upd' next')
  | onCtr {m : Metric} {upd upd' : Option Nat → Option Nat} {next next' : Option Nat → Prog α} :
    (∀ o, Alongside bad (next o) (next' o)) → (∀ o, upd o = upd' o ∨ Doomed bad (next o)) → Alongside bad (.onCtr m upd next) (.onCtr m upd' next')

private theorem UntilBad.alongside {α β} {bad' : Outcome DispatchError β → Prop} {p q : Prog α} (h : UntilBad Panicked p q)
    {f g : Outcome DispatchError α → Prog β} (hp : Doomed bad' (f .panic)) (hf : ∀ r, Alongside bad' (f r) (g r)) :
    Alongside bad' (p.andThen f) (q.andThen g) := by
  have hb : ∀ {p : Prog α}, (∃ r, Panicked r ∧ p = .done r) → Doomed bad' (p.andThen f) := by
    rintro _ ⟨r, hr, rfl⟩
    cases hr
    exact hp
  induction h with
  | bad h => exact .doomed (hb ⟨_, h, rfl⟩)
  | same r => exact hf r
  | onKey _ hu ih => exact .onKey ih fun o => (hu o).imp id hb
  | onCtr _ hu ih => exact .onCtr ih fun o => (hu o).imp id hb

/-- Some of the programs can only end badly. -/
private def AnyDoomed {α} (bad : Outcome DispatchError α → Prop) (p : Pool α) : Prop := ∃ (i : Nat) (t : Prog α), p.threads[i]? = some t ∧ Doomed bad t

private theorem anyDoomed_exec {α} {bad : Outcome DispatchError α → Prop} (sched : List Nat) : ∀ {p : Pool α}, AnyDoomed bad p → AnyDoomed bad (p.exec sched) := by
  induction sched with
  | nil => exact fun h => h
  | cons j sched ih =>
    rintro p ⟨i, t, hi, ht⟩
    refine ih (p := p.stepAt j) ?_
    simp only [AnyDoomed, Pool.stepAt]
    cases hj : p.threads[j]? with
    | none => exact ⟨i, t, hi, ht⟩
    | some u =>
      by_cases hij : j = i
      · subst hij
        rw [hi, Option.some.injEq] at hj
        subst hj
        exact ⟨j, _, List.getElem?_set_self (List.getElem?_eq_some_iff.mp hi).1, ht.step _⟩
      · exact ⟨i, t, by simp only [List.getElem?_set_ne hij]; exact hi, ht⟩

private theorem alongside_exec {α} {bad : Outcome DispatchError α → Prop} (sched : List Nat) : ∀ {p q : Pool α}, q.db = p.db →
    (∀ i : Nat, (p.threads[i]? = none ∧ q.threads[i]? = none) ∨ ∃ t u, p.threads[i]? = some t ∧ q.threads[i]? = some u ∧ Alongside bad t u) →
    ¬ AnyDoomed bad (p.exec sched) → (q.exec sched).db = (p.exec sched).db ∧
    ∀ i : Nat, ((p.exec sched).threads[i]? = none ∧ (q.exec sched).threads[i]? = none) ∨
      ∃ t u, (p.exec sched).threads[i]? = some t ∧ (q.exec sched).threads[i]? = some u ∧ Alongside bad t u := by
  induction sched with
  | nil => exact fun hd ht _ => ⟨hd, ht⟩
  | cons j sched ih =>
    intro p q hd ht hp
    have hno : ¬ AnyDoomed bad (p.stepAt j) := fun h => hp (anyDoomed_exec sched h)
    have : (q.stepAt j).db = (p.stepAt j).db ∧ ∀ i : Nat, ((p.stepAt j).threads[i]? = none ∧ (q.stepAt j).threads[i]? = none) ∨
        ∃ t u, (p.stepAt j).threads[i]? = some t ∧ (q.stepAt j).threads[i]? = some u ∧ Alongside bad t u := by
      simp only [AnyDoomed, Pool.stepAt] at hno ⊢
      rcases ht j with ⟨h1, h2⟩ | ⟨t, u, h1, h2, ha⟩
      · simp only [h1, h2]; exact ⟨hd, ht⟩
      · simp only [h1, h2] at hno ⊢
        have hjp := (List.getElem?_eq_some_iff.mp h1).1
        have hjq := (List.getElem?_eq_some_iff.mp h2).1
        have hnd : ¬ Doomed bad (t.step p.db).1 := fun h => hno ⟨j, _, List.getElem?_set_self hjp, h⟩
        have hs : Alongside bad (t.step p.db).1 (u.step p.db).1 ∧ (u.step p.db).2 = (t.step p.db).2 := by
          cases ha with
          | doomed h => exact (hnd (h.step _)).elim
          | same r => exact ⟨.same r, rfl⟩
          | onKey hn hu => simp only [Prog.step] at hnd ⊢; exact ⟨hn _, by rw [(hu _).resolve_right hnd]⟩
          | onCtr hn hu => simp only [Prog.step] at hnd ⊢; exact ⟨hn _, by rw [(hu _).resolve_right hnd]⟩
        rw [hd]
        refine ⟨hs.2, fun i => ?_⟩
        by_cases hij : j = i
        · subst hij
          exact .inr ⟨_, _, List.getElem?_set_self hjp, List.getElem?_set_self hjq, hs.1⟩
        · simp only [List.getElem?_set_ne hij]; exact ht i
    exact ih this.1 this.2 hp

/-- Programs alongside each other, all of the first having ended, none badly. -/
private theorem alongside_pool {ι α} {bad : Outcome DispatchError α → Prop} {f g : ι → Prog α} (hf : ∀ x, Alongside bad (f x) (g x)) (xs : List ι) (db : Db)
    (sched : List Nat) (h : ∀ t ∈ (Pool.exec ⟨xs.map f, db⟩ sched).threads, ∃ r, t = .done r ∧ ¬ bad r) :
    Pool.exec ⟨xs.map g, db⟩ sched = Pool.exec ⟨xs.map f, db⟩ sched := by
  obtain ⟨h1, h2⟩ := alongside_exec sched (p := ⟨xs.map f, db⟩) (q := ⟨xs.map g, db⟩) rfl (fun i => by
      simp only [List.getElem?_map]
      cases xs[i]? with
      | none => exact .inl ⟨rfl, rfl⟩
      | some x => exact .inr ⟨_, _, rfl, rfl, hf x⟩) (by
      rintro ⟨i, t, hi, ht⟩
      obtain ⟨r, rfl, hr⟩ := h t (List.mem_of_getElem? hi)
      cases ht with
      | done hb => exact hr hb)
  have h3 : (Pool.exec ⟨xs.map g, db⟩ sched).threads = (Pool.exec ⟨xs.map f, db⟩ sched).threads := by
    refine List.ext_getElem? fun i => ?_
    rcases h2 i with ⟨h3, h4⟩ | ⟨t, u, h3, h4, ha⟩
    · rw [h3, h4]
    · rw [h3, h4]
      obtain ⟨r, rfl, hr⟩ := h t (List.mem_of_getElem? h3)
      cases ha with
      | doomed hd =>
        cases hd with
        | done hb => exact (hr hb).elim
      | same => rfl
  cases hp : Pool.exec ⟨xs.map g, db⟩ sched with
  | mk a b =>
    cases hq : Pool.exec ⟨xs.map f, db⟩ sched with
    | mk c d =>
      rw [hp, hq] at h1 h3
      simp only at h1 h3
      rw [h1, h3]

/-- Something has panicked on the way. -/
private def SomePanic {ε α} (r : Outcome DispatchError (List (Outcome ε α))) : Prop := ∃ outs, r = .ok outs ∧ .panic ∈ outs

private theorem client_doomed (env : Env) (c : Client) (n : Nat) : ∀ {past : List (Outcome DispatchError Bytes)}, .panic ∈ past →
    Doomed SomePanic (Client.prog env c n past) := by
  induction n with
  | zero => exact fun h => .done ⟨_, rfl, h⟩
  | succ n ih =>
    intro past h
    simp only [Client.prog]
    split
    · exact .done ⟨_, rfl, h⟩
    · exact Doomed.andThen (fun r => ih (List.mem_append_left _ h)) _

private theorem client_alongside (env : Env) (c : Client) (n : Nat) : ∀ (past : List (Outcome DispatchError Bytes)),
    Alongside SomePanic (Client.prog (builtAs env .debug) c n past) (Client.prog (builtAs env .release) c n past) := by
  induction n with
  | zero => exact fun _ => .same _
  | succ n ih =>
    intro past
    simp only [Client.prog]
    split
    · exact .same _
    · exact (agree_dispatch env _ _).alongside (client_doomed _ c n (List.mem_append_right _ (List.mem_singleton.mpr rfl))) fun _ => ih _

/-- **C204, clients.** Clients each of which issues requests, every one depending on the answers so far: if in a debug build all have come to their end and none of
their requests has panicked, then in a release build, with the same order of steps, all have come to their end with the same answers, and the same is stored and
counted. -/
theorem C204_clients (env : Env) (cs : List (Client × Nat)) (db : Db) (sched : List Nat)
    (h : ∀ t ∈ ((Clients.pool (builtAs env .debug) cs db).exec sched).threads, ∃ outs, t = .done (.ok outs) ∧ .panic ∉ outs) :
    (Clients.pool (builtAs env .release) cs db).exec sched = (Clients.pool (builtAs env .debug) cs db).exec sched :=
  alongside_pool (bad := SomePanic) (fun c : Client × Nat => client_alongside env c.1 c.2 []) cs db sched fun t ht => by
    obtain ⟨outs, rfl, ho⟩ := h t ht
    exact ⟨_, rfl, fun ⟨outs', he, hp⟩ => ho (by cases he; exact hp)⟩

private theorem caller_doomed (env : Env) (c : Caller) (n : Nat) : ∀ {past : List Resolved}, .panic ∈ past → Doomed SomePanic (Caller.prog env c n past) := by
  induction n with
  | zero => exact fun h => .done ⟨_, rfl, h⟩
  | succ n ih =>
    intro past h
    simp only [Caller.prog]
    split
    · exact .done ⟨_, rfl, h⟩
    · exact Doomed.andThen (fun r => ih (List.mem_append_left _ h)) _

private theorem caller_alongside (env : Env) (c : Caller) (n : Nat) : ∀ (past : List Resolved),
    Alongside SomePanic (Caller.prog (builtAs env .debug) c n past) (Caller.prog (builtAs env .release) c n past) := by
  induction n with
  | zero => exact fun _ => .same _
  | succ n ih =>
    intro past
    simp only [Caller.prog]
    split
    · exact .same _
    · exact (agree_start env _).alongside (caller_doomed _ c n (List.mem_append_right _ (List.mem_singleton.mpr rfl))) fun _ => ih _

/-- **C204, tasks.** The same for tasks sharing an in-memory client, each acting on what its calls came to. -/
theorem C204_tasks (env : Env) (cs : List (Caller × Nat)) (db : Db) (sched : List Nat)
    (h : ∀ t ∈ ((Callers.pool (builtAs env .debug) cs db).exec sched).threads, ∃ got, t = .done (.ok got) ∧ .panic ∉ got) :
    (Callers.pool (builtAs env .release) cs db).exec sched = (Callers.pool (builtAs env .debug) cs db).exec sched :=
  alongside_pool (bad := SomePanic) (fun c : Caller × Nat => caller_alongside env c.1 c.2 []) cs db sched fun t ht => by
    obtain ⟨outs, rfl, ho⟩ := h t ht
    exact ⟨_, rfl, fun ⟨outs', he, hp⟩ => ho (by cases he; exact hp)⟩

private def endedWell {ε α} : Prog (List (Outcome ε α)) → Bool
  | .done (.ok outs) => outs.all fun | .panic => false | _ => true
  | _ => false

private theorem endedWell_of {ε α} {t : Prog (List (Outcome ε α))} (h : endedWell t = true) : ∃ outs, t = .done (.ok outs) ∧ .panic ∉ outs := by
  cases t with
  | done r =>
    cases r with
    | ok outs =>
      refine ⟨outs, rfl, fun hp => ?_⟩
      have := List.all_eq_true.mp h _ hp
      cases this
    | _ => cases h
  | _ => cases h

/-- A client that increments a key and, having been answered, deletes it, beside one that asks whether it exists. -/
example : let cs : List (Client × Nat) := [(fun past => match past with | [] => some (call .increment none [[1]], []) | [.ok _] => some (call .delete none [[1]], []) | _ => none, 5),
      (Client.fixed [call .exists none [[1]]], 5)]
    (Clients.pool (builtAs (sampleEnv .debug) .release) cs (sampleDb [])).exec [0, 1, 0, 0, 1, 0, 0, 0, 0, 1, 0] =
      (Clients.pool (builtAs (sampleEnv .debug) .debug) cs (sampleDb [])).exec [0, 1, 0, 0, 1, 0, 0, 0, 0, 1, 0] :=
  C204_clients _ _ _ _ fun t ht => endedWell_of (List.all_eq_true.mp (by decide +kernel) t ht)

/-- A task that sets a key and reads it. -/
example : let cs : List (Caller × Nat) := [(fun past => match past with | [] => some (.set [1] (.bytes [2])) | [_] => some (.get [1]) | _ => none, 5)]
    (Callers.pool (builtAs (sampleEnv .debug) .release) cs (sampleDb [])).exec [0, 0, 0, 0, 0, 0, 0, 0, 0, 0] =
      (Callers.pool (builtAs (sampleEnv .debug) .debug) cs (sampleDb [])).exec [0, 0, 0, 0, 0, 0, 0, 0, 0, 0] :=
  C204_tasks _ _ _ _ fun t ht => endedWell_of (List.all_eq_true.mp (by decide +kernel) t ht)

end Hop
