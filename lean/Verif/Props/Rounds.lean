import Verif.Spec.Adaptive
import Verif.Spec.Sample
import Verif.Lemmas.Progress

/-! # C134: how many rounds the retry loop may take makes no difference -/

namespace Hop

open Spec Prog

/-- Two programs make the same first `n` operations, whatever these find, and if they end within them, then in the same
way, which is one of `P`. -/
def AgreeTo {α : Type} (P : Outcome DispatchError α → Prop) : Nat → Prog α → Prog α → Prop
  | 0, _, _ => True
  | _ + 1, .done r, q => P r ∧ q = .done r
  | n + 1, .onKey k upd next, q => ∃ next', q = .onKey k upd next' ∧ ∀ o, AgreeTo P n (next o) (next' o)
  | n + 1, .onCtr m upd next, q => ∃ next', q = .onCtr m upd next' ∧ ∀ o, AgreeTo P n (next o) (next' o)

/-- As above; they do not end for want of rounds. -/
abbrev Agree {α : Type} : Nat → Prog α → Prog α → Prop := AgreeTo (· ≠ .stuck)

section builders

variable {α β : Type} {n : Nat} {P : Outcome DispatchError α → Prop} {Q : Outcome DispatchError β → Prop}

theorem AgreeTo.mono {p q : Prog α} {m : Nat} (h : AgreeTo P n p q) (hm : m ≤ n) : AgreeTo P m p q := by
  induction m generalizing n p q with
  | zero => trivial
  | succ m ih =>
    obtain ⟨n, rfl⟩ : ∃ n', n = n' + 1 := ⟨n - 1, by omega⟩
    cases p with
    | done r => exact h
    | onKey k upd next =>
      obtain ⟨next', rfl, h⟩ := h
      exact ⟨next', rfl, fun o => ih (h o) (by omega)⟩
    | onCtr m upd next =>
      obtain ⟨next', rfl, h⟩ := h
      exact ⟨next', rfl, fun o => ih (h o) (by omega)⟩

theorem AgreeTo.done {r : Outcome DispatchError α} (h : P r) : AgreeTo P n (.done r) (.done r) := by
  cases n with
  | zero => trivial
  | succ n => exact ⟨h, rfl⟩

theorem AgreeTo.onKey {k : Bytes} {upd : Option Value → Option Value} {next next' : Option Value → Prog α}
    (h : ∀ o, AgreeTo P n (next o) (next' o)) : AgreeTo P n (.onKey k upd next) (.onKey k upd next') := by
  cases n with
  | zero => trivial
  | succ n => exact ⟨next', rfl, fun o => (h o).mono (by omega)⟩

theorem AgreeTo.onCtr {m : Metric} {upd : Option Nat → Option Nat} {next next' : Option Nat → Prog α}
    (h : ∀ o, AgreeTo P n (next o) (next' o)) : AgreeTo P n (.onCtr m upd next) (.onCtr m upd next') := by
  cases n with
  | zero => trivial
  | succ n => exact ⟨next', rfl, fun o => (h o).mono (by omega)⟩

theorem AgreeTo.andThen {p q : Prog α} {f g : Outcome DispatchError α → Prog β} (h : AgreeTo P n p q)
    (hf : ∀ r, P r → AgreeTo Q n (f r) (g r)) : AgreeTo Q n (p.andThen f) (q.andThen g) := by
  induction n generalizing p q with
  | zero => trivial
  | succ n ih =>
    cases p with
    | done r => obtain ⟨h, rfl⟩ := h; exact hf r h
    | onKey k upd next =>
      obtain ⟨next', rfl, h⟩ := h
      exact ⟨_, rfl, fun o => ih (h o) fun r hr => (hf r hr).mono (by omega)⟩
    | onCtr m upd next =>
      obtain ⟨next', rfl, h⟩ := h
      exact ⟨_, rfl, fun o => ih (h o) fun r hr => (hf r hr).mono (by omega)⟩

theorem Agree.orErr {o : Option β} {e : DispatchError} {f g : β → Prog α} (h : ∀ a, Agree n (f a) (g a)) :
    Agree n (orErr o e f) (orErr o e g) := by
  cases o with
  | none => exact AgreeTo.done (by simp)
  | some a => exact h a

theorem Agree.keyRef {env env' : Env} {k : Bytes} {next next' : Option Value → Prog α} (he : env'.mode = env.mode)
    (h : ∀ o, Agree n (next o) (next' o)) : Agree n (keyRef env k next) (keyRef env' k next') := by
  unfold Hop.keyRef
  rw [he]
  split
  · exact AgreeTo.done (by simp)
  · split
    · exact AgreeTo.done (by simp)
    · exact AgreeTo.onKey h

theorem Agree.resolveKeyType {r : Request} {k : Bytes} {t : KeyType} {next next' : KeyType → Prog α}
    (h : ∀ t, Agree n (next t) (next' t)) : Agree n (resolveKeyType r k t next) (resolveKeyType r k t next') := by
  unfold Hop.resolveKeyType
  cases r.keyType with
  | some t => exact h t
  | none => exact AgreeTo.onKey fun o => h _

theorem Agree.allExist {next next' : Bool → Prog α} (h : ∀ b, Agree n (next b) (next' b)) (ks : List Bytes) :
    Agree n (allExist next ks) (allExist next' ks) := by
  induction ks with
  | nil => exact h _
  | cons k ks ih =>
    refine AgreeTo.onKey fun o => ?_
    dsimp only
    split
    · exact ih
    · exact h _

theorem Agree.allAre {t : KeyType} {next next' : Bool → Prog α} (h : ∀ b, Agree n (next b) (next' b)) (ks : List Bytes) :
    Agree n (allAre t next ks) (allAre t next' ks) := by
  induction ks with
  | nil => exact h _
  | cons k ks ih =>
    refine AgreeTo.onKey fun o => ?_
    dsimp only
    split
    · exact ih
    · exact h _

theorem Agree.statsLoop {next next' : BMap → Prog α} (h : ∀ m, Agree n (next m) (next' m)) (cs : List Metric) (m : BMap) :
    Agree n (statsLoop next cs m) (statsLoop next' cs m) := by
  induction cs generalizing m with
  | nil => exact h _
  | cons c cs ih =>
    refine AgreeTo.onCtr fun o => ?_
    cases o with
    | none => exact ih _
    | some n => dsimp only; split <;> exact ih _

theorem Agree.loop {k : Bytes} {mk : Value} {body : Value → Value × Outcome DispatchError α} (hb : ∀ v, (body v).2 ≠ .stuck)
    {a b : Nat} (ha : n ≤ a) (h : n ≤ b) : Agree n (keyOrInsertLoop k mk body a) (keyOrInsertLoop k mk body b) := by
  induction a generalizing n b with
  | zero => obtain rfl : n = 0 := by omega
            trivial
  | succ a ih =>
    cases n with
    | zero => trivial
    | succ n =>
      obtain ⟨b, rfl⟩ : ∃ b', b = b' + 1 := ⟨b - 1, by omega⟩
      refine ⟨_, rfl, fun o => ?_⟩
      cases o with
      | some v => exact AgreeTo.done (hb v)
      | none => exact AgreeTo.onKey fun _ => ih (by omega) (by omega)

theorem Agree.keyOrInsertWith {env env' : Env} {k : Bytes} {mk : Value} {body : Value → Value × Outcome DispatchError α}
    (he : env'.mode = env.mode) (ha : n ≤ env.spins) (hb : n ≤ env'.spins) (hs : ∀ v, (body v).2 ≠ .stuck) :
    Agree n (keyOrInsertWith env k mk body) (keyOrInsertWith env' k mk body) := by
  unfold Hop.keyOrInsertWith
  rw [he]
  split
  · exact AgreeTo.done (by simp)
  · split
    · exact AgreeTo.done (by simp)
    · exact Agree.loop hs (by omega) (by omega)

end builders

section commands

variable {n a b : Nat} {env : Env} {r : Request} {resp : Bytes}

theorem Agree.int (ha : n ≤ a) (hb : n ≤ b) {k : Bytes} (x : Int64) :
    Agree n (incrementIntBy { env with spins := a } k x resp) (incrementIntBy { env with spins := b } k x resp) := by
  refine Agree.keyOrInsertWith rfl ha hb fun v => ?_
  cases v <;> dsimp only <;> (try split) <;> simp

theorem Agree.float (ha : n ≤ a) (hb : n ≤ b) {k : Bytes} (x : F64) :
    Agree n (incrementFloatBy { env with spins := a } k x resp) (incrementFloatBy { env with spins := b } k x resp) := by
  refine Agree.keyOrInsertWith rfl ha hb fun v => ?_
  cases v <;> simp

theorem Agree.command (ha : n ≤ a) (hb : n ≤ b) :
    Agree n (command { env with spins := a } r resp) (command { env with spins := b } r resp) := by
  unfold Hop.command
  cases hc : r.commandId <;> dsimp only
  case append =>
    refine Agree.orErr fun k => Agree.orErr fun args => Agree.resolveKeyType fun t => ?_
    cases t
    case bytes | list | string =>
      all_goals
        refine Agree.keyOrInsertWith rfl ha hb fun v => ?_
        cases v <;> first
          | exact ofOption_ne_stuck _
          | simp
    all_goals exact AgreeTo.done (by simp)
  case decrementBy =>
    refine Agree.orErr fun k => ?_
    split
    · dsimp only
      split
      · exact Agree.int ha hb _
      · exact AgreeTo.done (by simp)
    · split
      · exact Agree.float ha hb _
      · exact AgreeTo.done (by simp)
  case incrementBy =>
    refine Agree.orErr fun k => ?_
    split
    · exact Agree.int ha hb _
    · split
      · exact Agree.float ha hb _
      · exact AgreeTo.done (by simp)
  case increment | decrement =>
    all_goals
      refine Agree.orErr fun k => ?_
      split
      · exact Agree.float ha hb _
      · exact Agree.int ha hb _
  case delete =>
    unfold dispatchDelete
    split
    · exact AgreeTo.done (by simp)
    · refine Agree.orErr fun k => AgreeTo.onKey fun o => ?_
      cases o <;> first | exact AgreeTo.done (ofOption_ne_stuck _) | exact AgreeTo.done (by simp)
  case echo => unfold dispatchEcho; split <;> exact AgreeTo.done (ofOption_ne_stuck _)
  case «exists» =>
    unfold dispatchExists
    split
    · exact AgreeTo.done (by simp)
    · exact Agree.orErr fun a => Agree.allExist (fun b => AgreeTo.done (by simp)) _
  case get =>
    refine Agree.orErr fun k => Agree.keyRef rfl fun o => ?_
    cases o with
    | none => exact AgreeTo.done (by simp)
    | some v => dsimp only; split <;> (try split) <;> first | exact AgreeTo.done (ofOption_ne_stuck _) | exact AgreeTo.done (by simp)
  case is => exact Agree.orErr fun t => Agree.orErr fun a => Agree.allAre (fun b => AgreeTo.done (by simp)) _
  case keys =>
    refine Agree.orErr fun k => Agree.resolveKeyType fun t => ?_
    cases t <;> first
      | exact AgreeTo.done (by simp)
      | exact Agree.keyRef rfl fun o => by
          (try dsimp only); split <;> first | exact AgreeTo.done (ofOption_ne_stuck _) | exact AgreeTo.done (by simp)
  case length =>
    refine Agree.orErr fun k => Agree.resolveKeyType fun t => ?_
    cases t <;> first
      | exact AgreeTo.done (by simp)
      | exact Agree.keyRef rfl fun o => by (try dsimp only); split <;> (try split) <;> exact AgreeTo.done (by simp)
  case rename =>
    unfold dispatchRename
    split
    · exact AgreeTo.done (by simp)
    · refine Agree.orErr fun a => Agree.orErr fun b => AgreeTo.onKey fun o => ?_
      dsimp only
      split
      · exact AgreeTo.done (by simp)
      · refine AgreeTo.onKey fun o => ?_
        dsimp only
        split
        · exact AgreeTo.done (by simp)
        · refine AgreeTo.onKey fun o => ?_
          cases o with
          | none => exact AgreeTo.done (by simp)
          | some v => exact AgreeTo.onKey fun _ => AgreeTo.done (ofOption_ne_stuck _)
  case set =>
    refine Agree.orErr fun k => ?_
    split
    · exact AgreeTo.done (by simp)
    · refine Agree.resolveKeyType fun t => ?_
      cases t <;> refine Agree.orErr fun a => AgreeTo.onKey fun o => Agree.keyOrInsertWith rfl ha hb fun v => ?_ <;>
        cases v <;> dsimp only <;> (try split) <;> first
          | exact ofOption_ne_stuck _
          | simp
  case stats =>
    unfold dispatchStats
    split
    · exact AgreeTo.done (by simp)
    · exact Agree.statsLoop (fun m => AgreeTo.done (ofOption_ne_stuck _)) statsCounters _
  case type =>
    refine Agree.orErr fun k => ?_
    split
    · exact AgreeTo.done (by simp)
    · refine AgreeTo.onKey fun o => ?_
      cases o <;> exact AgreeTo.done (by simp)

theorem Agree.dispatch (ha : n ≤ a) (hb : n ≤ b) :
    Agree n (dispatch { env with spins := a } r resp) (dispatch { env with spins := b } r resp) :=
  (Agree.command ha hb).andThen fun o ho => by
    cases o with
    | stuck => exact absurd rfl ho
    | panic => exact AgreeTo.done (by simp)
    | ok x => exact AgreeTo.onCtr fun o => by dsimp only; split <;> exact AgreeTo.done (by simp)
    | err x => exact AgreeTo.onCtr fun o => by dsimp only; split <;> exact AgreeTo.done (by simp)

/-- The client has ended, and none of its requests was given up. -/
def Served (o : Outcome DispatchError (List (Outcome DispatchError Bytes))) : Prop := ∃ past, o = .ok past ∧ .stuck ∉ past

theorem AgreeTo.client (ha : n ≤ a) (hb : n ≤ b) (c : Client) (m : Nat) (past : List (Outcome DispatchError Bytes))
    (hp : .stuck ∉ past) :
    AgreeTo Served n (Client.prog { env with spins := a } c m past) (Client.prog { env with spins := b } c m past) := by
  induction m generalizing past with
  | zero => exact AgreeTo.done ⟨past, rfl, hp⟩
  | succ m ih =>
    simp only [Client.prog]
    cases c past with
    | none => exact AgreeTo.done ⟨past, rfl, hp⟩
    | some r =>
      refine AgreeTo.andThen (Agree.dispatch ha hb) fun o ho => ih _ ?_
      simp [hp, Ne.symm ho]

end commands

/-- Pools of which each thread agrees with its counterpart for as many operations as it may still make. -/
structure Pools {α : Type} (P : Outcome DispatchError α → Prop) (n : Nat → Nat) (p q : Pool α) : Prop where
  db : q.db = p.db
  length : q.threads.length = p.threads.length
  agree : ∀ (i : Nat) t u, p.threads[i]? = some t → q.threads[i]? = some u → AgreeTo P (n i) t u

theorem AgreeTo.step {α : Type} {P : Outcome DispatchError α → Prop} {n : Nat} {t u : Prog α} (h : AgreeTo P (n + 1) t u) (db : Db) :
    AgreeTo P n (t.step db).1 (u.step db).1 ∧ (u.step db).2 = (t.step db).2 := by
  cases t with
  | done r => obtain ⟨h, rfl⟩ := h; exact ⟨AgreeTo.done h, rfl⟩
  | onKey k upd next => obtain ⟨next', rfl, h⟩ := h; exact ⟨h _, rfl⟩
  | onCtr m upd next => obtain ⟨next', rfl, h⟩ := h; exact ⟨h _, rfl⟩

theorem Pools.stepAt {α : Type} {P : Outcome DispatchError α → Prop} {n : Nat → Nat} {p q : Pool α} (h : Pools P n p q) (i : Nat) (hi : n i ≠ 0) :
    Pools P (fun j => if j = i then n j - 1 else n j) (p.stepAt i) (q.stepAt i) := by
  obtain ⟨hd, hl, ha⟩ := h
  unfold Pool.stepAt
  cases hp : p.threads[i]? with
  | none =>
    have : q.threads[i]? = none := by rw [List.getElem?_eq_none_iff] at hp ⊢; omega
    rw [this]
    exact ⟨hd, hl, fun j t u h1 h2 => (ha j t u h1 h2).mono (by split <;> omega)⟩
  | some t =>
    obtain ⟨hlt, -⟩ := List.getElem?_eq_some_iff.mp hp
    obtain ⟨u, hu⟩ : ∃ u, q.threads[i]? = some u := ⟨_, List.getElem?_eq_getElem (by omega)⟩
    rw [hu]
    have hag := ha i t u hp hu
    obtain ⟨m, hm⟩ : ∃ m, n i = m + 1 := ⟨n i - 1, by omega⟩
    rw [hm] at hag
    obtain ⟨h1, h2⟩ := hag.step p.db
    dsimp only
    refine ⟨by rw [hd]; exact h2, by simp [hl], ?_⟩
    intro j t' u' ht' hu'
    dsimp only at ht' hu' ⊢
    by_cases e : j = i
    · subst e
      have hlt' : j < q.threads.length := by omega
      rw [List.getElem?_set_self hlt] at ht'
      rw [List.getElem?_set_self hlt'] at hu'
      cases ht'; cases hu'
      rw [if_pos rfl, hm, hd]
      exact h1
    · rw [List.getElem?_set_ne (Ne.symm e)] at ht' hu'
      rw [if_neg e]
      exact ha j t' u' ht' hu'

theorem Pools.exec {α : Type} {P : Outcome DispatchError α → Prop} {n : Nat → Nat} {p q : Pool α} (h : Pools P n p q) (sched : List Nat)
    (hs : ∀ i, sched.count i ≤ n i) : Pools P (fun i => n i - sched.count i) (p.exec sched) (q.exec sched) := by
  induction sched generalizing n p q with
  | nil => exact h
  | cons j s ih =>
    have hj : n j ≠ 0 := by have := hs j; simp at this; omega
    have := ih (h.stepAt j hj) (fun i => by
      have := hs i
      rw [List.count_cons] at this
      by_cases e : i = j
      · subst e; simp at this ⊢; omega
      · have e' : (j == i) = false := by simpa using Ne.symm e
        rw [if_neg e]; simp [e'] at this; exact this)
    refine ⟨this.db, this.length, fun i t u h1 h2 => (this.agree i t u h1 h2).mono ?_⟩
    rw [List.count_cons]
    by_cases e : i = j
    · subst e; simp; omega
    · have e' : (j == i) = false := by simpa using Ne.symm e
      rw [if_neg e]; simp [e']

theorem AgreeTo.done_iff {α : Type} {P : Outcome DispatchError α → Prop} {n : Nat} {t u : Prog α} (h : AgreeTo P (n + 1) t u)
    (r : Outcome DispatchError α) : (t = .done r ↔ u = .done r) ∧ (t = .done r → P r) := by
  cases t with
  | done r' => obtain ⟨h, rfl⟩ := h; exact ⟨Iff.rfl, fun e => by cases e; exact h⟩
  | onKey k upd next => obtain ⟨next', rfl, h⟩ := h; simp
  | onCtr m upd next => obtain ⟨next', rfl, h⟩ := h; simp

theorem Pools.done_iff {α : Type} {P : Outcome DispatchError α → Prop} {n : Nat → Nat} {p q : Pool α} (h : Pools P n p q) (i : Nat)
    (hn : n i ≠ 0) (o : Outcome DispatchError α) :
    (q.threads[i]? = some (.done o) ↔ p.threads[i]? = some (.done o)) ∧ (p.threads[i]? = some (.done o) → P o) := by
  have hl := h.length
  cases ht : p.threads[i]? with
  | none =>
    have hu : q.threads[i]? = none := by rw [List.getElem?_eq_none_iff] at ht ⊢; omega
    rw [hu]; simp
  | some t =>
    obtain ⟨hlt, -⟩ := List.getElem?_eq_some_iff.mp ht
    obtain ⟨u, hu⟩ : ∃ u, q.threads[i]? = some u := ⟨_, List.getElem?_eq_getElem (by omega)⟩
    have hag := h.agree i t u ht hu
    obtain ⟨m, hm⟩ : ∃ m, n i = m + 1 := ⟨n i - 1, by omega⟩
    rw [hm] at hag
    rw [hu, Option.some.injEq, Option.some.injEq]
    exact ⟨(hag.done_iff o).1.symm, (hag.done_iff o).2⟩

/-- **C134.** In the program the loop of `key_or_insert_with` has no bound; here it has. This makes no difference:
clients that issue any number of requests, each depending on the answers so far, make under any schedule the same
changes, and end with the same answers at the same times, whatever the bounds, if these are larger than the number of
operations of each client; and none of their requests is given up. -/
theorem C134_bounds (env : Env) (a b : Nat) (cs : List (Client × Nat)) (db : Db) (sched : List Nat)
    (ha : ∀ i, sched.count i < a) (hb : ∀ i, sched.count i < b) :
    ((Clients.pool { env with spins := b } cs db).exec sched).db = ((Clients.pool { env with spins := a } cs db).exec sched).db ∧
    ∀ (i : Nat) o, (((Clients.pool { env with spins := b } cs db).exec sched).threads[i]? = some (.done o) ↔
        ((Clients.pool { env with spins := a } cs db).exec sched).threads[i]? = some (.done o)) ∧
      (((Clients.pool { env with spins := a } cs db).exec sched).threads[i]? = some (.done o) →
        ∃ past, o = .ok past ∧ .stuck ∉ past) := by
  have h0 : Pools Served (fun _ => min a b) (Clients.pool { env with spins := a } cs db) (Clients.pool { env with spins := b } cs db) := by
    refine ⟨rfl, by simp [Clients.pool], fun i t u h1 h2 => ?_⟩
    simp only [Clients.pool, List.getElem?_map, Option.map_eq_some_iff] at h1 h2
    obtain ⟨c, hc, rfl⟩ := h1
    obtain ⟨c', hc', rfl⟩ := h2
    rw [hc] at hc'
    cases hc'
    exact AgreeTo.client (by omega) (by omega) _ _ _ (by simp)
  have h := h0.exec sched fun i => by have := ha i; have := hb i; omega
  exact ⟨h.db, fun i o => h.done_iff i (by have := ha i; have := hb i; omega) o⟩

/-- Beside C134: an Increment that twice loses the key it made to a client that deletes it; with 13 or 30 rounds. -/
example :
    let cs := [(Client.fixed [call .increment none [[1]]], 1), (Client.fixed [call .delete none [[1]], call .delete none [[1]]], 2)]
    let sched := [0, 0, 1, 1, 0, 0, 1, 1, 0, 0, 0, 0]
    (∀ i, sched.count i < 13) ∧
    ((Clients.pool { sampleEnv .debug with spins := 13 } cs (sampleDb [])).exec sched).db.keys [1] = some (.integer 1) ∧
    ((Clients.pool { sampleEnv .debug with spins := 30 } cs (sampleDb [])).exec sched).db.keys [1] = some (.integer 1) := by
  refine ⟨fun i => ?_, by decide +kernel, by decide +kernel⟩
  exact Nat.lt_of_le_of_lt List.count_le_length (by decide)

end Hop
