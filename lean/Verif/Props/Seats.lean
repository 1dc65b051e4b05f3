import Verif.Spec.Seats
import Verif.Props.Steps

/-! # C128: clients that issue any number of requests, and the machine -/

namespace Hop

open Spec Prog

/-- For `n` steps the rest of a client's program does what the client of the machine does. -/
def Seated (env : Env) (n : Nat) (c : Client) (t : Prog (List (Outcome DispatchError Bytes))) (s : Seat) : Prop :=
  match s.now with
  | none => t = .done (.ok s.past)
  | some (call, resp, ph) => (∀ a, ph ≠ .answered a) ∧ ∃ p : Prog Bytes,
      t = p.andThen (fun o => Client.prog env c s.left (s.past ++ [o])) ∧ Mimics env resp call n p ph

theorem Mimics.le {env : Env} {resp : Bytes} {c : Call} {n m : Nat} {p : Prog Bytes} {ph : Phase} (hm : m ≤ n)
    (h : Mimics env resp c n p ph) : Mimics env resp c m p ph := by
  induction hm with
  | refl => exact h
  | step _ ih => exact ih (Mimics.mono h)

theorem seated_take {env : Env} {c : Client} {u : Customer} (h : Impersonates c u) (n : Nat) :
    ∀ past, Seated env env.spins c (Client.prog env c n past) (Seat.take env u n past) := by
  induction n with
  | zero => intro past; rfl
  | succ n ih =>
    intro past
    rcases h past with ⟨h1, h2⟩ | ⟨r, call, resp, h1, h2, hv⟩
    · simp only [Client.prog, h1, Seat.take, h2, Seated]
    · have hm := mimics_dispatch (env := env) (resp := resp) hv (Nat.le_refl _)
      simp only [Client.prog, h1, Seat.take, h2]
      cases ho : opening env resp call with
      | answered a =>
        have := (hm.alike (render env resp a)).mpr ⟨a, ho, rfl⟩
        rw [this]
        exact ih _
      | _ =>
        refine ⟨fun a e => (by cases e), _, rfl, ?_⟩
        rw [← ho]; exact hm

theorem andThen_step {α β} {p : Prog α} {f : Outcome DispatchError α → Prog β} (h : ∀ o, p ≠ .done o) (db : Db) :
    (p.andThen f).step db = ((p.step db).1.andThen f, (p.step db).2) := by
  cases p with
  | done o => exact absurd rfl (h o)
  | onKey k upd next => rfl
  | onCtr m upd next => rfl

theorem Seated.step {env : Env} {n : Nat} {c : Client} {u : Customer} (hi : Impersonates c u) (hn : n + 1 ≤ env.spins)
    {t : Prog (List (Outcome DispatchError Bytes))} {s : Seat} (h : Seated env (n + 1) c t s) (db : Db) :
    (t.step db).2 = (s.step env u db).2 ∧ Seated env n c (t.step db).1 (s.step env u db).1 := by
  obtain ⟨past, left, now⟩ := s
  cases now with
  | none =>
    simp only [Seated] at h
    subst h
    exact ⟨rfl, rfl⟩
  | some x =>
    obtain ⟨call, resp, ph⟩ := x
    obtain ⟨ha, p, rfl, hm⟩ := h
    have hp : ∀ o, p ≠ .done o := fun o e => by
      obtain ⟨a, h1, -⟩ := (hm.alike o).mp e
      exact ha a h1
    rw [andThen_step hp]
    have hs := hm.2 db
    simp only [Seat.step]
    generalize hx : advance env resp call ph db = x at hs
    obtain ⟨ph', db'⟩ := x
    simp only at hs
    cases ph' with
    | answered a =>
      refine ⟨hs.1, ?_⟩
      have := (hs.2.alike (render env resp a)).mpr ⟨a, rfl, rfl⟩
      rw [this]
      have ht := seated_take (env := env) hi left (past ++ [render env resp a])
      simp only [Prog.andThen]
      generalize Seat.take env u left (past ++ [render env resp a]) = s' at ht
      obtain ⟨past', left', now'⟩ := s'
      cases now' with
      | none => exact ht
      | some y =>
        obtain ⟨h1, q, h2, h3⟩ := ht
        exact ⟨h1, q, h2, h3.le (by omega)⟩
    | _ => exact ⟨hs.1, fun a e => (by cases e), _, rfl, hs.2⟩

/-- Clients and clients of the machine that do the same from now on; client `i` for `n i` steps at least. -/
structure Roomed (env : Env) (n : Nat → Nat) (cs : List Client) (p : Pool (List (Outcome DispatchError Bytes))) (r : Room) : Prop where
  db : p.db = r.db
  length : p.threads.length = r.seats.length
  few : ∀ i, n i ≤ env.spins
  seated : ∀ (i : Nat) t u s, p.threads[i]? = some t → r.seats[i]? = some (u, s) →
    ∃ c, cs[i]? = some c ∧ Impersonates c u ∧ Seated env (n i) c t s

theorem Roomed.step {env : Env} {n : Nat → Nat} {cs : List Client} {p : Pool (List (Outcome DispatchError Bytes))} {r : Room}
    (h : Roomed env n cs p r) {i : Nat} {m : Nat} (hm : n i = m + 1) :
    Roomed env (fun j => if j = i then m else n j) cs (p.stepAt i) (r.stepAt env i) := by
  have hf : ∀ j, (if j = i then m else n j) ≤ env.spins := fun j => by
    have h1 := h.few i
    have h2 := h.few j
    split <;> omega
  cases ht : p.threads[i]? with
  | none =>
    have hd : r.seats[i]? = none := by
      rw [List.getElem?_eq_none_iff] at ht ⊢
      rw [← h.length]; exact ht
    rw [Pool.stepAt_none ht]
    simp only [Room.stepAt, hd]
    refine ⟨h.db, h.length, hf, fun j t u s h1 h2 => ?_⟩
    rw [if_neg (by rintro rfl; rw [ht] at h1; cases h1)]
    exact h.seated j t u s h1 h2
  | some t =>
    have hi : i < p.threads.length := by rw [List.getElem?_eq_some_iff] at ht; exact ht.1
    have hi' : i < r.seats.length := by rw [← h.length]; exact hi
    obtain ⟨u, s, hd⟩ : ∃ u s, r.seats[i]? = some (u, s) := ⟨_, _, List.getElem?_eq_getElem hi'⟩
    obtain ⟨c, hc, hu, hse⟩ := h.seated i t u s ht hd
    have hle := h.few i
    rw [hm] at hse hle
    have hst := hse.step hu hle r.db
    rw [Pool.stepAt_some ht]
    simp only [Room.stepAt, hd]
    refine ⟨by rw [h.db]; exact hst.1, by simp [h.length], hf, fun j t' u' s' h1 h2 => ?_⟩
    by_cases hj : j = i
    · subst hj
      simp only [List.getElem?_set_self hi, List.getElem?_set_self hi', Option.some.injEq, Prod.mk.injEq] at h1 h2
      obtain ⟨rfl, rfl⟩ := h2
      rw [if_pos rfl, ← h1, h.db]
      exact ⟨c, hc, hu, hst.2⟩
    · simp only [List.getElem?_set_ne (fun e => hj e.symm)] at h1 h2
      rw [if_neg hj]
      exact h.seated j t' u' s' h1 h2

theorem Roomed.exec {env : Env} {n : Nat → Nat} {cs : List Client} {p : Pool (List (Outcome DispatchError Bytes))} {r : Room}
    (h : Roomed env n cs p r) (sched : List Nat) (hn : ∀ i, sched.count i ≤ n i) :
    Roomed env (fun i => n i - sched.count i) cs (p.exec sched) (r.exec env sched) := by
  induction sched generalizing n p r with
  | nil => exact h
  | cons i s ih =>
    have h1 : n i = (n i - 1) + 1 := by have := hn i; simp at this; omega
    have h2 := ih (h.step h1) (fun j => by
      have := hn j
      by_cases hj : j = i
      · subst hj; simp at this ⊢; omega
      · rw [List.count_cons_of_ne (fun e => hj e.symm)] at this; simpa [hj] using this)
    have e : (fun j => (if j = i then n i - 1 else n j) - s.count j) = fun j => n j - (i :: s).count j := by
      funext j
      by_cases hj : j = i
      · subst hj; simp; omega
      · rw [List.count_cons_of_ne (fun e => hj e.symm), if_neg hj]
    rw [e] at h2
    exact h2

/-- C128. Clients that issue any number of requests, each depending on the answers so far, find and leave at every
moment exactly the keys and counters of the machine of `Spec.advance`, and end exactly when and with the answers with
which they end there. `us` says what the clients ask for; the loop of a request, which in the program has no bound, is
given at least as many rounds as its client makes steps. -/
theorem C128_clients {env : Env} {cs : List (Client × Nat)} {us : List (Customer × Nat)} (hl : cs.length = us.length)
    (hs : ∀ (i : Nat) c u, cs[i]? = some c → us[i]? = some u → c.2 = u.2 ∧ Impersonates c.1 u.1)
    (db : Db) (sched : List Nat) (hn : ∀ i, sched.count i ≤ env.spins) :
    ((Clients.pool env cs db).exec sched).db = ((Room.start env us db).exec env sched).db ∧
    ∀ (i : Nat) o, ((Clients.pool env cs db).exec sched).threads[i]? = some (.done o) ↔ ∃ u s,
      ((Room.start env us db).exec env sched).seats[i]? = some (u, s) ∧ s.now = none ∧ o = .ok s.past := by
  have h0 : Roomed env (fun _ => env.spins) (cs.map Prod.fst) (Clients.pool env cs db) (Room.start env us db) := by
    refine ⟨rfl, by simp [Clients.pool, Room.start, hl], fun _ => Nat.le_refl _, fun i t u s h1 h2 => ?_⟩
    simp only [Clients.pool, Room.start, List.getElem?_map, Option.map_eq_some_iff] at h1 h2
    obtain ⟨c, hc, rfl⟩ := h1
    obtain ⟨x, hx, h2⟩ := h2
    obtain ⟨e, hi⟩ := hs i c x hc hx
    simp only [Prod.mk.injEq] at h2
    obtain ⟨rfl, rfl⟩ := h2
    rw [← e]
    exact ⟨c.1, by simp [hc], hi, seated_take hi c.2 []⟩
  have h := h0.exec sched hn
  refine ⟨h.db, fun i o => ?_⟩
  constructor
  · intro ht
    have hi : i < ((Room.start env us db).exec env sched).seats.length := by
      rw [← h.length]; rw [List.getElem?_eq_some_iff] at ht; exact ht.1
    obtain ⟨u, s, hd⟩ : ∃ u s, ((Room.start env us db).exec env sched).seats[i]? = some (u, s) :=
      ⟨_, _, List.getElem?_eq_getElem hi⟩
    obtain ⟨c, -, -, hse⟩ := h.seated i _ u s ht hd
    refine ⟨u, s, hd, ?_⟩
    obtain ⟨past, left, now⟩ := s
    cases now with
    | none => simp only [Seated] at hse; cases hse; exact ⟨rfl, rfl⟩
    | some x =>
      obtain ⟨call, resp, ph⟩ := x
      obtain ⟨ha, p, hp, hm⟩ := hse
      exfalso
      cases p with
      | done o' =>
        obtain ⟨a, h1, -⟩ := (hm.alike o').mp rfl
        exact ha a h1
      | onKey k upd next => cases hp
      | onCtr m upd next => cases hp
  · rintro ⟨u, s, hd, hnow, rfl⟩
    have hi : i < ((Clients.pool env cs db).exec sched).threads.length := by
      rw [h.length]; rw [List.getElem?_eq_some_iff] at hd; exact hd.1
    obtain ⟨t, ht⟩ : ∃ t, ((Clients.pool env cs db).exec sched).threads[i]? = some t := ⟨_, List.getElem?_eq_getElem hi⟩
    obtain ⟨c, -, -, hse⟩ := h.seated i t u s ht hd
    obtain ⟨past, left, now⟩ := s
    simp only at hnow
    subst hnow
    simp only [Seated] at hse
    rw [ht, hse]

/-- Non-vacuity: a client that increments a missing counter and, only if that succeeds, deletes it; meanwhile another
increments it twice. -/
example : let env := { sampleEnv .debug with spins := 20 }
    let c : Client := fun past => match past with
      | [] => some (call .increment none [[1]], [])
      | [.ok _] => some (call .delete none [[1]], [])
      | _ => none
    let u : Customer := fun past => match past with
      | [] => some (⟨.increment, none, [[1]]⟩, [])
      | [.ok _] => some (⟨.delete, none, [[1]]⟩, [])
      | _ => none
    let cs := [(c, 2), (Client.fixed [call .increment none [[1]], call .increment none [[1]]], 2)]
    let us := [(u, 2), ((fun past => ([⟨.increment, none, [[1]]⟩, ⟨.increment, none, [[1]]⟩] : List Call)[past.length]?.map fun c => (c, [])), 2)]
    let sched := [0, 0, 0, 1, 1, 0, 0, 0, 1, 1, 1, 1, 1]
    ((Clients.pool env cs (sampleDb [])).exec sched).db = ((Room.start env us (sampleDb [])).exec env sched).db ∧
    ((Clients.pool env cs (sampleDb [])).exec sched).db.keys [1] = some (.integer 1) := by
  intro env c u cs us sched
  have v1 : Views (call .increment none [[1]]) .increment none [[1]] := call_views _ _ _ (by decide) (by decide) (by decide)
  have v2 : Views (call .delete none [[1]]) .delete none [[1]] := call_views _ _ _ (by decide) (by decide) (by decide)
  refine ⟨(C128_clients rfl ?_ _ _ fun i => Nat.le_trans List.countP_le_length (by decide)).1, by decide +kernel⟩
  intro i x y h1 h2
  match i with
  | 0 =>
    cases h1; cases h2
    refine ⟨rfl, fun past => ?_⟩
    match past with
    | [] => exact .inr ⟨_, _, _, rfl, rfl, v1⟩
    | [.ok _] => exact .inr ⟨_, _, _, rfl, rfl, v2⟩
    | [.err _] => exact .inl ⟨rfl, rfl⟩
    | [.panic] => exact .inl ⟨rfl, rfl⟩
    | [.stuck] => exact .inl ⟨rfl, rfl⟩
    | o :: _ :: _ => cases o <;> exact .inl ⟨rfl, rfl⟩
  | 1 =>
    cases h1; cases h2
    refine ⟨rfl, fun past => ?_⟩
    match past with
    | [] => exact .inr ⟨_, _, _, rfl, rfl, v1⟩
    | [_] => exact .inr ⟨_, _, _, rfl, rfl, v1⟩
    | _ :: _ :: _ => exact .inl ⟨rfl, rfl⟩
  | i + 2 => cases h1

end Hop
