import Verif.Lemmas.Progress
import Verif.Spec.Adaptive
import Verif.Props.Store

/-! # C101, C102: how long a command can be kept busy by others -/

namespace Hop

open Spec Prog

/-- A call that removes key `k`, if it is there: Delete, Rename and Set. -/
def Spec.Drops (k : Bytes) (c : Call) : Prop := c.cmd ∈ [.set, .delete, .rename] ∧ c.args[0]? = some k

instance (k : Bytes) (c : Call) : Decidable (Drops k c) := by unfold Drops; infer_instance

/-- How many of the calls other than the `i`-th remove key `k`. -/
def Spec.rivals (cs : List Call) (i : Nat) (k : Bytes) : Nat := (cs.eraseIdx i).countP (Drops k ·)

theorem sum_set_countP (cs : List Call) (i : Nat) (k : Bytes) :
    (((cs.map fun c k => if Drops k c then 1 else 0).set i fun _ => 0).map (· k)).sum = rivals cs i k := by
  unfold rivals
  induction cs generalizing i with
  | nil => simp
  | cons c cs ih =>
    cases i with
    | zero =>
      simp only [List.map_cons, List.set_cons_zero, List.eraseIdx_zero, List.tail_cons, List.sum_cons, Nat.zero_add, List.map_map]
      clear ih
      induction cs with
      | nil => rfl
      | cons c cs ih =>
        simp only [List.map_cons, List.sum_cons, List.countP_cons, Function.comp_def] at ih ⊢
        rw [ih]
        by_cases h : Drops k c <;> simp [h, Nat.add_comm]
    | succ i =>
      simp only [List.map_cons, List.set_cons_succ, List.eraseIdx_cons_succ, List.sum_cons, List.countP_cons]
      rw [ih i]
      by_cases h : Drops k c <;> simp [h, Nat.add_comm]

theorem Sees.req {rs : List (Request × Bytes)} {cs : List Call} (h : Sees rs cs) (i : Nat) (c : Call) (hi : cs[i]? = some c) :
    ∃ r resp, rs[i]? = some (r, resp) ∧ Views r c.cmd c.kt c.args := by
  obtain ⟨hlen, hget⟩ := Sees.get h
  have hl : i < rs.length := by
    rcases Nat.lt_or_ge i rs.length with h | h
    · exact h
    · rw [List.getElem?_eq_none (by omega)] at hi; cases hi
  obtain ⟨c', hc', hv⟩ := hget i _ (List.getElem?_eq_getElem hl)
  rw [hi] at hc'
  simp only [Option.some.injEq] at hc'
  subst hc'
  exact ⟨_, _, List.getElem?_eq_getElem hl, hv⟩

theorem alive_start {env : Env} {rs : List (Request × Bytes)} {cs : List Call} (hs : Sees rs cs) {i : Nat} {c : Call}
    (hi : cs[i]? = some c) {B : Nat} (hB : B ≤ env.spins) (hd : ∀ k, c.args[0]? = some k → rivals cs i k ≤ B) (db : Db) :
    (Pool.start env rs db).Alive true (· ≠ .stuck) i (2 * B + c.args.length + 6) (rivals cs i) := by
  have hlen := (Sees.get hs).1
  have hget := Sees.req hs
  obtain ⟨r, resp, hr, hv⟩ := hget i c hi
  refine ⟨⟨dispatch env r resp, by simp [Pool.start, hr], ?_⟩, (cs.map fun c k => if Drops k c then 1 else 0).set i fun _ => 0,
    by simp [Pool.start, hlen], ?_, fun k => Nat.le_of_eq (sum_set_countP cs i k)⟩
  · have h := Soon.dispatch (K := fun k => c.args[0]? = some k) (r := r) (resp := resp) hB (fun k hk => by rwa [hv.arg] at hk)
      (rivals cs i) (Pool.start env rs db).db.known hd
    refine h.mono ?_
    have : lookedAt r ≤ c.args.length := by
      unfold lookedAt
      rw [argsFrom_eq hv]
      split <;> simp
    omega
  · intro j t m hji ht hm
    rw [List.getElem?_set_ne (Ne.symm hji)] at hm
    simp only [List.getElem?_map, Option.map_eq_some_iff] at hm
    obtain ⟨c', hc', rfl⟩ := hm
    obtain ⟨r', resp', hr', hv'⟩ := hget j c' hc'
    simp only [Pool.start, List.getElem?_map, hr', Option.map_some, Option.some.injEq] at ht
    subst ht
    refine Cuts.dispatch fun k hc h0 => ?_
    have : Drops k c' := ⟨by rw [← hv'.command]; exact hc, by rw [← hv'.arg]; exact h0⟩
    simp [this]

/-- C102. A command whose key is removed by at most `B` of the requests running at the same time finishes after
at most `2 * B + 6` operations of its own plus one for each argument, under every schedule; its loop takes at
most `B + 2` rounds, so it is not stuck if it may take that many. -/
theorem C102_finishes {env : Env} {rs : List (Request × Bytes)} {cs : List Call} (hs : Sees rs cs) (i : Nat) (c : Call)
    (hi : cs[i]? = some c) (B : Nat) (hB : B ≤ env.spins) (hd : ∀ k, c.args[0]? = some k → rivals cs i k ≤ B) (db : Db)
    (sched : List Nat) :
    ((Pool.start env rs db).exec sched).threads[i]? ≠ some (.done .stuck) ∧
    (2 * B + c.args.length + 6 ≤ sched.count i → ∃ r, ((Pool.start env rs db).exec sched).threads[i]? = some (.done r) ∧ r ≠ .stuck) := by
  obtain ⟨d', -, h⟩ := (alive_start hs hi hB hd db).exec sched
  obtain ⟨h1, h2⟩ := h.outcome
  refine ⟨fun e => h1 _ e rfl, fun hn => ?_⟩
  obtain ⟨r, hr⟩ := h2 rfl (by omega)
  exact ⟨r, hr, h1 _ hr⟩

/-! ## Starving -/

/-- Thread 0 looks and creates, thread `a` deletes; then the same with the next thread; finally thread 0 looks and
creates once more. -/
def starving (a : Nat) : Nat → List Nat
  | 0 => [0, 0]
  | n + 1 => 0 :: 0 :: a :: starving (a + 1) n

theorem starve {k : Bytes} {mk : Value} {body : Value → Value × Outcome DispatchError Bytes}
    {f : Outcome DispatchError Bytes → Prog Bytes} (hf : f .stuck = .done .stuck) (n a : Nat) (ha : 0 < a) (p : Pool Bytes)
    (h0 : p.threads[0]? = some ((keyOrInsertLoop k mk body (n + 1)).andThen f))
    (hd : ∀ j, a ≤ j → j < a + n → ∃ next, p.threads[j]? = some (.onKey k (fun _ => none) next)) (hk : p.db.keys k = none) :
    (p.exec (starving a n)).threads[0]? = some (.done .stuck) := by
  induction n generalizing a p with
  | zero =>
    obtain ⟨threads, db⟩ := p
    cases threads with
    | nil => simp at h0
    | cons t ts =>
      simp only [List.getElem?_cons_zero, Option.some.injEq] at h0 hk
      subst h0
      simp [starving, Pool.exec, Pool.stepAt, keyOrInsertLoop, insertKey, Prog.andThen, Prog.step, hk, hf]
  | succ n ih =>
    obtain ⟨threads, db⟩ := p
    cases threads with
    | nil => simp at h0
    | cons t ts =>
      simp only [List.getElem?_cons_zero, Option.some.injEq] at h0 hk
      subst h0
      obtain ⟨a, rfl⟩ : ∃ b, a = b + 1 := ⟨a - 1, by omega⟩
      obtain ⟨next, hn⟩ := hd (a + 1) (Nat.le_refl _) (by omega)
      simp only [List.getElem?_cons_succ] at hn
      rw [starving]
      simp only [Pool.exec, List.foldl_cons]
      have e : Pool.stepAt (Pool.stepAt (Pool.stepAt ⟨(keyOrInsertLoop k mk body (n + 1 + 1)).andThen f :: ts, db⟩ 0) 0) (a + 1) =
          ⟨(keyOrInsertLoop k mk body (n + 1)).andThen f :: ts.set a (next (some mk)),
            ((db.setKey k none).setKey k (some mk)).setKey k none⟩ := by
        simp [Pool.stepAt, keyOrInsertLoop, insertKey, Prog.andThen, Prog.step, hk, hn, Db.setKey]
      rw [e]
      refine ih (a + 1 + 1) (by omega) _ (by simp) ?_ (by simp [Db.setKey])
      intro j hj1 hj2
      obtain ⟨nx, hx⟩ := hd j (by omega) (by omega)
      obtain ⟨j, rfl⟩ : ∃ b, j = b + 1 := ⟨j - 1, by omega⟩
      simp only [List.getElem?_cons_succ] at hx ⊢
      exact ⟨nx, by rw [List.getElem?_set_ne (by omega)]; exact hx⟩

/-- C102 is exact: a command on a missing key that may take `B + 2` rounds (`B = env.spins`) can be kept from
finishing by `B + 1` Deletes. -/
theorem C102_starved (env : Env) (k : Bytes) (hu : ¬ unusable env.mode k) (inc del : Request)
    (hinc : Views inc .increment none [k]) (hdel : Views del .delete none [k]) (resp : Bytes) (db : Db)
    (hk : db.keys k = none) :
    ∃ sched, ((Pool.start env ((inc, resp) :: List.replicate (env.spins + 1) (del, [])) db).exec sched).threads[0]? =
      some (.done .stuck) := by
  have hi : isInternal k = false := by
    have h1 : ¬ reserved k := fun h => hu (Or.inl h)
    rw [← isInternal_iff] at h1
    simpa using h1
  have he : ¬ (env.mode = .debug ∧ k = []) := fun h => hu (Or.inr h)
  refine ⟨starving 1 (env.spins + 1), starve (k := k) (mk := Value.default .integer) (f := countOutcome env)
    (body := fun v => match v with
    | .integer i =>
      match addI64 env.mode i 1 with
      | some j => (.integer j, .ok (Response.writeInt resp j))
      | none => (.integer i, .panic)
    | v => (v, .err .keyTypeDifferent)) rfl (env.spins + 1) 1 (by omega) _ ?_ ?_ hk⟩
  · have hkey : inc.key = some k := by simp [Request.key, hinc.arg, hinc.command, CommandId.keyNotation]
    simp only [Pool.start, List.map_cons, List.getElem?_cons_zero, Option.some.injEq]
    simp only [dispatch, command, hinc.command, dispatchIncrement, hkey, orErr, hinc.keyType, incrementIntBy, keyOrInsertWith, hi, he]
    rfl
  · intro j hj1 hj2
    obtain ⟨j, rfl⟩ : ∃ b, j = b + 1 := ⟨j - 1, by omega⟩
    have hkey : del.key = some k := by simp [Request.key, hdel.arg, hdel.command, CommandId.keyNotation]
    simp only [Pool.start, List.map_cons, List.getElem?_cons_succ, List.map_replicate]
    rw [List.getElem?_replicate_of_lt (by omega)]
    exact ⟨_, by simp [dispatch, command, hdel.command, dispatchDelete, hkey, orErr, hdel.keyType, removeKey, Prog.andThen]; rfl⟩

/-! ## C101 -/

/-- C101 as stated: for each request there is a number of rounds with which it ends under every schedule,
whatever the requests running at the same time. -/
def C101_Statement : Prop :=
  ∀ r : Request, ∃ N : Nat, ∀ env : Env, N ≤ env.spins → ∀ (resp : Bytes) (others : List (Request × Bytes)) (db : Db) (sched : List Nat),
    ((Pool.start env ((r, resp) :: others) db).exec sched).threads[0]? ≠ some (.done .stuck)

theorem C101_false : ¬ C101_Statement := by
  intro h
  obtain ⟨N, hN⟩ := h (call .increment none [[1]])
  obtain ⟨sched, hs⟩ := C102_starved { sampleEnv .release with spins := N } [1]
    (show ¬ unusable .release [1] by decide) (call .increment none [[1]])
    (call .delete none [[1]]) (call_views _ _ _ (by decide) (by decide) (by decide)) (call_views _ _ _ (by decide) (by decide) (by decide)) [] (sampleDb []) rfl
  exact hN _ (Nat.le_refl _) _ _ _ _ hs

/-- C101, the part that holds: for each request and each number `B` there is a number of rounds with which it ends,
whatever the requests running at the same time, as long as at most `B` of them remove its key. Missing: a bound
that does not depend on the others, see C101_false. -/
theorem C101_bounded_partial (r : Request) (c : Call) (hv : Views r c.cmd c.kt c.args) (B : Nat) :
    ∃ N : Nat, ∀ env : Env, N ≤ env.spins → ∀ (resp : Bytes) (others : List (Request × Bytes)) (cs : List Call) (db : Db) (sched : List Nat),
      Sees others cs → (∀ k, c.args[0]? = some k → cs.countP (Drops k ·) ≤ B) →
      ((Pool.start env ((r, resp) :: others) db).exec sched).threads[0]? ≠ some (.done .stuck) :=
  ⟨B, fun _ hB _ _ _ db sched hs hd => (C102_finishes (Sees.cons hv hs) 0 c rfl B hB hd db sched).1⟩

/-- Beside C101 and C102: an Increment, two Deletes and a Get; the Increment has to start over twice. -/
example : (let p := (Pool.start (sampleEnv .debug) [(call .increment none [[1]], []), (call .delete none [[1]], []),
      (call .delete none [[1]], []), (call .get none [[1]], [])] (sampleDb [])).exec [0, 0, 1, 1, 0, 0, 2, 2, 3, 3, 0, 0, 0, 0]
    (p.threads.map fun t => match t with | .done _ => true | _ => false, p.db.keys [1])) =
    ([true, true, true, true], some (.integer 1)) := by decide +kernel

/-! ## Clients that issue any number of requests -/

/-- A request that removes key `k`, if it is there. -/
def Spec.RemovesKey (k : Bytes) (r : Request) : Prop := r.commandId ∈ [.set, .delete, .rename] ∧ r.arg 0 = some k

theorem Cuts.client (env : Env) (c : Client) (m : Bytes → Nat) (n : Nat) (past : List (Outcome DispatchError Bytes))
    (hm : ∀ k r, Client.Issues c r → RemovesKey k r → n ≤ m k) : Cuts (Client.prog env c n past) m := by
  induction n generalizing past m with
  | zero => trivial
  | succ n ih =>
    simp only [Client.prog]
    cases hc : c past with
    | none => trivial
    | some r =>
      obtain ⟨r, resp⟩ := r
      have h1 : Cuts (Hop.dispatch env r resp) fun k => m k - (m k - 1) :=
        Cuts.dispatch fun k h h0 => by have := hm k r ⟨past, resp, hc⟩ ⟨h, h0⟩; omega
      refine (h1.andThen (m' := fun k => m k - 1) fun o => ih _ _ fun k r hr hd => ?_).mono fun k => ?_
      · have := hm k r hr hd; omega
      · omega

theorem Lives.client (env : Env) (c : Client) (n : Nat) (past : List (Outcome DispatchError Bytes))
    (hp : Outcome.stuck ∉ past) (d : Bytes → Nat) (o : Bytes → Bool)
    (hd : ∀ k r, Client.Issues c r → r.arg 0 = some k → d k ≤ env.spins) :
    Lives false (fun x => ∃ l, x = .ok l ∧ Outcome.stuck ∉ l) (Client.prog env c n past) 0 d o := by
  induction n generalizing past d o with
  | zero => exact ⟨past, rfl, hp⟩
  | succ n ih =>
    simp only [Client.prog]
    cases hc : c past with
    | none => exact ⟨past, rfl, hp⟩
    | some r =>
      obtain ⟨r, resp⟩ := r
      have h1 := Soon.dispatch (K := fun k => r.arg 0 = some k) (r := r) (resp := resp) (env := env) (Nat.le_refl _) (fun _ h => h) d o
        fun k hk => hd k r ⟨past, resp, hc⟩ hk
      refine Lives.untimed ((h1.untimed (m := 0)).andThen (m := 0) fun x hx d' o' hd' => ?_)
      exact ih _ (by simp [hp, Ne.symm hx]) _ _ fun k r hr hk => Nat.le_trans (hd' k) (hd k r hr hk)

open Classical in
/-- How many requests the clients other than the `i`-th may issue, counting only clients that may remove key `k`. -/
noncomputable def Spec.threats (cs : List (Client × Nat)) (i : Nat) (k : Bytes) : Nat :=
  ((cs.eraseIdx i).map fun c => if ∃ r, Client.Issues c.1 r ∧ RemovesKey k r then c.2 else 0).sum

/-- C102 for clients that issue any number of requests, each depending on the answers so far: client `i` never waits
for ever, if of each key it names the others issue at most `env.spins` requests. -/
theorem C102_clients (env : Env) (cs : List (Client × Nat)) (i : Nat) (c : Client × Nat) (hi : cs[i]? = some c)
    (hd : ∀ k r, Client.Issues c.1 r → r.arg 0 = some k → threats cs i k ≤ env.spins) (db : Db) (sched : List Nat)
    (x : Outcome DispatchError (List (Outcome DispatchError Bytes)))
    (hx : ((Clients.pool env cs db).exec sched).threads[i]? = some (.done x)) :
    ∃ answers, x = .ok answers ∧ Outcome.stuck ∉ answers := by
  classical
  have h : (Clients.pool env cs db).Alive false (fun x => ∃ l, x = .ok l ∧ Outcome.stuck ∉ l) i 0 (threats cs i) := by
    refine ⟨⟨Client.prog env c.1 c.2 [], by simp [Clients.pool, hi], Lives.client env c.1 c.2 [] (by simp) _ _ hd⟩,
      (cs.map fun c k => if ∃ r, Client.Issues c.1 r ∧ RemovesKey k r then c.2 else 0).set i fun _ => 0,
      by simp [Clients.pool], ?_, fun k => ?_⟩
    · intro j t m hji ht hm
      rw [List.getElem?_set_ne (Ne.symm hji)] at hm
      simp only [List.getElem?_map, Option.map_eq_some_iff] at hm
      obtain ⟨c', hc', rfl⟩ := hm
      simp only [Clients.pool, List.getElem?_map, hc', Option.map_some, Option.some.injEq] at ht
      subst ht
      refine Cuts.client env c'.1 _ c'.2 [] fun k r hr hk => ?_
      have : ∃ r, Client.Issues c'.1 r ∧ RemovesKey k r := ⟨r, hr, hk⟩
      simp [this]
    · refine Nat.le_of_eq ?_
      unfold threats
      clear hd hi hx
      induction cs generalizing i with
      | nil => simp
      | cons a cs ih =>
        cases i with
        | zero => simp [Function.comp_def]
        | succ i => simp only [List.map_cons, List.set_cons_succ, List.eraseIdx_cons_succ, List.sum_cons, ih i]
  obtain ⟨d', -, h'⟩ := h.exec sched
  exact h'.outcome.1 x hx

/-- Beside C102_clients: one client increments twice, the other deletes twice. -/
example : threats [(Client.fixed [call .increment none [[1]], call .increment none [[1]]], 2),
      (Client.fixed [call .delete none [[1]], call .delete none [[1]]], 2)] 0 [1] ≤ (sampleEnv .debug).spins ∧
    (match ((Clients.pool (sampleEnv .debug) [(Client.fixed [call .increment none [[1]], call .increment none [[1]]], 2),
        (Client.fixed [call .delete none [[1]], call .delete none [[1]]], 2)] (sampleDb [])).exec
        [0, 0, 1, 1, 0, 0, 1, 1, 0, 0, 0, 0, 0, 0]).threads[0]? with
      | some (.done (.ok l)) => l.length
      | _ => 0) = 2 := by
  refine ⟨?_, by decide +kernel⟩
  simp only [threats, List.eraseIdx_zero, List.tail_cons, List.map_cons, List.map_nil, List.sum_cons, List.sum_nil]
  split <;> decide

/-! ## Further concrete cases -/

/-- An increment beside at most three that may remove its key. -/
example : ∃ N : Nat, ∀ env : Env, N ≤ env.spins → ∀ sched,
    ((Pool.start env [(call .increment none [[1]], []), (call .delete none [[1]], []), (call .set none [[1], [2]], [])] (sampleDb [])).exec
      sched).threads[0]? ≠ some (.done .stuck) := by
  obtain ⟨N, h⟩ := C101_bounded_partial (call .increment none [[1]]) ⟨.increment, none, [[1]]⟩ (call_views _ _ _ (by decide) (by decide) (by decide)) 3
  refine ⟨N, fun env he sched => h env he [] _ [⟨.delete, none, [[1]]⟩, ⟨.set, none, [[1], [2]]⟩] _ sched
    (.cons (call_views _ _ _ (by decide) (by decide) (by decide)) (.cons (call_views _ _ _ (by decide) (by decide) (by decide)) .nil)) ?_⟩
  intro k _
  exact Nat.le_trans List.countP_le_length (by decide)

/-- Nobody may remove the key: after so many turns the increment has its answer. -/
example (sched : List Nat) (h : 7 ≤ sched.count 0) : ∃ r,
    ((Pool.start (sampleEnv .debug) [(call .increment none [[1]], []), (call .delete none [[2]], [])] (sampleDb [])).exec sched).threads[0]? =
      some (.done r) ∧ r ≠ .stuck := by
  refine (C102_finishes (cs := [⟨.increment, none, [[1]]⟩, ⟨.delete, none, [[2]]⟩])
    (.cons (call_views _ _ _ (by decide) (by decide) (by decide)) (.cons (call_views _ _ _ (by decide) (by decide) (by decide)) .nil))
    0 _ rfl 0 (Nat.zero_le _) ?_ _ sched).2 h
  intro k hk
  cases hk
  decide

/-- It can be starved by deletes enough. -/
example : ∃ sched, ((Pool.start (sampleEnv .debug) ((call .increment none [[1]], [9]) :: List.replicate ((sampleEnv .debug).spins + 1)
    (call .delete none [[1]], [])) (sampleDb [])).exec sched).threads[0]? = some (.done .stuck) :=
  C102_starved (sampleEnv .debug) [1] (by decide) _ _ (call_views _ _ _ (by decide) (by decide) (by decide))
    (call_views _ _ _ (by decide) (by decide) (by decide)) [9] (sampleDb []) rfl

/-- A client that increments, beside one that reads. -/
example (sched : List Nat) (x : Outcome DispatchError (List (Outcome DispatchError Bytes)))
    (hx : ((Clients.pool (sampleEnv .debug) [(Client.fixed [call .increment none [[1]]], 1), (Client.fixed [], 0)] (sampleDb [])).exec
      sched).threads[0]? = some (.done x)) : ∃ answers, x = .ok answers ∧ Outcome.stuck ∉ answers := by
  refine C102_clients _ _ 0 _ rfl (fun k r _ _ => ?_) _ sched x hx
  simp [threats]

end Hop
