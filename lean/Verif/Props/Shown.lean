import Verif.Spec.Shown
import Verif.Props.Local
import Verif.Props.Counters
import Verif.Lemmas.Shown

/-! # C157, C158: what the clients of one key see of it -/

namespace Hop

open Spec Prog

variable {env : Env} {k : Bytes}

theorem views_same {r : Request} {c c' : Call} (h : Views r c.cmd c.kt c.args) (h' : Views r c'.cmd c'.kt c'.args) : c = c' := by
  obtain ⟨a, b, d⟩ := c
  obtain ⟨a', b', d'⟩ := c'
  have h1 := h.command.symm.trans h'.command
  have h2 := h.keyType.symm.trans h'.keyType
  have h3 : d = d' := List.ext_getElem? fun i => (h.arg i).symm.trans (h'.arg i)
  simp only at h1 h2
  subst h1 h2 h3
  rfl

theorem adds_same {c : Call} {a a' : Int} (h : AddsTo k c a) (h' : AddsTo k c a') : a = a' := by
  have hg : ∀ o : CounterOp, o.Spells k c → c.cmd ≠ .get := by
    intro o ho hc
    cases o <;> (have := ho.1; rw [hc] at this; cases this)
  rcases h with ⟨h1, h2⟩ | ⟨o, h1, h2⟩ <;> rcases h' with ⟨h3, h4⟩ | ⟨o', h3, h4⟩
  · rw [h2, h4]
  · exact absurd h1.1 (hg o' h3)
  · exact absurd h3.1 (hg o h1)
  · subst h2 h4
    have hargs : ∀ {n n' : Int64} {j j' : Bytes} {m m' : List Bytes},
        c.args = k :: (beBytes 8 n.toUInt64.toNat ++ j) :: m → c.args = k :: (beBytes 8 n'.toUInt64.toNat ++ j') :: m' → n = n' := by
      intro n n' j j' m m' e e'
      rw [e] at e'
      simp only [List.cons.injEq, true_and] at e'
      have := (i64OfBytes_take n j).2
      rw [e'.1, (i64OfBytes_take n' j').2] at this
      exact this.symm
    cases o <;> cases o' <;> first
      | rfl
      | (have e1 := h1.1; have e2 := h3.1; rw [e1] at e2; cases e2; done)
      | (obtain ⟨-, j, m, e⟩ := h1; obtain ⟨-, j', m', e'⟩ := h3; rw [hargs e e'])

/-- What the clients see of a key that nobody replaces, in general: `T` relates a marked command, the value before it, its
answer and the value after it, and `R` orders the values. -/
theorem shown_along {cs : List (Client × Nat)} (mine : Request → Bool)
    (hK : ∀ c ∈ cs, ∀ r, Client.Issues c.1 r → ∃ call : Call, Views r call.cmd call.kt call.args ∧
      (mine r = true → Confined (· = k) call) ∧ (mine r = false → Bystander k call))
    (db : Db) (v0 : Value) (hk : db.keys k = some v0) (hc : Roomy (cs.map (·.2)).sum db.ctrs)
    {V : Nat → Value → Prop} {T : Request × Bytes → Value → Outcome DispatchError Bytes → Value → Prop}
    {R : Value → Value → Prop} (hrefl : ∀ v, R v v) (htrans : ∀ u v w, R u v → R v w → R u w)
    (hV : V (cs.map (·.2)).sum v0)
    (hstep : ∀ x n db v, (∃ c ∈ cs, Client.Issues c.1 x.1) → mine x.1 = true → Roomy 1 db.ctrs → db.keys k = some v → V (n + 1) v →
      ∃ w, ((dispatch env x.1 x.2).run db).2.keys k = some w ∧ V n w ∧ T x v ((dispatch env x.1 x.2).run db).1 w)
    (hT : ∀ x v o w, T x v o w → R v w) :
    ∃ (got : List Nat → Nat → List (Outcome DispatchError Bytes)) (stored : List Nat → Value)
      (pre post : List Nat → Nat → Nat → Value),
      (∀ s s' i, got s i <+: got (s ++ s') i) ∧ ∀ s,
      (∀ (i : Nat) c t, cs[i]? = some c → ((Clients.pool env cs db).exec s).threads[i]? = some t → c.1.Amid env c.2 (got s i) t) ∧
      ((Clients.pool env cs db).exec s).db.keys k = some (stored s) ∧ R v0 (stored s) ∧
      ∀ (i : Nat) c (j : Nat) x o, cs[i]? = some c → AnsweredAt c.1 (got s i) j x o → mine x.1 = true →
        T x (pre s i j) o (post s i j) ∧ R v0 (pre s i j) ∧ R (post s i j) (stored s) ∧
        (∀ s1 s2, s = s1 ++ s2 → (got s1 i).length < j → R (stored s1) (pre s i j)) ∧
        ∀ (i' : Nat) c' (j' : Nat) x' o', cs[i']? = some c' → AnsweredAt c'.1 (got s i') j' x' o' → mine x'.1 = true →
          (i = i' → j < j' → R (post s i j) (pre s i' j')) ∧
          ((i, j) ≠ (i', j') → R (post s i j) (pre s i' j') ∨ R (post s i' j') (pre s i j)) := by
  obtain ⟨got, stored, pre, post, h1, h2⟩ := agents_shown (k := k) (cs := cs) (act := fun x : Request × Bytes => dispatch env x.1 x.2)
    (Inv := Kinds (· = k) fun k => ((db.keys k).map Value.kind).getD .bytes) (fun x => mine x.1)
    (by
      rintro c hc ⟨r, resp⟩ ⟨past, hr⟩ hm
      obtain ⟨call, hv, hs, -⟩ := hK c hc r ⟨past, resp, hr⟩
      exact ⟨(single_dispatch hv (hs hm).1).imp fun _ h => h.1, confined_touches hv (hs hm) resp⟩)
    (by
      rintro c hc ⟨r, resp⟩ ⟨past, hr⟩ hm
      obtain ⟨call, hv, -, hs⟩ := hK c hc r ⟨past, resp, hr⟩
      exact bystander_writes hv (fun k' hk' => by rw [hk']; exact hs hm) resp)
    (fun _ _ x _ => Counts.dispatch env x.1 x.2) (fun s s' h hi k' hk' => by rw [hk', ← h, ← hk']; exact hi k' hk')
    db v0 hk (kinds_of (by rintro k' rfl; rw [hk]; simp)) hc hrefl htrans hV
    (fun x n db v ⟨c, hcm, past, hp⟩ => hstep x n db v ⟨c, hcm, past, x.2, hp⟩) hT
  refine ⟨got, stored, pre, post, h1, fun s => ?_⟩
  obtain ⟨g1, g2⟩ := h2 s
  rw [Clients.pool_agents]
  exact ⟨fun i c t hi ht => (g1 i c t hi ht).client, g2⟩

theorem reads_execute {ctrs : Metric → Option Nat} {t : KeyType} {c : Call} (h : Reads k t c) (hu : ¬ unusable env.mode k) {s : Store}
    {v : Value} (hv : s k = some v) (ht : v.kind = t) : execute env ctrs c.cmd c.kt c.args s = (.value v, s) := by
  obtain ⟨cmd, kt, args⟩ := c
  obtain ⟨h1, h2, h3⟩ := h
  simp only at h1 h2 h3
  subst h1 ht
  match args, h2 with
  | a :: more, h2 =>
    simp only [List.getElem?_cons_zero, Option.some.injEq] at h2
    subst h2
    simp [execute, hu, hv, h3]

theorem adds_execute {ctrs : Metric → Option Nat} {c : Call} {a : Int} (h : AddsTo k c a) (hu : ¬ unusable env.mode k) (ha : a < 2 ^ 63)
    {s : Store} {i : Int64} (hv : s k = some (.integer i)) (hr : inRange (i.toInt + a)) :
    ∃ s' i', execute env ctrs c.cmd c.kt c.args s = (.value (.integer i'), s') ∧ s' k = some (.integer i') ∧
      i'.toInt = i.toInt + a := by
  rcases h with ⟨h, rfl⟩ | ⟨o, h, rfl⟩
  · exact ⟨s, i, reads_execute h hu hv rfl, hv, by omega⟩
  · rw [execute_counter h s (.inr fun n hn hmin => by subst hn; simp only [CounterOp.amount] at ha; omega)]
    refine ⟨s.put k (some (.integer (Int64.ofInt (i.toInt + o.amount)))), Int64.ofInt (i.toInt + o.amount), ?_, ?_, toInt_ofInt hr⟩
    · simp only [addInteger, if_neg hu, hv, Option.getD_some, if_pos (.inl hr : inRange (i.toInt + o.amount) ∨ env.mode = .release)]
    · exact put_apply_self _ _ _

theorem adds_confined {c : Call} {a : Int} (h : AddsTo k c a) : Confined (· = k) c := by
  have key : ∀ {more : List Bytes}, c.args = k :: more → ∀ k', c.args[0]? = some k' → k' = k := by
    intro more h k' hk'
    rw [h] at hk'
    simpa using hk'.symm
  rcases h with ⟨⟨h1, h2, -⟩, -⟩ | ⟨o, h, -⟩
  · refine ⟨by unfold Steady; rw [h1]; trivial, fun k' hk' => ?_⟩
    rw [h2] at hk'
    exact (Option.some.inj hk').symm
  · cases o with
    | inc => obtain ⟨h1, -, m, h2⟩ := h; exact ⟨by unfold Steady; rw [h1]; exact key h2, key h2⟩
    | dec => obtain ⟨h1, -, m, h2⟩ := h; exact ⟨by unfold Steady; rw [h1]; exact key h2, key h2⟩
    | incBy n => obtain ⟨h1, j, m, h2⟩ := h; exact ⟨by unfold Steady; rw [h1]; exact key h2, key h2⟩
    | decBy n => obtain ⟨h1, j, m, h2⟩ := h; exact ⟨by unfold Steady; rw [h1]; exact key h2, key h2⟩

theorem adds_bystander {call : Call} {a : Int} (h : AddsTo k call a) (hb : Bystander k call) : a = 0 := by
  rcases h with ⟨-, h⟩ | ⟨o, h, -⟩
  · exact h
  · exfalso
    rcases hb with hb | ⟨hb, -⟩
    · cases o <;> (rw [h.1] at hb; simp at hb)
    · cases o with
      | inc => obtain ⟨-, -, m, h2⟩ := h; rw [h2] at hb; simp at hb
      | dec => obtain ⟨-, -, m, h2⟩ := h; rw [h2] at hb; simp at hb
      | incBy n => obtain ⟨-, j, m, h2⟩ := h; rw [h2] at hb; simp at hb
      | decBy n => obtain ⟨-, j, m, h2⟩ := h; rw [h2] at hb; simp at hb

/-- C157. Any number of clients issue any number of commands of all kinds, every one depending on the answers so far; at the
key `k`, which holds an integer, they only read it with Get or add up to `M` to it, and all of this together stays below
2^63. At every moment of every execution, the answers to these commands show numbers with which: none is above what is
stored; a client that has seen a number is next shown at least that number plus what it adds; a command that is issued after
some moment is shown at least the number stored at that moment plus what it adds; and of any two commands, one is shown at
least the other's number plus what it adds itself, so two commands that both add something never see the same number. -/
theorem C157_counters_advance {cs : List (Client × Nat)} {M : Nat} (hM : M < 2 ^ 63)
    (hK : ∀ c ∈ cs, ∀ r, Client.Issues c.1 r → ∃ call : Call, Views r call.cmd call.kt call.args ∧
      ((∃ a, AddsTo k call a ∧ 0 ≤ a ∧ a ≤ M) ∨ Bystander k call))
    (db : Db) (i0 : Int64) (hk : db.keys k = some (.integer i0)) (hu : ¬ unusable env.mode k)
    (hc : Roomy (cs.map (·.2)).sum db.ctrs) (hN : i0.toInt + ((cs.map (·.2)).sum * M : Nat) < 2 ^ 63) :
    ∃ (got : List Nat → Nat → List (Outcome DispatchError Bytes)) (stored : List Nat → Int64) (shown : List Nat → Nat → Nat → Int64),
      (∀ s s' i, got s i <+: got (s ++ s') i) ∧ ∀ s,
      (∀ (i : Nat) c t, cs[i]? = some c → ((Clients.pool env cs db).exec s).threads[i]? = some t → c.1.Amid env c.2 (got s i) t) ∧
      ((Clients.pool env cs db).exec s).db.keys k = some (.integer (stored s)) ∧ i0.toInt ≤ (stored s).toInt ∧
      ∀ (i : Nat) c (j : Nat) r resp o call a, cs[i]? = some c → AnsweredAt c.1 (got s i) j (r, resp) o →
        Views r call.cmd call.kt call.args → AddsTo k call a →
        o = .ok (resp ++ frame (.value (.integer (shown s i j)))) ∧
        i0.toInt + a ≤ (shown s i j).toInt ∧ (shown s i j).toInt ≤ (stored s).toInt ∧
        (∀ s1 s2, s = s1 ++ s2 → (got s1 i).length < j → (stored s1).toInt + a ≤ (shown s i j).toInt) ∧
        ∀ (i' : Nat) c' (j' : Nat) r' resp' o' call' a', cs[i']? = some c' → AnsweredAt c'.1 (got s i') j' (r', resp') o' →
          Views r' call'.cmd call'.kt call'.args → AddsTo k call' a' →
          (i = i' → j < j' → (shown s i j).toInt + a' ≤ (shown s i' j').toInt) ∧
          ((i, j) ≠ (i', j') → (shown s i j).toInt + a' ≤ (shown s i' j').toInt ∨ (shown s i' j').toInt + a ≤ (shown s i j).toInt) := by
  classical
  let num : Value → Int64 := fun v => match v with | .integer i => i | _ => 0
  let mine : Request → Bool := fun r => decide (∃ (call : Call) (a : Int), Views r call.cmd call.kt call.args ∧ AddsTo k call a)
  have hmine : ∀ {r : Request} {call : Call} {a : Int}, Views r call.cmd call.kt call.args → AddsTo k call a → mine r = true :=
    fun h1 h2 => decide_eq_true ⟨_, _, h1, h2⟩
  have hbound : ∀ {r : Request} {call : Call} {a : Int}, (∃ c ∈ cs, Client.Issues c.1 r) → Views r call.cmd call.kt call.args →
      AddsTo k call a → 0 ≤ a ∧ a ≤ M := by
    rintro r call a ⟨c, hc, hi⟩ hv ha
    obtain ⟨call', hv', h⟩ := hK c hc r hi
    rw [← views_same hv hv'] at h
    rcases h with ⟨a', h1, h2, h3⟩ | hb
    · rw [adds_same ha h1]; exact ⟨h2, h3⟩
    · rw [adds_bystander ha hb]; omega
  obtain ⟨got, stored, pre, post, h1, h2⟩ := shown_along (env := env) (k := k) mine
    (by
      intro c hc r hr
      obtain ⟨call, hv, h⟩ := hK c hc r hr
      refine ⟨call, hv, fun hm => ?_, fun hm => ?_⟩
      · obtain ⟨call', a, hv', ha⟩ := of_decide_eq_true hm
        rw [views_same hv hv']
        exact adds_confined ha
      · rcases h with ⟨a, ha, -⟩ | hb
        · rw [hmine hv ha] at hm; cases hm
        · exact hb)
    db (.integer i0) hk hc
    (V := fun n v => ∃ i : Int64, v = .integer i ∧ i.toInt + (n * M : Nat) < 2 ^ 63)
    (T := fun x v o w => ∃ (call : Call) (a : Int) (i i' : Int64), Views x.1 call.cmd call.kt call.args ∧ AddsTo k call a ∧ 0 ≤ a ∧
      v = .integer i ∧ w = .integer i' ∧ i'.toInt = i.toInt + a ∧ o = .ok (x.2 ++ frame (.value (.integer i'))))
    (R := fun v w => ∀ i : Int64, v = .integer i → ∃ i' : Int64, w = .integer i' ∧ i.toInt ≤ i'.toInt)
    (fun v i h => ⟨i, h, Int.le_refl _⟩)
    (fun u v w h h' i hi => by
      obtain ⟨i', e, l⟩ := h i hi
      obtain ⟨i'', e', l'⟩ := h' i' e
      exact ⟨i'', e', Int.le_trans l l'⟩) ⟨i0, rfl, hN⟩
    (by
      rintro ⟨r, resp⟩ n db v hi hm hro hkv ⟨i, rfl, hlt⟩
      obtain ⟨call, a, hv, ha⟩ := of_decide_eq_true hm
      obtain ⟨b1, b2⟩ := hbound hi hv ha
      have hsum : ((n + 1) * M : Nat) = n * M + M := by rw [Nat.add_mul]; simp
      rw [hsum] at hlt
      have hlo := Int64.le_toInt i
      obtain ⟨s', i', e1, e2, e3⟩ := adds_execute (env := env) (ctrs := db.ctrs) ha hu (by omega) hkv ⟨by omega, by omega⟩
      have hp : (perform env call db).1 = .value (.integer i') := by simp only [perform, e1]
      have hq : (perform env call db).2.keys = s' := by simp only [perform, e1]
      have hd := dispatch_delivers (env := env) hv resp db hro (by rw [hp]; exact deliverable_int _ _)
      simp only
      rw [hd, hp]
      exact ⟨.integer i', by rw [hq]; exact e2, ⟨i', rfl, by omega⟩, call, a, i, i', hv, ha, b1, rfl, rfl, e3, rfl⟩)
    (by
      rintro x v o w ⟨call, a, i, i', -, -, ha, rfl, rfl, e, -⟩ i1 h1
      cases h1
      exact ⟨i', rfl, by omega⟩)
  have hst : ∀ s, stored s = .integer (num (stored s)) := by
    intro s
    obtain ⟨i, e, -⟩ := (h2 s).2.2.1 i0 rfl
    rw [e]
  refine ⟨got, fun s => num (stored s), fun s i j => num (post s i j), h1, fun s => ?_⟩
  simp only []
  obtain ⟨g1, g2, g3, g4⟩ := h2 s
  refine ⟨g1, by rw [g2, ← hst], ?_, fun i c j r resp o call a hi hans hv ha => ?_⟩
  · obtain ⟨i, e, l⟩ := g3 i0 rfl
    rw [e]; exact l
  · have shape : ∀ {i : Nat} {c : Client × Nat} {j : Nat} {r : Request} {resp : Bytes} {o : Outcome DispatchError Bytes} {call : Call}
        {a : Int}, cs[i]? = some c → AnsweredAt c.1 (got s i) j (r, resp) o → Views r call.cmd call.kt call.args → AddsTo k call a →
        ∃ n n' : Int64, pre s i j = .integer n ∧ post s i j = .integer n' ∧ n'.toInt = n.toInt + a ∧
          o = .ok (resp ++ frame (.value (.integer n'))) := by
      intro i c j r resp o call a hi hans hv ha
      obtain ⟨⟨call', a', n, n', t1, t2, -, t4, t5, t6, t7⟩, -⟩ := g4 i c j (r, resp) o hi hans (hmine hv ha)
      rw [views_same t1 hv] at t2
      rw [adds_same t2 ha] at t6
      exact ⟨n, n', t4, t5, t6, t7⟩
    obtain ⟨-, f1, f2, f3, f4⟩ := g4 i c j (r, resp) o hi hans (hmine hv ha)
    obtain ⟨n, n', e1, e2, e3, e4⟩ := shape hi hans hv ha
    refine ⟨by rw [e2]; exact e4, ?_, ?_, ?_, ?_⟩
    · obtain ⟨m, q1, q2⟩ := f1 i0 rfl
      rw [e1] at q1
      cases q1
      rw [e2]
      simp only [num]
      omega
    · obtain ⟨m, q1, q2⟩ := f2 n' e2
      rw [q1, e2]
      exact q2
    · intro s1 s2 hs hlt
      obtain ⟨m, q1, q2⟩ := f3 s1 s2 hs hlt _ (hst s1)
      rw [e1] at q1
      cases q1
      rw [e2]
      simp only [num] at q2 ⊢
      omega
    · intro i' c' j' r' resp' o' call' a' hi' hans' hv' ha'
      obtain ⟨m, m', d1, d2, d3, d4⟩ := shape hi' hans' hv' ha'
      obtain ⟨b1, b2⟩ := f4 i' c' j' (r', resp') o' hi' hans' (hmine hv' ha')
      rw [e2, d2]
      simp only [num]
      refine ⟨fun x y => ?_, fun hne => ?_⟩
      · obtain ⟨q, q1, q2⟩ := b1 x y n' e2
        rw [d1] at q1
        cases q1
        omega
      · rcases b2 hne with b | b
        · obtain ⟨q, q1, q2⟩ := b n' e2
          rw [d1] at q1
          cases q1
          exact .inl (by omega)
        · obtain ⟨q, q1, q2⟩ := b m' d2
          rw [e1] at q1
          cases q1
          exact .inr (by omega)

/-- Beside C157: two clients take numbers from a counter, one of them two numbers; the other reads it too, and sets another
key. In this execution, the first takes 6, then the other takes 7 and reads 7, and then the first takes 8. -/
example : let rs := [call .increment none [[1]], call .increment none [[1]]]
    let ds := [call .set none [[2], [7]], call .increment none [[1]], call .get none [[1]]]
    let cs := [(Client.fixed rs, 2), (Client.fixed ds, 3)]
    let db := sampleDb [([1], .integer 5)]
    (∃ (got : List Nat → Nat → List (Outcome DispatchError Bytes)) (shown : List Nat → Nat → Nat → Int64), ∀ s,
      ∀ (i : Nat) c (j : Nat) resp o i' c' j' resp' o', cs[i]? = some c →
        AnsweredAt c.1 (got s i) j (call .increment none [[1]], resp) o → cs[i']? = some c' →
        AnsweredAt c'.1 (got s i') j' (call .increment none [[1]], resp') o' → (i, j) ≠ (i', j') →
        o = .ok (resp ++ frame (.value (.integer (shown s i j)))) ∧ (shown s i j).toInt ≠ (shown s i' j').toInt) ∧
    ((Clients.pool (sampleEnv .debug) cs db).exec (List.replicate 2 0 ++ List.replicate 12 1 ++ List.replicate 6 0)).threads.map
      (fun t => match t with | .done r => some r | _ => none) =
      [some (.ok [.ok (frame (.value (.integer 6))), .ok (frame (.value (.integer 8)))]),
        some (.ok [.ok (frame (.value (.bytes [7]))), .ok (frame (.value (.integer 7))), .ok (frame (.value (.integer 7)))])] := by
  intro rs ds cs db
  have v : ∀ (c : CommandId) (args : List Bytes), c ≠ .stats → args.length ≤ 255 → (∀ a ∈ args, a ≠ []) →
      Views (call c none args) c none args := fun c args h1 h2 h3 => call_views c none args (.inl h1) h2 h3
  have v1 : Views (call .increment none [[1]]) .increment none [[1]] := v _ _ (by decide) (by decide) (by decide)
  have v2 : Views (call .set none [[2], [7]]) .set none [[2], [7]] := v _ _ (by decide) (by decide) (by decide)
  have v3 : Views (call .get none [[1]]) .get none [[1]] := v _ _ (by decide) (by decide) (by decide)
  have a1 : AddsTo [1] ⟨.increment, none, [[1]]⟩ 1 := .inr ⟨.inc, ⟨rfl, by simp, [], rfl⟩, rfl⟩
  have a3 : AddsTo [1] ⟨.get, none, [[1]]⟩ 0 := .inl ⟨⟨rfl, rfl, .inl rfl⟩, rfl⟩
  refine ⟨?_, by decide +kernel⟩
  obtain ⟨got, stored, shown, h1, h2⟩ := C157_counters_advance (env := sampleEnv .debug) (k := [1]) (cs := cs) (M := 1) (by decide) (by
      intro e he r hr
      simp only [cs, List.mem_cons, List.not_mem_nil, or_false] at he
      rcases he with rfl | rfl
      · have := fixed_issues hr
        simp only [rs, List.mem_cons, List.not_mem_nil, or_false] at this
        rcases this with rfl | rfl <;> exact ⟨_, v1, .inl ⟨1, a1, by decide, by decide⟩⟩
      · have := fixed_issues hr
        simp only [ds, List.mem_cons, List.not_mem_nil, or_false] at this
        rcases this with rfl | rfl | rfl
        · exact ⟨⟨.set, none, [[2], [7]]⟩, v2, .inr (.inr ⟨by decide, by decide⟩)⟩
        · exact ⟨_, v1, .inl ⟨1, a1, by decide, by decide⟩⟩
        · exact ⟨_, v3, .inl ⟨0, a3, by decide, by decide⟩⟩) db 5 (by decide +kernel) (by decide) (sampleDb_roomy _ _ (by decide)) (by decide)
  refine ⟨got, shown, fun s i c j resp o i' c' j' resp' o' hi ha hi' ha' hne => ?_⟩
  obtain ⟨g1, -, -, -, g5⟩ := (h2 s).2.2.2 i c j _ resp o _ 1 hi ha v1 a1
  refine ⟨g1, ?_⟩
  rcases (g5 i' c' j' _ resp' o' _ 1 hi' ha' v1 a1).2 hne with h | h <;> omega

theorem plus_plus (v : Value) (a b : List Bytes) : plus (plus v a) b = plus v (a ++ b) := by
  cases v <;> simp [plus, List.append_assoc]

theorem plus_nil (v : Value) : plus v [] = v := by cases v <;> simp [plus]

theorem adjoins_execute {ctrs : Metric → Option Nat} {t : KeyType} {c : Call} {items : List Bytes} (h : Adjoins k t c items)
    (hu : ¬ unusable env.mode k) {s : Store} {v : Value} (hv : s k = some v) (hk : v.kind = t) (ht : emptyOf t ≠ none) :
    ∃ s', execute env ctrs c.cmd c.kt c.args s = (.value (plus v items), s') ∧ s' k = some (plus v items) := by
  rcases h with ⟨h, rfl⟩ | ⟨h1, h2, h3⟩
  · exact ⟨s, by rw [plus_nil]; exact reads_execute h hu hv hk, by rw [plus_nil]; exact hv⟩
  · obtain ⟨cmd, kt, args⟩ := c
    simp only at h1 h2 h3
    subst h1 h2 hk
    have hap : appended v items = some (plus v items) := by
      cases v <;> first | rfl | (exact absurd rfl ht)
    have het : effectiveType kt (some v) .bytes = v.kind := by
      rcases h3 with rfl | rfl <;> rfl
    have hty : ¬ (v.kind ≠ .bytes ∧ v.kind ≠ .list ∧ v.kind ≠ .string) := by
      cases v <;> first | (exact absurd rfl ht) | simp [Value.kind]
    refine ⟨s.put k (some (plus v items)), ?_, put_apply_self _ _ _⟩
    simp only [execute, hv, het, if_neg hty, if_neg hu, Option.getD_some, ne_eq, not_true_eq_false, if_false, hap]

theorem adjoins_same {t : KeyType} {c : Call} {a a' : List Bytes} (h : Adjoins k t c a) (h' : Adjoins k t c a') : a = a' := by
  rcases h with ⟨h1, h2⟩ | ⟨h1, h2, -⟩ <;> rcases h' with ⟨h3, h4⟩ | ⟨h3, h4, -⟩
  · rw [h2, h4]
  · have := h1.1; rw [h3] at this; cases this
  · have := h3.1; rw [h1] at this; cases this
  · rw [h2] at h4; simpa using h4

theorem adjoins_confined {t : KeyType} {c : Call} {a : List Bytes} (h : Adjoins k t c a) : Confined (· = k) c := by
  rcases h with ⟨⟨h1, h2, -⟩, -⟩ | ⟨h1, h2, -⟩
  · refine ⟨by unfold Steady; rw [h1]; trivial, fun k' hk' => ?_⟩
    rw [h2] at hk'
    exact (Option.some.inj hk').symm
  · have key : ∀ k', c.args[0]? = some k' → k' = k := by
      intro k' hk'
      rw [h2] at hk'
      simpa using hk'.symm
    exact ⟨by unfold Steady; rw [h1]; exact key, key⟩

/-- C158. The same for content that is appended to: bytes, a list or a text at the key `k`, which the clients only read with
Get or append to. At every moment of every execution, the answers to these commands show contents (whole ones, if they fit
into a response) with which: each is the beginning of what is stored; a client that has seen some content is next shown that
content, perhaps with more appended, and then its own items; a command that is issued after some moment is shown what was
stored at that moment, perhaps with more appended, and then its own items; and of any two commands, one is shown what the
other is shown, perhaps with more appended, and then its own items. -/
theorem C158_contents_extend {cs : List (Client × Nat)} {t : KeyType} (ht : emptyOf t ≠ none)
    (hK : ∀ c ∈ cs, ∀ r, Client.Issues c.1 r → ∃ call : Call, Views r call.cmd call.kt call.args ∧
      ((∃ items, Adjoins k t call items) ∨ Bystander k call))
    (db : Db) (v0 : Value) (hk : db.keys k = some v0) (hv0 : v0.kind = t) (hu : ¬ unusable env.mode k)
    (hc : Roomy (cs.map (·.2)).sum db.ctrs) :
    ∃ (got : List Nat → Nat → List (Outcome DispatchError Bytes)) (stored : List Nat → Value) (shown : List Nat → Nat → Nat → Value),
      (∀ s s' i, got s i <+: got (s ++ s') i) ∧ ∀ s,
      (∀ (i : Nat) c t, cs[i]? = some c → ((Clients.pool env cs db).exec s).threads[i]? = some t → c.1.Amid env c.2 (got s i) t) ∧
      ((Clients.pool env cs db).exec s).db.keys k = some (stored s) ∧ (∃ more, stored s = plus v0 more) ∧
      ∀ (i : Nat) c (j : Nat) r resp o call items, cs[i]? = some c → AnsweredAt c.1 (got s i) j (r, resp) o →
        Views r call.cmd call.kt call.args → Adjoins k t call items →
        (Deliverable env.mode (.value (shown s i j)) → o = .ok (resp ++ frame (.value (shown s i j)))) ∧
        (∃ more, shown s i j = plus v0 (more ++ items)) ∧ (∃ more, stored s = plus (shown s i j) more) ∧
        (∀ s1 s2, s = s1 ++ s2 → (got s1 i).length < j → ∃ more, shown s i j = plus (stored s1) (more ++ items)) ∧
        ∀ (i' : Nat) c' (j' : Nat) r' resp' o' call' items', cs[i']? = some c' → AnsweredAt c'.1 (got s i') j' (r', resp') o' →
          Views r' call'.cmd call'.kt call'.args → Adjoins k t call' items' →
          (i = i' → j < j' → ∃ more, shown s i' j' = plus (shown s i j) (more ++ items')) ∧
          ((i, j) ≠ (i', j') → (∃ more, shown s i' j' = plus (shown s i j) (more ++ items')) ∨
            ∃ more, shown s i j = plus (shown s i' j') (more ++ items)) := by
  classical
  let mine : Request → Bool := fun r => decide (∃ (call : Call) (a : List Bytes), Views r call.cmd call.kt call.args ∧ Adjoins k t call a)
  have hmine : ∀ {r : Request} {call : Call} {a : List Bytes}, Views r call.cmd call.kt call.args → Adjoins k t call a → mine r = true :=
    fun h1 h2 => decide_eq_true ⟨_, _, h1, h2⟩
  obtain ⟨got, stored, pre, post, h1, h2⟩ := shown_along (env := env) (k := k) mine
    (by
      intro c hc r hr
      obtain ⟨call, hv, h⟩ := hK c hc r hr
      refine ⟨call, hv, fun hm => ?_, fun hm => ?_⟩
      · obtain ⟨call', a, hv', ha⟩ := of_decide_eq_true hm
        rw [views_same hv hv']
        exact adjoins_confined ha
      · rcases h with ⟨a, ha⟩ | hb
        · rw [hmine hv ha] at hm; cases hm
        · exact hb)
    db v0 hk hc
    (V := fun _ v => v.kind = t)
    (T := fun x v o w => ∃ (call : Call) (items : List Bytes), Views x.1 call.cmd call.kt call.args ∧ Adjoins k t call items ∧
      v.kind = t ∧ w = plus v items ∧ (Deliverable env.mode (.value w) → o = .ok (x.2 ++ frame (.value w))))
    (R := fun v w => ∃ more, w = plus v more)
    (fun v => ⟨[], (plus_nil v).symm⟩)
    (fun u v w h h' => by
      obtain ⟨a, rfl⟩ := h
      obtain ⟨b, rfl⟩ := h'
      exact ⟨a ++ b, plus_plus _ _ _⟩) hv0
    (by
      rintro ⟨r, resp⟩ n db v hi hm hro hkv hV
      obtain ⟨call, a, hv, ha⟩ := of_decide_eq_true hm
      obtain ⟨s', e1, e2⟩ := adjoins_execute (env := env) (ctrs := db.ctrs) ha hu hkv hV ht
      have hp : (perform env call db).1 = .value (plus v a) := by simp only [perform, e1]
      have hq : (perform env call db).2.keys = s' := by simp only [perform, e1]
      refine ⟨plus v a, ?_, by rw [plus_kind]; exact hV, call, a, hv, ha, hV, rfl, fun hd => ?_⟩
      · simp only
        rw [dispatch_keys (env := env) hv resp db hro (.inr (.inl ?_)), hq]
        · exact e2
        · rcases ha with ⟨ha, -⟩ | ⟨ha, -⟩
          · rw [ha.1]; simp
          · rw [ha]; simp
      · simp only
        rw [dispatch_delivers (env := env) hv resp db hro (by rw [hp]; exact hd), hp]
        have : ordered env (.value (plus v a)) = .value (plus v a) := by
          cases v <;> first | rfl | (simp only [Value.kind] at hV; subst hV; exact absurd rfl ht)
        simp only [delivered, this])
    (by
      rintro x v o w ⟨call, items, -, -, -, rfl, -⟩
      exact ⟨items, rfl⟩)
  refine ⟨got, stored, post, h1, fun s => ?_⟩
  obtain ⟨g1, g2, g3, g4⟩ := h2 s
  refine ⟨g1, g2, g3, fun i c j r resp o call items hi hans hv ha => ?_⟩
  have shape : ∀ {i : Nat} {c : Client × Nat} {j : Nat} {r : Request} {resp : Bytes} {o : Outcome DispatchError Bytes} {call : Call}
      {a : List Bytes}, cs[i]? = some c → AnsweredAt c.1 (got s i) j (r, resp) o → Views r call.cmd call.kt call.args → Adjoins k t call a →
      post s i j = plus (pre s i j) a ∧
      (Deliverable env.mode (.value (post s i j)) → o = .ok (resp ++ frame (.value (post s i j)))) := by
    intro i c j r resp o call a hi hans hv ha
    obtain ⟨⟨call', a', t1, t2, -, t4, t5⟩, -⟩ := g4 i c j (r, resp) o hi hans (hmine hv ha)
    rw [views_same t1 hv] at t2
    rw [adjoins_same t2 ha] at t4
    exact ⟨t4, t5⟩
  obtain ⟨-, f1, f2, f3, f4⟩ := g4 i c j (r, resp) o hi hans (hmine hv ha)
  obtain ⟨e1, e2⟩ := shape hi hans hv ha
  refine ⟨e2, ?_, f2, fun s1 s2 hs hlt => ?_, fun i' c' j' r' resp' o' call' a' hi' hans' hv' ha' => ?_⟩
  · obtain ⟨m, q⟩ := f1
    exact ⟨m, by rw [e1, q, plus_plus]⟩
  · obtain ⟨m, q⟩ := f3 s1 s2 hs hlt
    exact ⟨m, by rw [e1, q, plus_plus]⟩
  · obtain ⟨d1, -⟩ := shape hi' hans' hv' ha'
    obtain ⟨b1, b2⟩ := f4 i' c' j' (r', resp') o' hi' hans' (hmine hv' ha')
    refine ⟨fun x y => ?_, fun hne => ?_⟩
    · obtain ⟨m, q⟩ := b1 x y
      exact ⟨m, by rw [d1, q, plus_plus]⟩
    · rcases b2 hne with ⟨m, q⟩ | ⟨m, q⟩
      · exact .inl ⟨m, by rw [d1, q, plus_plus]⟩
      · exact .inr ⟨m, by rw [e1, q, plus_plus]⟩

/-- Beside C158: two clients append to a list and read it; one of them deletes another key. -/
example : let rs := [call .append none [[1], [9]], call .get none [[1]]]
    let ds := [call .delete none [[2]], call .append none [[1], [8]], call .get none [[1]]]
    let cs := [(Client.fixed rs, 2), (Client.fixed ds, 3)]
    let db := sampleDb [([1], .list [[5]]), ([2], .integer 0)]
    (∃ (stored : List Nat → Value), ∀ s,
      ((Clients.pool (sampleEnv .debug) cs db).exec s).db.keys [1] = some (stored s) ∧ ∃ more, stored s = plus (.list [[5]]) more) ∧
    ((Clients.pool (sampleEnv .debug) cs db).exec (List.replicate 3 1 ++ List.replicate 2 0 ++ List.replicate 9 1 ++ List.replicate 4 0)).threads.map
      (fun t => match t with | .done r => some r | _ => none) =
      [some (.ok [.ok (frame (.value (.list [[5], [9]]))), .ok (frame (.value (.list [[5], [9], [8]])))]),
        some (.ok [.ok (frame (.value (.bytes [2]))), .ok (frame (.value (.list [[5], [9], [8]]))),
          .ok (frame (.value (.list [[5], [9], [8]])))])] := by
  intro rs ds cs db
  have v : ∀ (c : CommandId) (args : List Bytes), c ≠ .stats → args.length ≤ 255 → (∀ a ∈ args, a ≠ []) →
      Views (call c none args) c none args := fun c args h1 h2 h3 => call_views c none args (.inl h1) h2 h3
  refine ⟨?_, by decide +kernel⟩
  obtain ⟨got, stored, shown, h1, h2⟩ := C158_contents_extend (env := sampleEnv .debug) (k := [1]) (cs := cs) (t := .list) (by decide) (by
      intro e he r hr
      simp only [cs, List.mem_cons, List.not_mem_nil, or_false] at he
      rcases he with rfl | rfl
      · have := fixed_issues hr
        simp only [rs, List.mem_cons, List.not_mem_nil, or_false] at this
        rcases this with rfl | rfl
        · exact ⟨⟨.append, none, [[1], [9]]⟩, v _ _ (by decide) (by decide) (by decide), .inl ⟨[[9]], .inr ⟨rfl, rfl, .inl rfl⟩⟩⟩
        · exact ⟨⟨.get, none, [[1]]⟩, v _ _ (by decide) (by decide) (by decide), .inl ⟨[], .inl ⟨⟨rfl, rfl, .inl rfl⟩, rfl⟩⟩⟩
      · have := fixed_issues hr
        simp only [ds, List.mem_cons, List.not_mem_nil, or_false] at this
        rcases this with rfl | rfl | rfl
        · exact ⟨⟨.delete, none, [[2]]⟩, v _ _ (by decide) (by decide) (by decide), .inr (.inr ⟨by decide, by decide⟩)⟩
        · exact ⟨⟨.append, none, [[1], [8]]⟩, v _ _ (by decide) (by decide) (by decide), .inl ⟨[[8]], .inr ⟨rfl, rfl, .inl rfl⟩⟩⟩
        · exact ⟨⟨.get, none, [[1]]⟩, v _ _ (by decide) (by decide) (by decide), .inl ⟨[], .inl ⟨⟨rfl, rfl, .inl rfl⟩, rfl⟩⟩⟩)
    db (.list [[5]]) (by decide +kernel) rfl (by decide) (sampleDb_roomy _ _ (by decide))
  exact ⟨stored, fun s => ⟨(h2 s).2.1, (h2 s).2.2.1⟩⟩

end Hop
