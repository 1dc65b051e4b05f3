import Verif.Spec.CallersLocal
import Verif.Props.Callers
import Verif.Props.Shown

/-! # C159, C160: calls of an in-memory client on keys that nobody replaces, while anything happens to the other keys -/

namespace Hop

open Spec Prog

theorem Api.start_touches {env : Env} {a : Api} (hn : (a.call env).args.length ≤ 255) {K : Bytes → Prop}
    (hs : a.refusal = none → Confined K (a.call env)) : Touches K (a.start env) := by
  rcases Api.start_shape env a hn with ⟨e, -, h⟩ | ⟨hr, r, g, hv, h, hg⟩
  · rw [h]; trivial
  · rw [h]
    exact (confined_touches hv (hs hr) []).andThen fun r => by obtain ⟨o, ho⟩ := hg r; rw [ho]; trivial

theorem Api.start_writes {env : Env} {a : Api} (hn : (a.call env).args.length ≤ 255) {K : Bytes → Prop}
    (hs : a.refusal = none → ∀ k, K k → Bystander k (a.call env)) : Writes (fun k => ¬ K k) (a.start env) := by
  rcases Api.start_shape env a hn with ⟨e, -, h⟩ | ⟨hr, r, g, hv, h, hg⟩
  · rw [h]; trivial
  · rw [h]
    exact (bystander_writes hv (hs hr) []).andThen fun r => by obtain ⟨o, ho⟩ := hg r; rw [ho]; trivial

theorem caller_accounts_ledger (mine : Api → Bool) (c : Caller) (got : List Resolved) :
    c.accounts mine got = ledger mine c got := by
  refine filterMap_agree _ fun j _ => ?_
  cases c (got.take j) <;> cases got[j]? <;> rfl

/-- C159. Any number of tasks share an in-memory client, and each makes any number of calls of all kinds, every one depending
on what its calls so far came to; but nobody replaces the keys `K`, which exist: the calls marked by `mine` that are not
refused read, count or append to keys of `K` (see `Confined`), and the others cannot change these keys. To every moment of every
execution belongs a diary of the marked calls that have taken effect, in an order; a later moment only adds to the end of it.
Making nothing but these calls, one after the other in a single task, gives the stored values of the keys `K`; and for each
task it gives what its marked calls have come to, and perhaps what the call it is waiting for will come to. -/
theorem C159_as_if_alone {env : Env} {cs : List (Caller × Nat)} (K : Bytes → Prop) (mine : Api → Bool)
    (hK : ∀ c ∈ cs, ∀ a, Caller.Makes c.1 a → (a.call env).args.length ≤ 255 ∧ (a.refusal = none →
      (mine a = true → Confined K (a.call env)) ∧ (mine a = false → ∀ k, K k → Bystander k (a.call env))))
    (db : Db) (hex : ∀ k, K k → db.keys k ≠ none) (hc : Roomy (cs.map (·.2)).sum db.ctrs) :
    ∃ (diary : List Nat → Diary) (got : List Nat → Nat → List Resolved),
      (∀ s s', diary s <+: diary (s ++ s')) ∧ (∀ s s' i, got s i <+: got (s ++ s') i) ∧ ∀ s,
      (∀ k, K k → ((Callers.pool env cs db).exec s).db.keys k = (callAll env (diary s).calls db).2.keys k) ∧
      (diary s).length ≤ (cs.map (·.2)).sum ∧
      (∀ e ∈ diary s, e.1 < cs.length ∧ mine e.2.2 = true ∧ ∃ c ∈ cs, Caller.Makes c.1 e.2.2) ∧
      ∀ (i : Nat) c t, cs[i]? = some c → ((Callers.pool env cs db).exec s).threads[i]? = some t →
        c.1.Amid env c.2 (got s i) t ∧
        (chosen i ((diary s).with (callAll env (diary s).calls db).1) = c.1.accounts mine (got s i) ∨
        (¬ Ended t) ∧ ∃ a o, c.1 (got s i) = some a ∧ mine a = true ∧
          chosen i ((diary s).with (callAll env (diary s).calls db).1) =
            c.1.accounts mine (got s i) ++ [(((got s i).length, a), o)]) := by
  obtain ⟨diary, got, h1, h2, h3⟩ := agents_book (cs := cs) (act := Api.start env)
    (Inv := Kinds K fun k => ((db.keys k).map Value.kind).getD .bytes) K mine
    (fun c hc a ha hm => ⟨(Api.start_single (hK c hc a ha).1 fun hr => (((hK c hc a ha).2 hr).1 hm).1).imp fun _ h => h.1,
      Api.start_touches (hK c hc a ha).1 fun hr => ((hK c hc a ha).2 hr).1 hm⟩)
    (fun c hc a ha hm => Api.start_writes (hK c hc a ha).1 fun hr => ((hK c hc a ha).2 hr).2 hm)
    (fun c hc a ha => Api.start_counts (hK c hc a ha).1) (fun s s' h hi k hk => by rw [← h k hk]; exact hi k hk)
    db (kinds_of hex) hc
  refine ⟨diary, got, h1, h2, fun s => ?_⟩
  obtain ⟨g1, g2, g3, g4⟩ := h3 s
  rw [Callers.pool_agents, callAll_actAll]
  refine ⟨g1, g2, fun e he => ?_, fun i c t hi ht => ?_⟩
  · obtain ⟨a1, c, hcm, a2, a3⟩ := g3 e he
    exact ⟨a1, a3, c, hcm, a2⟩
  · obtain ⟨b1, b2⟩ := g4 i c t hi ht
    simp only [caller_accounts_ledger]
    exact ⟨b1.caller, b2⟩

theorem adds_understood {env : Env} {k : Bytes} {a : Api} {x : Int} (h : AddsTo k (a.call env) x) (i : Int64) :
    a.understood (.integer i) = some (.value (.integer i)) := by
  cases a with
  | get => rfl
  | increment => rfl
  | decrement => rfl
  | incrementBy => rfl
  | decrementBy => rfl
  | _ =>
    exfalso
    rcases h with ⟨h, -⟩ | ⟨o, h, -⟩
    · cases h.1
    · cases o <;> cases h.1

/-- C160. What C157 says, for tasks that share an in-memory client: some of their calls, not refused by the client, read the
integer at the key `k` or add up to `M` to it, and the others cannot change it. Every such call resolves to a number. At every
moment of every execution, no number is above the one stored; a task that was given a number is next given at least that
number plus what it adds; a call made after some moment resolves to at least the number stored at that moment plus what it
adds; and of any two calls, one resolves to at least the other's number plus what it adds itself. -/
theorem C160_counters_advance {env : Env} {k : Bytes} {cs : List (Caller × Nat)} {M : Nat} (hM : M < 2 ^ 63)
    (hK : ∀ c ∈ cs, ∀ a, Caller.Makes c.1 a → (a.call env).args.length ≤ 255 ∧ (a.refusal = none →
      (∃ x, AddsTo k (a.call env) x ∧ 0 ≤ x ∧ x ≤ M) ∨ Bystander k (a.call env)))
    (db : Db) (i0 : Int64) (hk : db.keys k = some (.integer i0)) (hu : ¬ unusable env.mode k)
    (hc : Roomy (cs.map (·.2)).sum db.ctrs) (hN : i0.toInt + ((cs.map (·.2)).sum * M : Nat) < 2 ^ 63) :
    ∃ (got : List Nat → Nat → List Resolved) (stored : List Nat → Int64) (shown : List Nat → Nat → Nat → Int64),
      (∀ s s' i, got s i <+: got (s ++ s') i) ∧ ∀ s,
      (∀ (i : Nat) c t, cs[i]? = some c → ((Callers.pool env cs db).exec s).threads[i]? = some t → c.1.Amid env c.2 (got s i) t) ∧
      ((Callers.pool env cs db).exec s).db.keys k = some (.integer (stored s)) ∧ i0.toInt ≤ (stored s).toInt ∧
      ∀ (i : Nat) c (j : Nat) a o x, cs[i]? = some c → c.1.MadeAt (got s i) j a o → a.refusal = none →
        AddsTo k (a.call env) x →
        o = .ok (.ok (.value (.integer (shown s i j)))) ∧
        i0.toInt + x ≤ (shown s i j).toInt ∧ (shown s i j).toInt ≤ (stored s).toInt ∧
        (∀ s1 s2, s = s1 ++ s2 → (got s1 i).length < j → (stored s1).toInt + x ≤ (shown s i j).toInt) ∧
        ∀ (i' : Nat) c' (j' : Nat) a' o' x', cs[i']? = some c' → c'.1.MadeAt (got s i') j' a' o' → a'.refusal = none →
          AddsTo k (a'.call env) x' →
          (i = i' → j < j' → (shown s i j).toInt + x' ≤ (shown s i' j').toInt) ∧
          ((i, j) ≠ (i', j') → (shown s i j).toInt + x' ≤ (shown s i' j').toInt ∨ (shown s i' j').toInt + x ≤ (shown s i j).toInt) := by
  classical
  let num : Value → Int64 := fun v => match v with | .integer i => i | _ => 0
  let mine : Api → Bool := fun a => decide (a.refusal = none ∧ ∃ x : Int, AddsTo k (a.call env) x)
  have hmine : ∀ {a : Api} {x : Int}, a.refusal = none → AddsTo k (a.call env) x → mine a = true :=
    fun h1 h2 => decide_eq_true ⟨h1, _, h2⟩
  have hbound : ∀ {a : Api} {x : Int}, (∃ c ∈ cs, Caller.Makes c.1 a) → a.refusal = none → AddsTo k (a.call env) x → 0 ≤ x ∧ x ≤ M := by
    rintro a x ⟨c, hc, hi⟩ hr ha
    rcases (hK c hc a hi).2 hr with ⟨x', h1, h2, h3⟩ | hb
    · rw [adds_same ha h1]; exact ⟨h2, h3⟩
    · rw [adds_bystander ha hb]; omega
  obtain ⟨got, stored, pre, post, h1, h2⟩ := agents_shown (k := k) (cs := cs) (act := Api.start env)
    (Inv := Kinds (· = k) fun k => ((db.keys k).map Value.kind).getD .bytes) mine
    (by
      intro c hc a ha hm
      obtain ⟨hr, x, hx⟩ := of_decide_eq_true hm
      exact ⟨(Api.start_single (hK c hc a ha).1 fun _ => (adds_confined hx).1).imp fun _ h => h.1,
        Api.start_touches (hK c hc a ha).1 fun _ => adds_confined hx⟩)
    (by
      intro c hc a ha hm
      refine Api.start_writes (K := (· = k)) (hK c hc a ha).1 fun hr k' hk' => ?_
      rw [hk']
      rcases (hK c hc a ha).2 hr with ⟨x, hx, -⟩ | hb
      · rw [hmine hr hx] at hm; cases hm
      · exact hb)
    (fun c hc a ha => Api.start_counts (hK c hc a ha).1) (fun s s' h hi k' hk' => by rw [hk', ← h, ← hk']; exact hi k' hk')
    db (.integer i0) hk (kinds_of (by rintro k' rfl; rw [hk]; simp)) hc
    (V := fun n v => ∃ i : Int64, v = .integer i ∧ i.toInt + (n * M : Nat) < 2 ^ 63)
    (T := fun a v o w => ∃ (x : Int) (i i' : Int64), AddsTo k (a.call env) x ∧ 0 ≤ x ∧
      v = .integer i ∧ w = .integer i' ∧ i'.toInt = i.toInt + x ∧ o = .ok (.ok (.value (.integer i'))))
    (R := fun v w => ∀ i : Int64, v = .integer i → ∃ i' : Int64, w = .integer i' ∧ i.toInt ≤ i'.toInt)
    (fun v i h => ⟨i, h, Int.le_refl _⟩)
    (fun u v w h h' i hi => by
      obtain ⟨i', e, l⟩ := h i hi
      obtain ⟨i'', e', l'⟩ := h' i' e
      exact ⟨i'', e', Int.le_trans l l'⟩) ⟨i0, rfl, hN⟩
    (by
      rintro a n db v hi hm hro hkv ⟨i, rfl, hlt⟩
      obtain ⟨hr, x, hx⟩ := of_decide_eq_true hm
      obtain ⟨b1, b2⟩ := hbound hi hr hx
      obtain ⟨c, hcm, hmk⟩ := hi
      have hsum : ((n + 1) * M : Nat) = n * M + M := by rw [Nat.add_mul]; simp
      rw [hsum] at hlt
      have hlo := Int64.le_toInt i
      obtain ⟨s', i', e1, e2, e3⟩ := adds_execute (env := env) (ctrs := db.ctrs) hx hu (by omega) hkv ⟨by omega, by omega⟩
      have hp : (perform env (a.call env) db).1 = .value (.integer i') := by simp only [perform, e1]
      have hq : (perform env (a.call env) db).2.keys = s' := by simp only [perform, e1]
      have hd := C144_calls env [a] db (by intro a' ha'; rw [List.mem_singleton] at ha'; rw [ha']; exact (hK c hcm a hmk).1) hro (by
        intro j a' hj _
        match j with
        | 0 =>
          cases hj
          simp only [List.take_zero, askAll]
          rw [hp]
          trivial
        | j + 1 => simp at hj)
      simp only [callAll, askAll, hr, hp, Prod.mk.injEq, List.cons.injEq, and_true] at hd
      rw [hd.1, hd.2, hq]
      refine ⟨.integer i', e2, ⟨i', rfl, by omega⟩, x, i, i', hx, b1, rfl, rfl, e3, ?_⟩
      simp only [Api.given, show orderedValue env (.integer i') = .integer i' from rfl, adds_understood hx])
    (by
      rintro a v o w ⟨x, i, i', -, ha, rfl, rfl, e, -⟩ i1 h1
      cases h1
      exact ⟨i', rfl, by omega⟩)
  have hst : ∀ s, stored s = .integer (num (stored s)) := by
    intro s
    obtain ⟨i, e, -⟩ := (h2 s).2.2.1 i0 rfl
    rw [e]
  refine ⟨got, fun s => num (stored s), fun s i j => num (post s i j), h1, fun s => ?_⟩
  simp only []
  obtain ⟨g1, g2, g3, g4⟩ := h2 s
  rw [Callers.pool_agents]
  refine ⟨fun i c t hi ht => (g1 i c t hi ht).caller, by rw [g2, ← hst], ?_, fun i c j a o x hi hans hr ha => ?_⟩
  · obtain ⟨i, e, l⟩ := g3 i0 rfl
    rw [e]; exact l
  · have shape : ∀ {i : Nat} {c : Caller × Nat} {j : Nat} {a : Api} {o : Resolved} {x : Int}, cs[i]? = some c →
        c.1.MadeAt (got s i) j a o → a.refusal = none → AddsTo k (a.call env) x →
        ∃ n n' : Int64, pre s i j = .integer n ∧ post s i j = .integer n' ∧ n'.toInt = n.toInt + x ∧
          o = .ok (.ok (.value (.integer n'))) := by
      intro i c j a o x hi hans hv ha
      obtain ⟨⟨x', n, n', t2, -, t4, t5, t6, t7⟩, -⟩ := g4 i c j a o hi hans (hmine hv ha)
      rw [adds_same t2 ha] at t6
      exact ⟨n, n', t4, t5, t6, t7⟩
    obtain ⟨-, f1, f2, f3, f4⟩ := g4 i c j a o hi hans (hmine hr ha)
    obtain ⟨n, n', e1, e2, e3, e4⟩ := shape hi hans hr ha
    refine ⟨by rw [e2]; exact e4, ?_, ?_, ?_, ?_⟩
    · obtain ⟨m, q1, q2⟩ := f1 i0 rfl
      rw [e1] at q1
      cases q1
      rw [e2]
      simp only [num]
      omega
    · obtain ⟨m, q1, q2⟩ := f2 n' e2
      rw [q1, e2]
      exact q2
    · intro s1 s2 hs hlt
      obtain ⟨m, q1, q2⟩ := f3 s1 s2 hs hlt _ (hst s1)
      rw [e1] at q1
      cases q1
      rw [e2]
      simp only [num] at q2 ⊢
      omega
    · intro i' c' j' a' o' x' hi' hans' hr' ha'
      obtain ⟨m, m', d1, d2, d3, d4⟩ := shape hi' hans' hr' ha'
      obtain ⟨b1, b2⟩ := f4 i' c' j' a' o' hi' hans' (hmine hr' ha')
      rw [e2, d2]
      simp only [num]
      refine ⟨fun x y => ?_, fun hne => ?_⟩
      · obtain ⟨q, q1, q2⟩ := b1 x y n' e2
        rw [d1] at q1
        cases q1
        omega
      · rcases b2 hne with b | b
        · obtain ⟨q, q1, q2⟩ := b n' e2
          rw [d1] at q1
          cases q1
          exact .inl (by omega)
        · obtain ⟨q, q1, q2⟩ := b m' d2
          rw [e1] at q1
          cases q1
          exact .inr (by omega)

/-- Beside C159 and C160: a task takes a number, sets another key if it got one, and takes a number again; another takes
one number and renames that other key. -/
example : let c : Caller := fun past => match past with
      | [] => some (.increment [1] none)
      | [.ok (.ok _)] => some (.set [2] (.bytes [7]))
      | [_, _] => some (.incrementBy [1] (.integer 10))
      | _ => none
    let d : Caller := fun past => match past with
      | [] => some (.increment [1] (some .integer))
      | [_] => some (.rename [2] [3])
      | _ => none
    let db := sampleDb [([1], .integer 5)]
    let cs := [(c, 3), (d, 2)]
    let env := sampleEnv .debug
    (∃ diary : List Nat → Diary, (∀ s s', diary s <+: diary (s ++ s')) ∧ ∀ s,
      ((Callers.pool env cs db).exec s).db.keys [1] = (callAll env (diary s).calls db).2.keys [1]) ∧
    (∃ (got : List Nat → Nat → List Resolved) (stored : List Nat → Int64), ∀ s,
      ((Callers.pool env cs db).exec s).db.keys [1] = some (.integer (stored s)) ∧
      ∀ (i : Nat) c (j : Nat) o, cs[i]? = some c → c.1.MadeAt (got s i) j (.increment [1] none) o →
        ∃ n : Int64, o = .ok (.ok (.value (.integer n))) ∧ 6 ≤ n.toInt ∧ n.toInt ≤ (stored s).toInt) ∧
    ((Callers.pool env cs db).exec (List.replicate 2 1 ++ List.replicate 12 0 ++ List.replicate 12 1)).threads.map
      (fun t => match t with | .done r => some r | _ => none) =
      [some (.ok [.ok (.ok (.value (.integer 7))), .ok (.ok (.value (.bytes [7]))), .ok (.ok (.value (.integer 17)))]),
        some (.ok [.ok (.ok (.value (.integer 6))), .ok (.ok (.bytes [3]))])] := by
  intro c d db cs env
  have hmakes : ∀ e ∈ cs, ∀ a, Caller.Makes e.1 a → a = .increment [1] none ∨ a = .set [2] (.bytes [7]) ∨
      a = .incrementBy [1] (.integer 10) ∨ a = .increment [1] (some .integer) ∨ a = .rename [2] [3] := by
    rintro e he a ⟨past, hp⟩
    simp only [cs, List.mem_cons, List.not_mem_nil, or_false] at he
    rcases he with rfl | rfl <;> simp only [c, d] at hp <;> split at hp <;>
      simp only [Option.some.injEq, reduceCtorEq] at hp <;> simp [← hp]
  have a1 : AddsTo [1] ((Api.increment [1] none).call env) 1 := .inr ⟨.inc, ⟨rfl, by decide, [], rfl⟩, rfl⟩
  have a2 : AddsTo [1] ((Api.increment [1] (some .integer)).call env) 1 := .inr ⟨.inc, ⟨rfl, by decide, [], rfl⟩, rfl⟩
  have a3 : AddsTo [1] ((Api.incrementBy [1] (.integer 10)).call env) 10 := .inr ⟨.incBy 10, ⟨rfl, [], [], by decide +kernel⟩, rfl⟩
  have hr : Roomy (cs.map (·.2)).sum db.ctrs := sampleDb_roomy _ _ (by decide)
  refine ⟨?_, ?_, by decide +kernel⟩
  · obtain ⟨diary, got, h1, -, h3⟩ := C159_as_if_alone (env := env) (cs := cs) (· = [1])
      (fun a => decide ((a.call env).args[0]? = some [1])) (by
        intro e he a ha
        rcases hmakes e he a ha with rfl | rfl | rfl | rfl | rfl
        · exact ⟨by decide, fun _ => ⟨fun _ => adds_confined a1, fun h => absurd h (by decide)⟩⟩
        · refine ⟨by decide, fun _ => ⟨fun h => absurd h (by decide), ?_⟩⟩
          rintro - k rfl
          exact .inr ⟨by decide, by decide⟩
        · exact ⟨by decide, fun _ => ⟨fun _ => adds_confined a3, fun h => absurd h (by decide)⟩⟩
        · exact ⟨by decide, fun _ => ⟨fun _ => adds_confined a2, fun h => absurd h (by decide)⟩⟩
        · refine ⟨by decide, fun _ => ⟨fun h => absurd h (by decide), ?_⟩⟩
          rintro - k rfl
          exact .inr ⟨by decide, by decide⟩) db (by rintro k rfl; decide +kernel) hr
    exact ⟨diary, h1, fun s => (h3 s).1 _ rfl⟩
  · obtain ⟨got, stored, shown, -, h⟩ := C160_counters_advance (env := env) (k := [1]) (cs := cs) (M := 10) (by decide) (by
        intro e he a ha
        rcases hmakes e he a ha with rfl | rfl | rfl | rfl | rfl
        · exact ⟨by decide, fun _ => .inl ⟨1, a1, by decide, by decide⟩⟩
        · exact ⟨by decide, fun _ => .inr (.inr ⟨by decide, by decide⟩)⟩
        · exact ⟨by decide, fun _ => .inl ⟨10, a3, by decide, by decide⟩⟩
        · exact ⟨by decide, fun _ => .inl ⟨1, a2, by decide, by decide⟩⟩
        · exact ⟨by decide, fun _ => .inr (.inr ⟨by decide, by decide⟩)⟩) db 5 (by decide +kernel) (by decide) hr (by decide)
    refine ⟨got, stored, fun s => ⟨(h s).2.1, fun i c j o hi hm => ?_⟩⟩
    obtain ⟨g1, g2, g3, -⟩ := (h s).2.2.2 i c j _ o 1 hi hm (by decide) a1
    exact ⟨_, g1, g2, g3⟩

end Hop
