import Verif.Props.CallersLocal

/-! # C173: contents that calls of an in-memory client append to -/

namespace Hop

open Spec Prog

/-- C173. Any number of tasks share an in-memory client, and each makes any number of calls of all kinds, every one depending
on what its calls so far came to; but those that are not refused read the bytes, the list or the text at the key `k` or append
to it, or else cannot change it. Every such call resolves to a content (the whole one, if it fits into a response). At every
moment of every execution, each is the beginning of what is stored; a task that was given some content is next given that
content, perhaps with more appended, and then its own items; a call made after some moment resolves to what was stored at that
moment, perhaps with more appended, and then its own items; and of any two calls, one resolves to what the other does, perhaps
with more appended, and then its own items. -/
theorem C173_contents_extend {env : Env} {k : Bytes} {cs : List (Caller × Nat)} {t : KeyType} (ht : emptyOf t ≠ none)
    (hK : ∀ c ∈ cs, ∀ a, Caller.Makes c.1 a → (a.call env).args.length ≤ 255 ∧ (a.refusal = none →
      (∃ items, Adjoins k t (a.call env) items) ∨ Bystander k (a.call env)))
    (db : Db) (v0 : Value) (hk : db.keys k = some v0) (hv0 : v0.kind = t) (hu : ¬ unusable env.mode k)
    (hc : Roomy (cs.map (·.2)).sum db.ctrs) :
    ∃ (got : List Nat → Nat → List Resolved) (stored : List Nat → Value) (shown : List Nat → Nat → Nat → Value),
      (∀ s s' i, got s i <+: got (s ++ s') i) ∧ ∀ s,
      (∀ (i : Nat) c t, cs[i]? = some c → ((Callers.pool env cs db).exec s).threads[i]? = some t → c.1.Amid env c.2 (got s i) t) ∧
      ((Callers.pool env cs db).exec s).db.keys k = some (stored s) ∧ (∃ more, stored s = plus v0 more) ∧
      ∀ (i : Nat) c (j : Nat) a o items, cs[i]? = some c → c.1.MadeAt (got s i) j a o → a.refusal = none →
        Adjoins k t (a.call env) items →
        (FitsValue env.mode (shown s i j) → o = .ok (.ok (.value (shown s i j)))) ∧
        (∃ more, shown s i j = plus v0 (more ++ items)) ∧ (∃ more, stored s = plus (shown s i j) more) ∧
        (∀ s1 s2, s = s1 ++ s2 → (got s1 i).length < j → ∃ more, shown s i j = plus (stored s1) (more ++ items)) ∧
        ∀ (i' : Nat) c' (j' : Nat) a' o' items', cs[i']? = some c' → c'.1.MadeAt (got s i') j' a' o' → a'.refusal = none →
          Adjoins k t (a'.call env) items' →
          (i = i' → j < j' → ∃ more, shown s i' j' = plus (shown s i j) (more ++ items')) ∧
          ((i, j) ≠ (i', j') → (∃ more, shown s i' j' = plus (shown s i j) (more ++ items')) ∨
            ∃ more, shown s i j = plus (shown s i' j') (more ++ items)) := by
  classical
  let mine : Api → Bool := fun a => decide (a.refusal = none ∧ ∃ items, Adjoins k t (a.call env) items)
  have hmine : ∀ {a : Api} {x : List Bytes}, a.refusal = none → Adjoins k t (a.call env) x → mine a = true :=
    fun h1 h2 => decide_eq_true ⟨h1, _, h2⟩
  obtain ⟨got, stored, pre, post, h1, h2⟩ := agents_shown (k := k) (cs := cs) (act := Api.start env)
    (Inv := Kinds (· = k) fun k => ((db.keys k).map Value.kind).getD .bytes) mine
    (by
      intro c hc a ha hm
      obtain ⟨hr, x, hx⟩ := of_decide_eq_true hm
      exact ⟨(Api.start_single (hK c hc a ha).1 fun _ => (adjoins_confined hx).1).imp fun _ h => h.1,
        Api.start_touches (hK c hc a ha).1 fun _ => adjoins_confined hx⟩)
    (by
      intro c hc a ha hm
      refine Api.start_writes (K := (· = k)) (hK c hc a ha).1 fun hr k' hk' => ?_
      rw [hk']
      rcases (hK c hc a ha).2 hr with ⟨x, hx⟩ | hb
      · rw [hmine hr hx] at hm; cases hm
      · exact hb)
    (fun c hc a ha => Api.start_counts (hK c hc a ha).1) (fun s s' h hi k' hk' => by rw [hk', ← h, ← hk']; exact hi k' hk')
    db v0 hk (kinds_of (by rintro k' rfl; rw [hk]; simp)) hc
    (V := fun _ v => v.kind = t)
    (T := fun a v o w => ∃ items, Adjoins k t (a.call env) items ∧ w = plus v items ∧
      (FitsValue env.mode w → o = .ok (.ok (.value w))))
    (R := fun v w => ∃ more, w = plus v more)
    (fun v => ⟨[], (plus_nil v).symm⟩)
    (fun u v w h h' => by
      obtain ⟨a, rfl⟩ := h
      obtain ⟨b, rfl⟩ := h'
      exact ⟨a ++ b, plus_plus _ _ _⟩) hv0
    (by
      intro a n db v hi hm hro hkv hV
      obtain ⟨hr, x, hx⟩ := of_decide_eq_true hm
      obtain ⟨c, hcm, hmk⟩ := hi
      have hn := (hK c hcm a hmk).1
      obtain ⟨s', e1, e2⟩ := adjoins_execute (env := env) (ctrs := db.ctrs) hx hu hkv hV ht
      have hp : (perform env (a.call env) db).1 = .value (plus v x) := by simp only [perform, e1]
      have hq : (perform env (a.call env) db).2.keys = s' := by simp only [perform, e1]
      refine ⟨plus v x, ?_, by rw [plus_kind]; exact hV, x, hx, rfl, fun hd => ?_⟩
      · rcases Api.start_shape env a hn with ⟨e, h, -⟩ | ⟨-, r, g, hv, h, hg⟩
        · rw [hr] at h; cases h
        · rw [h, run_andThen]
          obtain ⟨o, ho⟩ := hg ((dispatch env r []).run db).1
          rw [ho]
          show ((dispatch env r []).run db).2.keys k = _
          rw [dispatch_keys (env := env) hv [] db hro (.inr (.inl ?_)), hq]
          · exact e2
          · rcases hx with ⟨hx, -⟩ | ⟨hx, -⟩
            · rw [hx.1]; simp
            · rw [hx]; simp
      · have := C65_answered env a db hn hr hro (by rw [hp]; exact hd)
        rw [this, hp]
        have ho : orderedValue env (plus v x) = plus v x := by
          cases v <;> first | rfl | (simp only [Value.kind] at hV; subst hV; exact absurd rfl ht)
        have hun : a.understood (plus v x) = some (.value (plus v x)) := by
          rcases hx with ⟨hx, -⟩ | ⟨hx, -⟩
          · have := hx.1; cases a <;> first | rfl | (simp [Api.call] at this)
          · cases a <;> first | rfl | (simp [Api.call] at hx)
        simp only [Api.given, ho, hun])
    (by
      rintro x v o w ⟨items, -, rfl, -⟩
      exact ⟨items, rfl⟩)
  refine ⟨got, stored, post, h1, fun s => ?_⟩
  obtain ⟨g1, g2, g3, g4⟩ := h2 s
  rw [Callers.pool_agents]
  refine ⟨fun i c t hi ht => (g1 i c t hi ht).caller, g2, g3, fun i c j a o items hi hans hr ha => ?_⟩
  have shape : ∀ {i : Nat} {c : Caller × Nat} {j : Nat} {a : Api} {o : Resolved} {x : List Bytes}, cs[i]? = some c →
      c.1.MadeAt (got s i) j a o → a.refusal = none → Adjoins k t (a.call env) x →
      post s i j = plus (pre s i j) x ∧ (FitsValue env.mode (post s i j) → o = .ok (.ok (.value (post s i j)))) := by
    intro i c j a o x hi hans hv ha
    obtain ⟨⟨x', t2, t4, t5⟩, -⟩ := g4 i c j a o hi hans (hmine hv ha)
    rw [adjoins_same t2 ha] at t4
    exact ⟨t4, t5⟩
  obtain ⟨-, f1, f2, f3, f4⟩ := g4 i c j a o hi hans (hmine hr ha)
  obtain ⟨e1, e2⟩ := shape hi hans hr ha
  refine ⟨e2, ?_, f2, fun s1 s2 hs hlt => ?_, fun i' c' j' a' o' x' hi' hans' hr' ha' => ?_⟩
  · obtain ⟨m, q⟩ := f1
    exact ⟨m, by rw [e1, q, plus_plus]⟩
  · obtain ⟨m, q⟩ := f3 s1 s2 hs hlt
    exact ⟨m, by rw [e1, q, plus_plus]⟩
  · obtain ⟨d1, -⟩ := shape hi' hans' hr' ha'
    obtain ⟨b1, b2⟩ := f4 i' c' j' a' o' hi' hans' (hmine hr' ha')
    refine ⟨fun x y => ?_, fun hne => ?_⟩
    · obtain ⟨m, q⟩ := b1 x y
      exact ⟨m, by rw [d1, q, plus_plus]⟩
    · rcases b2 hne with ⟨m, q⟩ | ⟨m, q⟩
      · exact .inl ⟨m, by rw [d1, q, plus_plus]⟩
      · exact .inr ⟨m, by rw [e1, q, plus_plus]⟩

/-- Two tasks share a list: the first appends two items, sets another key if that succeeded, and then reads the list; the
second appends an item and renames a key. In one execution, the second appends in between. -/
example : let c : Caller := fun past => match past with
      | [] => some (.append [1] (.list [[10], [11]]))
      | [.ok (.ok _)] => some (.set [2] (.bytes [7]))
      | [_, _] => some (.get [1])
      | _ => none
    let d : Caller := fun past => match past with
      | [] => some (.append [1] (.list [[20]]))
      | [_] => some (.rename [2] [3])
      | _ => none
    let db := sampleDb [([1], .list [[5]])]
    let cs := [(c, 3), (d, 2)]
    let env := sampleEnv .debug
    (∃ (got : List Nat → Nat → List Resolved) (stored : List Nat → Value) (shown : List Nat → Nat → Nat → Value), ∀ s,
      ((Callers.pool env cs db).exec s).db.keys [1] = some (stored s) ∧
      ∀ (i : Nat) c (j : Nat) o, cs[i]? = some c → c.1.MadeAt (got s i) j (.append [1] (.list [[20]])) o →
        (∃ more, shown s i j = plus (.list [[5]]) (more ++ [[20]])) ∧ (∃ more, stored s = plus (shown s i j) more) ∧
        (FitsValue .debug (shown s i j) → o = .ok (.ok (.value (shown s i j))))) ∧
    ((Callers.pool env cs db).exec (List.replicate 6 0 ++ List.replicate 12 1 ++ List.replicate 20 0)).threads.map
      (fun t => match t with | .done r => some r | _ => none) =
      [some (.ok [.ok (.ok (.value (.list [[5], [10], [11]]))), .ok (.ok (.value (.bytes [7]))),
        .ok (.ok (.value (.list [[5], [10], [11], [20]])))]),
        some (.ok [.ok (.ok (.value (.list [[5], [10], [11], [20]]))), .ok (.ok (.bytes [3]))])] := by
  intro c d db cs env
  have hmakes : ∀ e ∈ cs, ∀ a, Caller.Makes e.1 a → a = .append [1] (.list [[10], [11]]) ∨ a = .set [2] (.bytes [7]) ∨
      a = .get [1] ∨ a = .append [1] (.list [[20]]) ∨ a = .rename [2] [3] := by
    rintro e he a ⟨past, hp⟩
    simp only [cs, List.mem_cons, List.not_mem_nil, or_false] at he
    rcases he with rfl | rfl <;> simp only [c, d] at hp <;> split at hp <;>
      simp only [Option.some.injEq, reduceCtorEq] at hp <;> simp [← hp]
  have a1 : Adjoins [1] .list ((Api.append [1] (.list [[10], [11]])).call env) [[10], [11]] := .inr ⟨rfl, rfl, .inr rfl⟩
  have a2 : Adjoins [1] .list ((Api.append [1] (.list [[20]])).call env) [[20]] := .inr ⟨rfl, rfl, .inr rfl⟩
  have a3 : Adjoins [1] .list ((Api.get [1]).call env) [] := .inl ⟨⟨rfl, rfl, .inl rfl⟩, rfl⟩
  have hr : Roomy (cs.map (·.2)).sum db.ctrs := sampleDb_roomy _ _ (by decide)
  refine ⟨?_, by decide +kernel⟩
  obtain ⟨got, stored, shown, -, h⟩ := C173_contents_extend (env := env) (k := [1]) (cs := cs) (t := .list) (by decide) (by
      intro e he a ha
      rcases hmakes e he a ha with rfl | rfl | rfl | rfl | rfl
      · exact ⟨by decide, fun _ => .inl ⟨_, a1⟩⟩
      · exact ⟨by decide, fun _ => .inr (.inr ⟨by decide, by decide⟩)⟩
      · exact ⟨by decide, fun _ => .inl ⟨_, a3⟩⟩
      · exact ⟨by decide, fun _ => .inl ⟨_, a2⟩⟩
      · exact ⟨by decide, fun _ => .inr (.inr ⟨by decide, by decide⟩)⟩) db (.list [[5]]) (by decide +kernel) rfl (by decide) hr
  refine ⟨got, stored, shown, fun s => ⟨(h s).2.1, fun i c j o hi hm => ?_⟩⟩
  obtain ⟨g1, g2, g3, -⟩ := (h s).2.2.2 i c j _ o _ hi hm (by decide) a2
  exact ⟨g2, g3, g1⟩

end Hop
