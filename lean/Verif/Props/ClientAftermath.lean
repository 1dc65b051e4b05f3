import Verif.Props.ClientFinds
import Verif.Props.AfterPanic
import Verif.Props.ResponseReads

/-!
# What a call through an in-memory client leaves behind, by what it came to (C211)
-/

namespace Hop

open Prog Spec

/-! ## Responses with values are not read as errors -/

private theorem written_type {env : Env} {v : Value} {b : Bytes} (h : Response.writeValue env [] v = some b) : ∃ rest, b.drop 4 = valueCode v :: rest := by
  have four : ∀ n, ∃ a b c d, beBytes 4 n = [a, b, c, d] := by
    intro n
    have := beBytes_length 4 n
    generalize beBytes 4 n = l at this
    match l, this with
    | [a, b, c, d], _ => exact ⟨a, b, c, d, rfl⟩
  have two : ∀ n, ∃ a b, beBytes 2 n = [a, b] := by
    intro n
    have := beBytes_length 2 n
    generalize beBytes 2 n = l at this
    match l, this with
    | [a, b], _ => exact ⟨a, b, rfl⟩
  cases v with
  | boolean x =>
    simp only [Response.writeValue, Response.writeBool, Option.some.injEq] at h
    subst h
    obtain ⟨a, b, c, d, e⟩ := four 2
    rw [e]; exact ⟨_, rfl⟩
  | float x =>
    simp only [Response.writeValue, Response.writeFloat, Option.some.injEq] at h
    subst h
    obtain ⟨a, b, c, d, e⟩ := four 9
    rw [e]; exact ⟨_, rfl⟩
  | integer x =>
    simp only [Response.writeValue, Response.writeInt, Option.some.injEq] at h
    subst h
    obtain ⟨a, b, c, d, e⟩ := four 9
    rw [e]; exact ⟨_, rfl⟩
  | bytes x =>
    simp only [Response.writeValue, Response.writeBytes, Option.bind_eq_bind, Option.bind_eq_some_iff] at h
    obtain ⟨n, -, h⟩ := h
    cases h
    obtain ⟨a, b, c, d, e⟩ := four n
    rw [e]; exact ⟨_, rfl⟩
  | string x =>
    simp only [Response.writeValue, Response.writeStr, Option.bind_eq_bind, Option.bind_eq_some_iff] at h
    obtain ⟨n, -, h⟩ := h
    cases h
    obtain ⟨a, b, c, d, e⟩ := four n
    rw [e]; exact ⟨_, rfl⟩
  | map x =>
    simp only [Response.writeValue, Response.writeMap, Response.writeMapIter, Option.bind_eq_bind, Option.bind_eq_some_iff] at h
    obtain ⟨n, -, h⟩ := h
    cases h
    obtain ⟨a, b, c, d, e⟩ := four n
    rw [e]; exact ⟨_, rfl⟩
  | set x =>
    simp only [Response.writeValue, Response.writeSet, Response.writeSetIter, Option.bind_eq_bind, Option.bind_eq_some_iff] at h
    obtain ⟨n, -, h⟩ := h
    cases h
    obtain ⟨a, b, c, d, e⟩ := four n
    rw [e]; exact ⟨_, rfl⟩
  | list x =>
    simp only [Response.writeValue, Response.writeList, Option.bind_eq_bind, Option.bind_eq_some_iff] at h
    obtain ⟨y, hy, h⟩ := h
    rw [← List.append_nil (([] : Bytes) ++ [0, 0, 0, 0] ++ [ResponseType.list.toByte] ++ [0] ++ [0]), writeListLoop_append] at hy
    obtain ⟨z, -, rfl⟩ := Option.map_eq_some_iff.mp hy
    cases h
    obtain ⟨a, b, c, d, e⟩ := four z.2.1
    obtain ⟨a', b', e'⟩ := two z.2.2
    simp only [e, e', patch, ResponseType.toByte]
    exact ⟨_, rfl⟩

private theorem read_value {env : Env} {v : Value} {b : Bytes} (h : Response.writeValue env [] v = some b) {r : Response}
    (hr : (RespParser.feed env.mode .new b).1 = .concluded r) : ∃ w, r = .value w := by
  obtain ⟨rest, hb⟩ := written_type h
  have hc := ((C180_concludes env.mode b r).mp ⟨r, hr, by cases r <;> first | exact same_self _ | rfl⟩).2.2
  rw [hb] at hc
  generalize hx : valueCode v :: rest = x at hc
  cases hc with
  | parseError e tail => cases v <;> simp [valueCode] at hx
  | dispatchError e tail => cases v <;> simp [valueCode] at hx
  | _ => exact ⟨_, rfl⟩

/-! ## What a call comes to, and what it leaves -/

/-- What a call that is not refused comes to, by what the engine makes of the command. -/
private inductive Comes (env : Env) (a : Api) (db : Db) : Resolved → Db → Prop
  | refused (d : DispatchError) : (perform env (a.call env) db).1 = .error d →
      Comes env a db (.ok (.error (.runningCommand d))) (perform env (a.call env) db).2
  | resolved (v : Value) (g : Got) : (perform env (a.call env) db).1 = .value v → Comes env a db (.ok (.ok g)) (perform env (a.call env) db).2
  | unread (v : Value) : (perform env (a.call env) db).1 = .value v → ¬ FitsValue env.mode v →
      Comes env a db .panic (perform env (a.call env) db).2
  | crashed (r : Request) : Views r (a.call env).cmd (a.call env).kt (a.call env).args → ((dispatch env r []).run db).1 = .panic →
      Comes env a db .panic ((dispatch env r []).run db).2

private theorem comes (env : Env) (a : Api) (db : Db) (hn : (a.call env).args.length ≤ 255) (hf : a.refusal = none) (hr : Roomy 1 db.ctrs) :
    Comes env a db ((a.start env).run db).1 ((a.start env).run db).2 := by
  cases hp : (perform env (a.call env) db).1 with
  | error d =>
    rw [C65_answered env a db hn hf hr (by rw [hp]; trivial), hp]
    exact .refused d hp
  | crash =>
    obtain ⟨r, f, hv, hs, -⟩ := sends_awake env a hn hf
    obtain ⟨-, -, -, h4⟩ := dispatch_eq (env := env) hv [] db hr
    have hq : ((dispatch env r []).run db).1 = .panic := by
      rw [h4 _ (Prod.ext hp rfl)]
    have := Comes.crashed (env := env) (a := a) (db := db) r hv hq
    rw [hs, run_andThen, hq]
    exact this
  | value v =>
    by_cases hfit : FitsValue env.mode v
    · rw [C65_answered env a db hn hf hr (by rw [hp]; exact hfit), hp]
      have hshape := C65_shape env a db v hp
      simp only [Api.given]
      cases hu : a.understood (orderedValue env v) with
      | none => exact absurd hu hshape
      | some g => exact .resolved v g hp
    · have hk : ∀ k, a ≠ .keyType k := by
        intro k hk
        obtain ⟨t, ht⟩ := Api.keyType_expected env a db v hp k hk
        cases v <;> simp [orderedValue] at ht
        exact hfit trivial
      obtain ⟨b, f, hv, hs, hread, -⟩ := sends_done env a hn hf
      rw [hs, bind_send, run_andThen]
      obtain ⟨h1, h2, -, -⟩ := dispatch_eq (env := env) hv [] db hr
      have hx : execute env db.ctrs (a.call env).cmd (a.call env).kt (a.call env).args db.keys = (.value v, (perform env (a.call env) db).2.keys) :=
        Prod.ext hp rfl
      have hp2 : (perform env (a.call env) db).2 =
          { keys := (perform env (a.call env) db).2.keys, ctrs := counted db.ctrs .commandsSuccessful } := by
        simp only [perform] at hp ⊢
        simp only [hp, tally]
      cases hw : Response.writeValue env [] v with
      | none =>
        have hq := (h2 v _ hx hw).1
        have := Comes.crashed (env := env) (a := a) (db := db) _ hv hq
        rw [hq]
        exact this
      | some out =>
        rw [h1 v _ out hx hw, ← hp2]
        simp only [readOutcome]
        have hstuck := RespParser.feed_not_stuck env.mode .new out
        cases hb : (RespParser.feed env.mode .new out).1 with
        | concluded x =>
          obtain ⟨w, rfl⟩ := read_value hw hb
          show Comes env a db ((f w).run _).1 ((f w).run _).2
          rw [hread w fun k h => absurd h (hk k)]
          unfold reading
          split
          · exact .resolved v _ hp
          · exact .unread v hp hfit
        | stuck => exact absurd hb hstuck
        | _ => exact .unread v hp hfit

/-- An error that is not a refusal is that of the command. -/
theorem came_to (env : Env) (a : Api) (db : Db) (hn : (a.call env).args.length ≤ 255) (hf : a.refusal = none) (hr : Roomy 1 db.ctrs)
    {e : Client.Error} (h : ((a.start env).run db).1 = .ok (.error e)) : ∃ d, (perform env (a.call env) db).1 = .error d := by
  have hc := comes env a db hn hf hr
  rw [h] at hc
  generalize ((a.start env).run db).2 = d' at hc
  cases hc with
  | refused d hp => exact ⟨d, hp⟩

private theorem released (env : Env) {r : Request} {c : Call} (hv : Views r c.cmd c.kt c.args) (db : Db) (hr : Roomy 1 db.ctrs) :
    ((dispatch (builtAs env .release) r []).run db).2.keys = (perform (builtAs env .release) c db).2.keys := by
  obtain ⟨h1, -, h3, h4⟩ := dispatch_eq (env := builtAs env .release) hv [] db hr
  cases hx : execute (builtAs env .release) db.ctrs c.cmd c.kt c.args db.keys with
  | mk o s =>
    have : (perform (builtAs env .release) c db).2.keys = s := by simp only [perform, hx]
    rw [this]
    cases o with
    | error e => rw [h3 e s hx]
    | crash => rw [h4 s hx]
    | value v =>
      obtain ⟨b, hb⟩ := Option.ne_none_iff_exists'.mp (writeValue_release (builtAs env .release) rfl [] v)
      rw [h1 v s b hx hb]

/-! ## C211 -/

/-- C211: a call through an in-memory client that resolves to an error has left every entry as it was, except for an `increment` or
`decrement` told that a free and usable key is a float: it resolves to an error about the type and has left an integer 0 there. -/
theorem C211_error (env : Env) (a : Api) (db : Db) (hn : (a.call env).args.length ≤ 255) (hr : Roomy 1 db.ctrs) (e : Client.Error)
    (h : ((a.start env).run db).1 = .ok (.error e)) :
    (((a.start env).run db).2.keys ≠ db.keys ↔ ∃ k, (a = .increment k (some .float) ∨ a = .decrement k (some .float)) ∧ k ≠ [] ∧
      db.keys k = none ∧ ¬ reserved k) ∧
    ∀ k, (a = .increment k (some .float) ∨ a = .decrement k (some .float)) → k ≠ [] → db.keys k = none → ¬ reserved k →
      e = .runningCommand .keyTypeDifferent ∧ Replaced db k (some (.integer 0)) ((a.start env).run db).2 := by
  cases hf : a.refusal with
  | some e' =>
    have hno : ∀ k, (a = .increment k (some .float) ∨ a = .decrement k (some .float)) → k = [] := by
      rintro k (rfl | rfl) <;> (simp only [Api.refusal] at hf; split at hf <;> simp_all)
    rw [C65_refused env a db hn hf]
    exact ⟨⟨fun h => absurd rfl h, fun ⟨k, h1, h2, _⟩ => absurd (hno k h1) h2⟩, fun k h1 h2 => absurd (hno k h1) h2⟩
  | none =>
    have hc := comes env a db hn hf hr
    rw [h] at hc
    generalize ((a.start env).run db).2 = d at hc ⊢
    cases hc with
    | refused x hp =>
      obtain ⟨r, f, hv, hs, -⟩ := sends_awake env a hn hf
      obtain ⟨-, -, h3, -⟩ := dispatch_eq (env := env) hv [] db hr
      have hx : execute env db.ctrs (a.call env).cmd (a.call env).kt (a.call env).args db.keys = (.error x, (perform env (a.call env) db).2.keys) :=
        Prod.ext hp rfl
      obtain ⟨g1, -⟩ := C53_error_changes_iff hv hr (h3 x _ hx)
      have hk : ∀ k more, (a.call env).args = k :: more → ((a.call env).cmd = .increment ∨ (a.call env).cmd = .decrement) →
          (a.call env).kt = some .float → (a = .increment k (some .float) ∨ a = .decrement k (some .float)) ∧ k ≠ [] := by
        intro k more h1 h2 h3
        cases a <;> simp only [Api.call, reduceCtorEq, or_false, false_or, or_self] at h2
        all_goals
          simp only [Api.call, List.cons.injEq] at h1 h3
          obtain ⟨rfl, -⟩ := h1
          subst h3
          refine ⟨by simp, ?_⟩
          rintro rfl
          simp [Api.refusal] at hf
      have hfree : ∀ k, k ≠ [] → (¬ unusable env.mode k ↔ ¬ reserved k) := by
        intro k hk
        simp [unusable, hk]
      refine ⟨g1.trans ⟨?_, ?_⟩, ?_⟩
      · rintro ⟨k, more, h1, h2, h3, h4, h5⟩
        obtain ⟨h6, h7⟩ := hk k more h1 h2 h3
        exact ⟨k, h6, h7, h4, (hfree k h7).mp h5⟩
      · rintro ⟨k, rfl | rfl, h2, h6, h4⟩
        · exact ⟨k, [], rfl, .inl rfl, rfl, h6, (hfree k h2).mpr h4⟩
        · exact ⟨k, [], rfl, .inr rfl, rfl, h6, (hfree k h2).mpr h4⟩
      · intro k h1 h2 h7 h4
        have hne := g1.mpr (by
          rcases h1 with rfl | rfl
          · exact ⟨k, [], rfl, .inl rfl, rfl, h7, (hfree k h2).mpr h4⟩
          · exact ⟨k, [], rfl, .inr rfl, rfl, h7, (hfree k h2).mpr h4⟩)
        rcases execute_error hx with h | ⟨k', more, h5, -, -, -, -, rfl, h6⟩
        · exact absurd h hne
        · have : k' = k := by
            rcases h1 with rfl | rfl <;> (simp only [Api.call, List.cons.injEq] at h5; exact h5.1.symm)
          subst this
          refine ⟨rfl, fun x => ?_⟩
          rw [h6]
          simp only [Store.put]

/-- C211: a call that resolves to a value has left exactly what the command it stands for leaves. -/
theorem C211_value (env : Env) (a : Api) (db : Db) (hn : (a.call env).args.length ≤ 255) (hr : Roomy 1 db.ctrs) (g : Got)
    (h : ((a.start env).run db).1 = .ok (.ok g)) :
    ∃ v, (perform env (a.call env) db).1 = .value v ∧ ((a.start env).run db).2 = (perform env (a.call env) db).2 := by
  cases hf : a.refusal with
  | some e => rw [C65_refused env a db hn hf] at h; cases h
  | none =>
    have hc := comes env a db hn hf hr
    rw [h] at hc
    generalize ((a.start env).run db).2 = d at hc ⊢
    cases hc with
    | resolved v g hp => exact ⟨v, hp, rfl⟩

/-- The command was carried out, and what it answered is not what a response can carry. -/
def Spec.CarriedOut (env : Env) (a : Api) (db db' : Db) : Prop :=
  ∃ v, (perform env (a.call env) db).1 = .value v ∧ ¬ FitsValue env.mode v ∧ db' = (perform env (a.call env) db).2

/-- C211: a call that panics in a release build was either about an internal key, which is left alone or, by `set`, removed with nothing
else touched, or it was carried out in full and only its answer did not come back. -/
theorem C211_panic_release (env : Env) (hm : env.mode = .release) (a : Api) (db : Db) (hn : (a.call env).args.length ≤ 255)
    (hr : Roomy 1 db.ctrs) (h : ((a.start env).run db).1 = .panic) :
    (((a.start env).run db).2.ctrs = db.ctrs ∧ ∃ k, (a.call env).args[0]? = some k ∧ reserved k ∧
      ((a.call env).cmd ∈ valueCommands ∧ ((a.start env).run db).2.keys = db.keys ∨
        (a.call env).cmd = .set ∧ Replaced db k none ((a.start env).run db).2)) ∨
    CarriedOut env a db ((a.start env).run db).2 := by
  cases hf : a.refusal with
  | some e => rw [C65_refused env a db hn hf] at h; cases h
  | none =>
    have hc := comes env a db hn hf hr
    rw [h] at hc
    generalize ((a.start env).run db).2 = d at hc ⊢
    have hb : builtAs env .release = env := by cases env; simp only at hm; subst hm; rfl
    cases hc with
    | unread v hp hfit => exact .inr ⟨v, hp, hfit, rfl⟩
    | crashed r hv hq =>
      have := C206_release env r [] db (by rw [hb]; exact hq)
      rw [hb] at this
      obtain ⟨g1, k, g2, g3, g4⟩ := this
      refine .inl ⟨g1, k, ?_, g3, ?_⟩
      · rw [← hv.arg]; exact g2
      · rw [← hv.command]; exact g4

/-- C211: a call that panics in a debug build has counted nothing and left the entries as they were, or as the command leaves them in a
release build, or, by `set`, with nothing, an empty map or an empty set in the place of what its key held; or it was carried out in full
and only its answer did not come back. -/
theorem C211_panic_debug (env : Env) (hm : env.mode = .debug) (a : Api) (db : Db) (hn : (a.call env).args.length ≤ 255)
    (hr : Roomy 1 db.ctrs) (h : ((a.start env).run db).1 = .panic) :
    ((∀ m, (((a.start env).run db).2.ctrs m).getD 0 = (db.ctrs m).getD 0) ∧
      (((a.start env).run db).2.keys = db.keys ∨
        ((a.start env).run db).2.keys = (perform (builtAs env .release) (a.call env) db).2.keys ∨
        ((a.call env).cmd = .set ∧ ∃ k, (a.call env).args[0]? = some k ∧ ∃ o, (o = none ∨ o = some (.map []) ∨ o = some (.set [])) ∧
          Replaced db k o ((a.start env).run db).2))) ∨
    CarriedOut env a db ((a.start env).run db).2 := by
  cases hf : a.refusal with
  | some e => rw [C65_refused env a db hn hf] at h; cases h
  | none =>
    have hc := comes env a db hn hf hr
    rw [h] at hc
    generalize ((a.start env).run db).2 = d at hc ⊢
    have hb : builtAs env .debug = env := by cases env; simp only at hm; subst hm; rfl
    cases hc with
    | unread v hp hfit => exact .inr ⟨v, hp, hfit, rfl⟩
    | crashed r hv hq =>
      have := C206_debug env r [] db (by rw [hb]; exact hq)
      rw [hb] at this
      obtain ⟨g1, g2⟩ := this
      refine .inl ⟨g1, ?_⟩
      rcases g2 with g2 | g2 | ⟨g2, k, g3, g4⟩
      · exact .inl g2
      · exact .inr (.inl (g2.trans (released env hv db hr)))
      · exact .inr (.inr ⟨by rw [← hv.command]; exact g2, k, by rw [← hv.arg]; exact g3, g4⟩)

/-- Beside C211: incrementing a free key as a float resolves to an error and has left an integer 0; the same of a key that holds
something leaves it. -/
example : (let a := Api.increment [107] (some .float)
     let o := (a.start (sampleEnv .release)).run (sampleDb [])
     o.1 = .ok (.error (.runningCommand .keyTypeDifferent)) ∧ o.2.keys [107] = some (.integer 0)) ∧
    (let a := Api.increment [107] (some .float)
     let o := (a.start (sampleEnv .release)).run (sampleDb [([107], .bytes [1])])
     o.1 = .ok (.error (.runningCommand .keyTypeDifferent)) ∧ o.2.keys [107] = some (.bytes [1])) := by
  decide +kernel

/-- Beside C211: a `delete` that resolves to the key has deleted it. -/
example : (let a := Api.delete [107]
     let o := (a.start (sampleEnv .release)).run (sampleDb [([107], .bytes [1])])
     o.1 = .ok (.ok (.bytes [107])) ∧ o.2.keys [107] = none) := by
  decide +kernel

/-- Beside C211: in a release build, getting an internal key panics and leaves it, setting it panics and has removed it, and asking a map
without entries for its keys panics though it was carried out and counted. -/
example :
    (let d := sampleDb [(ascii "__hop__:a", .integer 5), ([1], .map [])]
     let run := fun (a : Api) => (a.start (sampleEnv .release)).run d
     (run (.get (ascii "__hop__:a"))).1 = .panic ∧ (run (.get (ascii "__hop__:a"))).2.keys (ascii "__hop__:a") = some (.integer 5) ∧
     (run (.set (ascii "__hop__:a") (.bytes [7]))).1 = .panic ∧ (run (.set (ascii "__hop__:a") (.bytes [7]))).2.keys (ascii "__hop__:a") = none ∧
     (run (.keys [1])).1 = .panic ∧ (run (.keys [1])).2.ctrs .commandsSuccessful = some 1 ∧
     (perform (sampleEnv .release) ((Api.keys [1]).call (sampleEnv .release)) d).1 = .value (.list [])) := by
  decide +kernel

/-- Beside C211: in a debug build, incrementing the largest number panics and leaves it and counts nothing. -/
example :
    (let d := sampleDb [([1], .integer (Int64.ofInt (2 ^ 63 - 1)))]
     let o := ((Api.increment [1] none).start (sampleEnv .debug)).run d
     o.1 = .panic ∧ o.2.keys [1] = some (.integer (Int64.ofInt (2 ^ 63 - 1))) ∧ o.2.ctrs .commandsSuccessful = none) := by
  decide +kernel

end Hop
