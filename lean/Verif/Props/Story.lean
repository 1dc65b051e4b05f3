import Verif.Spec.Story
import Verif.Props.Moving

/-! # C124: where stored values come from -/

namespace Hop

open Spec Prog

/-- A value has its place at a key or in the hand of a thread. -/
abbrev Seat := Bytes ⊕ Nat

/-- A story for the value in each seat. -/
structure Ledger (env : Env) (cs : List Call) (before : Store) (shelf : Seat → Option Value) (over : Nat → Prop)
    (story : Seat → Story) : Prop where
  leads : ∀ x v, shelf x = some v → (story x).leads env cs before = some v
  once : ∀ x, shelf x ≠ none → (story x).deeds.Nodup
  apart : ∀ x y, shelf x ≠ none → shelf y ≠ none → x ≠ y → ∀ i ∈ (story x).deeds, i ∉ (story y).deeds
  single : ∀ x y b, shelf x ≠ none → shelf y ≠ none → (story x).base = .initial b → (story y).base = .initial b → x = y
  fine : ∀ x i, shelf x ≠ none → i ∈ (story x).deeds → over i
  made : ∀ x t, shelf x ≠ none → (story x).base = .fresh t → ∃ c ∈ cs, Makes c t
  home : ∀ k, shelf (.inl k) ≠ none → (∀ c ∈ cs, target c ≠ some k) → (∀ b, (story (.inl k)).base = .initial b → b = k) ∧
    (∀ t, (story (.inl k)).base = .fresh t → ∃ c ∈ cs, Makes c t ∧ c.args[0]? = some k) ∧
    ∀ i ∈ (story (.inl k)).deeds, ∃ c, cs[i]? = some c ∧ c.args[0]? = some k

variable {env : Env} {cs : List Call} {before : Store} {shelf shelf' : Seat → Option Value} {over over' : Nat → Prop}
  {story : Seat → Story}

/-- Nothing new is stored. -/
theorem Ledger.less (h : Ledger env cs before shelf over story) (hs : ∀ x, shelf' x = shelf x ∨ shelf' x = none)
    (ho : ∀ i, over i → over' i) : Ledger env cs before shelf' over' story := by
  have hs' : ∀ x, shelf' x ≠ none → shelf' x = shelf x ∧ shelf x ≠ none := by
    intro x hx
    rcases hs x with e | e
    · exact ⟨e, e ▸ hx⟩
    · exact absurd e hx
  refine ⟨?_, ?_, ?_, ?_, ?_, ?_, ?_⟩
  · intro x v hv
    have := hs' x (by rw [hv]; simp)
    exact h.leads x v (this.1 ▸ hv)
  · intro x hx; exact h.once x (hs' x hx).2
  · intro x y hx hy; exact h.apart x y (hs' x hx).2 (hs' y hy).2
  · intro x y b hx hy; exact h.single x y b (hs' x hx).2 (hs' y hy).2
  · intro x i hx hi; exact ho i (h.fine x i (hs' x hx).2 hi)
  · intro x t hx; exact h.made x t (hs' x hx).2
  · intro k hk; exact h.home k (hs' _ hk).2

/-- The value in seat `x` is replaced, and its story by `st`. -/
def retold (story : Seat → Story) (x : Seat) (st : Story) : Seat → Story := fun y => if y = x then st else story y

theorem retold_self (story : Seat → Story) (x : Seat) (st : Story) : retold story x st x = st := if_pos rfl
theorem retold_ne (story : Seat → Story) {x y : Seat} (st : Story) (h : y ≠ x) : retold story x st y = story y := if_neg h

theorem Ledger.replace (h : Ledger env cs before shelf over story) (ho : ∀ i, over i → over' i) (x : Seat) (st : Story) (v : Value)
    (hx : shelf' x = some v) (hs : ∀ y, y ≠ x → shelf' y = shelf y ∨ shelf' y = none)
    (h1 : st.leads env cs before = some v) (h2 : st.deeds.Nodup)
    (h3 : ∀ y, y ≠ x → shelf' y ≠ none → ∀ i ∈ st.deeds, i ∉ (story y).deeds)
    (h4 : ∀ y b, y ≠ x → shelf' y ≠ none → st.base = .initial b → (story y).base ≠ .initial b)
    (h5 : ∀ i ∈ st.deeds, over' i) (h7 : ∀ t, st.base = .fresh t → ∃ c ∈ cs, Makes c t)
    (h6 : ∀ k, x = .inl k → (∀ c ∈ cs, target c ≠ some k) → (∀ b, st.base = .initial b → b = k) ∧
      (∀ t, st.base = .fresh t → ∃ c ∈ cs, Makes c t ∧ c.args[0]? = some k) ∧
      ∀ i ∈ st.deeds, ∃ c, cs[i]? = some c ∧ c.args[0]? = some k) :
    Ledger env cs before shelf' over' (retold story x st) := by
  have hs' : ∀ y, y ≠ x → shelf' y ≠ none → shelf' y = shelf y ∧ shelf y ≠ none := by
    intro y hy hx
    rcases hs y hy with e | e
    · exact ⟨e, e ▸ hx⟩
    · exact absurd e hx
  refine ⟨?_, ?_, ?_, ?_, ?_, ?_, ?_⟩
  · intro y w hw
    by_cases e : y = x
    · subst e
      rw [hx] at hw
      cases hw
      rw [retold_self]; exact h1
    · rw [retold_ne _ _ e]
      exact h.leads y w ((hs' y e (by rw [hw]; simp)).1 ▸ hw)
  · intro y hy
    by_cases e : y = x
    · subst e; rw [retold_self]; exact h2
    · rw [retold_ne _ _ e]; exact h.once y (hs' y e hy).2
  · intro y z hy hz hne i hi
    by_cases e : y = x
    · subst e
      rw [retold_self] at hi
      rw [retold_ne _ _ (Ne.symm hne)]
      exact h3 z (Ne.symm hne) hz i hi
    · rw [retold_ne _ _ e] at hi
      by_cases e' : z = x
      · subst e'
        rw [retold_self]
        intro hi'
        exact h3 y e hy i hi' hi
      · rw [retold_ne _ _ e']
        exact h.apart y z (hs' y e hy).2 (hs' z e' hz).2 hne i hi
  · intro y z b hy hz hb hb'
    by_cases e : y = x
    · by_cases e' : z = x
      · rw [e, e']
      · subst e
        rw [retold_self] at hb
        rw [retold_ne _ _ e'] at hb'
        exact absurd hb' (h4 z b e' hz hb)
    · rw [retold_ne _ _ e] at hb
      by_cases e' : z = x
      · subst e'
        rw [retold_self] at hb'
        exact absurd hb (h4 y b e hy hb')
      · rw [retold_ne _ _ e'] at hb'
        exact h.single y z b (hs' y e hy).2 (hs' z e' hz).2 hb hb'
  · intro y i hy hi
    by_cases e : y = x
    · subst e; rw [retold_self] at hi; exact h5 i hi
    · rw [retold_ne _ _ e] at hi; exact ho i (h.fine y i (hs' y e hy).2 hi)
  · intro y t hy
    by_cases e : y = x
    · subst e; rw [retold_self]; exact h7 t
    · rw [retold_ne _ _ e]; exact h.made y t (hs' y e hy).2
  · intro k hk ht
    by_cases e : Sum.inl k = x
    · rw [← e, retold_self]; exact h6 k e.symm ht
    · rw [retold_ne _ _ e]; exact h.home k (hs' _ e hk).2 ht

/-- A thread that executes call `c`: it looks, removes, creates default values, has the effect of `c` on the value of
its key at most once, and then does nothing more to keys; or it picks up the value of a key (second argument) and puts
it down at the target of a Rename. `F` describes threads that will not report an error. -/
def Works (env : Env) (c : Call) (F : Prog Bytes → Prop) : Option Value → Prog Bytes → Prop
  | none, .done _ => True
  | some _, .done _ => False
  | none, .onCtr _ _ next => ∀ o, Works env c F none (next o)
  | some _, .onCtr _ _ _ => False
  | some v, .onKey b upd next => target c = some b ∧ (∀ o, upd o = some v) ∧ ∀ o, Works env c F none (next o)
  | none, .onKey k upd next =>
    ((∀ o, upd o = o) ∧ ∀ o, Works env c F none (next o)) ∨
    ((∀ o, upd o = none) ∧ ∀ o, Works env c F none (next o)) ∨
    ((∃ t, Makes c t ∧ c.args[0]? = some k ∧ ∀ o, upd o = some (Value.default t)) ∧ ∀ o, Works env c F none (next o)) ∨
    ((c.args[0]? = some k ∧ ∃ t, Makes c t) ∧ upd none = none ∧ Works env c F none (next none) ∧
      ∀ v, Works env c F none (next (some v)) ∧
        (upd (some v) = some v ∨ ∃ w, upd (some v) = some w ∧ effect env c v = some w ∧ F (next (some v)))) ∨
    ((∀ o, upd o = none) ∧ Works env c F none (next none) ∧ ∀ v, Works env c F (some v) (next (some v)))

theorem works_writes {c : Call} {F : Prog Bytes → Prop} {p : Prog Bytes} (h : Writes (fun _ => False) p) :
    Works env c F none p := by
  induction p with
  | done r => trivial
  | onKey k upd next ih => exact Or.inl ⟨fun o => h.1.resolve_left id o, fun o => ih o (h.2 o)⟩
  | onCtr m upd next ih => exact fun o => ih o (h o)

/-- The end of a command that does not report an error. -/
def Good (p : Prog Bytes) : Prop := ∃ r, (∀ e, r ≠ .err e) ∧ p = .done r

theorem Works.andThen {c : Call} {hand : Option Value} {p : Prog Bytes} (h : Works env c Good hand p) :
    Works env c Over hand (p.andThen (countOutcome env)) := by
  induction p generalizing hand with
  | done r =>
    cases hand with
    | none => exact works_writes (Writes.countOutcome _)
    | some v => exact absurd h id
  | onCtr m upd next ih =>
    cases hand with
    | none => exact fun o => ih o (h o)
    | some v => exact absurd h id
  | onKey k upd next ih =>
    cases hand with
    | some v => exact ⟨h.1, h.2.1, fun o => ih o (h.2.2 o)⟩
    | none =>
      rcases h with ⟨h1, h2⟩ | ⟨h1, h2⟩ | ⟨h1, h2⟩ | ⟨h1, h2, h3, h4⟩ | ⟨h1, h2, h3⟩
      · exact Or.inl ⟨h1, fun o => ih o (h2 o)⟩
      · exact Or.inr (Or.inl ⟨h1, fun o => ih o (h2 o)⟩)
      · exact Or.inr (Or.inr (Or.inl ⟨h1, fun o => ih o (h2 o)⟩))
      · refine Or.inr (Or.inr (Or.inr (Or.inl ⟨h1, h2, ih _ h3, fun v => ⟨ih _ (h4 v).1, ?_⟩⟩)))
        rcases (h4 v).2 with h | ⟨w, h5, h6, r, h7, h8⟩
        · exact Or.inl h
        · refine Or.inr ⟨w, h5, h6, r, h7, ?_⟩
          dsimp only
          rw [h8]
          exact ends_count env r
      · exact Or.inr (Or.inr (Or.inr (Or.inr ⟨h1, ih _ h2, fun v => ih _ (h3 v)⟩)))

section commands

variable {c : Call} {k : Bytes}

theorem works_orErr {β : Type} {o : Option β} {e : DispatchError} {f : β → Prog Bytes}
    (h : ∀ a, o = some a → Works env c Good none (f a)) : Works env c Good none (orErr o e f) := by
  cases o with
  | none => trivial
  | some a => exact h a rfl

theorem works_resolve {r : Request} {d : KeyType} {next : KeyType → Prog Bytes}
    (hk : r.keyType = c.kt) (h : ∀ t, (c.kt = none ∨ c.kt = some t) → Works env c Good none (next t)) :
    Works env c Good none (resolveKeyType r k d next) := by
  unfold resolveKeyType
  rw [hk]
  cases hkt : c.kt with
  | some t => exact h t (Or.inr hkt)
  | none => exact Or.inl ⟨fun _ => rfl, fun o => h _ (Or.inl hkt)⟩

/-- The use of a guard: the body does nothing, or what the call is specified to do, without reporting an error. -/
theorem works_keyOrInsertWith {t : KeyType} {body : Value → Value × Outcome DispatchError Bytes} (hk : c.args[0]? = some k)
    (hm : Makes c t)
    (hb : ¬ unusable env.mode k → ∀ v, (body v).1 = v ∨ (effect env c v = some (body v).1 ∧ ∀ e, (body v).2 ≠ .err e)) :
    Works env c Good none (keyOrInsertWith env k (Value.default t) body) := by
  unfold keyOrInsertWith
  split
  · trivial
  · split
    · trivial
    · rename_i h1 h2
      have hu : ¬ unusable env.mode k := by
        rintro (h | h)
        · exact h1 ((isInternal_iff k).mpr h)
        · exact h2 h
      generalize env.spins + 2 = n
      induction n with
      | zero => trivial
      | succ n ih =>
        refine Or.inr (Or.inr (Or.inr (Or.inl ⟨⟨hk, t, hm⟩, rfl, Or.inr (Or.inr (Or.inl ⟨⟨t, hm, hk, fun _ => rfl⟩, fun _ => ih⟩)), fun v =>
          ⟨trivial, ?_⟩⟩)))
        rcases hb hu v with h | ⟨h, h'⟩
        · left; dsimp only; rw [Option.map_some, h]
        · exact Or.inr ⟨_, rfl, h, _, h', rfl⟩

/-- The store of one key. -/
def alone (k : Bytes) (v : Value) : Store := fun k' => if k' = k then some v else none

theorem alone_at (k : Bytes) (v : Value) : alone k v k = some v := if_pos rfl

theorem put_at (s : Store) (k : Bytes) (v : Option Value) : s.put k v k = v := by simp [Store.put]

theorem effect_cons {cmd : CommandId} {kt : Option KeyType} {items : List Bytes} {v w x : Value}
    (h : execute env (fun _ => none) cmd kt (k :: items) (alone k v) = (.value x, Store.put (alone k v) k (some w))) :
    effect env ⟨cmd, kt, k :: items⟩ v = some w := by
  unfold alone at h
  simp only [effect, List.getElem?_cons_zero, h, put_at]

theorem ofOption_ne_err {o : Option Bytes} (e : DispatchError) : (Outcome.ofOption o : Outcome DispatchError Bytes) ≠ .err e := by
  cases o <;> simp [Outcome.ofOption]

theorem works_int {cmd : CommandId} {kt : Option KeyType} {items : List Bytes} (a : Int64) (n : Int) (resp : Bytes)
    (hn : ∀ s, addInteger env.mode k a.toInt s = addInteger env.mode k n s)
    (he : ∀ s, execute env (fun _ => none) cmd kt (k :: items) s = addInteger env.mode k n s)
    (hm : Makes ⟨cmd, kt, k :: items⟩ .integer) :
    Works env ⟨cmd, kt, k :: items⟩ Good none (incrementIntBy env k a resp) := by
  refine works_keyOrInsertWith rfl hm fun hu v => ?_
  cases v with
  | integer i =>
    dsimp only
    rw [addI64_eq]
    split
    · rename_i j hj
      split at hj
      · cases hj
        right
        rename_i hr
        refine ⟨?_, by simp⟩
        refine effect_cons (x := .integer (Int64.ofInt (i.toInt + a.toInt))) ?_
        rw [he, ← hn, addInteger, if_neg hu, alone_at]
        simp only [Option.getD_some, if_pos hr]
      · cases hj
    · exact Or.inl rfl
  | _ => exact Or.inl rfl

theorem works_float {cmd : CommandId} {kt : Option KeyType} {items : List Bytes} (a : F64) (resp : Bytes)
    (he : ∀ s, execute env (fun _ => none) cmd kt (k :: items) s = addFloat env.mode (fun f => env.fadd f a) k s)
    (hm : Makes ⟨cmd, kt, k :: items⟩ .integer) :
    Works env ⟨cmd, kt, k :: items⟩ Good none (incrementFloatBy env k a resp) := by
  refine works_keyOrInsertWith rfl hm fun hu v => ?_
  cases v with
  | float f =>
    right
    refine ⟨?_, by simp⟩
    refine effect_cons (x := .float (env.fadd f a)) ?_
    rw [he, addFloat, if_neg hu, alone_at]
  | _ => exact Or.inl rfl

/-- Set and Append on a value of the type the command works with. -/
theorem effect_set {kt : Option KeyType} {a : Bytes} {items : List Bytes} {v w : Value} (hu : ¬ unusable env.mode k)
    (ht : kt = none ∨ kt = some v.kind) (hp : parseValue v.kind (a :: items) = some w) :
    effect env ⟨.set, kt, k :: a :: items⟩ v = some w := by
  have he : effectiveType kt (some v) .bytes = v.kind := by
    rcases ht with rfl | rfl <;> rfl
  refine effect_cons (x := w) ?_
  simp only [execute, alone_at, he, hp, if_neg hu]

theorem effect_append {kt : Option KeyType} {items : List Bytes} {v w : Value} (hu : ¬ unusable env.mode k)
    (ht : kt = none ∨ kt = some v.kind) (hp : appended v items = some w) :
    effect env ⟨.append, kt, k :: items⟩ v = some w := by
  have he : effectiveType kt (some v) .bytes = v.kind := by
    rcases ht with rfl | rfl <;> rfl
  have hk : ¬ (v.kind ≠ .bytes ∧ v.kind ≠ .list ∧ v.kind ≠ .string) := by
    cases v <;> simp [appended, Value.kind] at hp ⊢
  refine effect_cons (x := w) ?_
  simp only [execute, alone_at, he, if_neg hk, if_neg hu, Option.getD_some, ne_eq, not_true, if_false, hp]

theorem works_set {r : Request} {c : Call} (hv : Views r c.cmd c.kt c.args) (hc : c.cmd = .set) (resp : Bytes) :
    Works env c Good none (dispatchSet env r resp) := by
  obtain ⟨cmd, kt, args⟩ := c
  simp only at hv hc
  subst hc
  unfold dispatchSet
  match args, hv with
  | [], hv => rw [key_eq hv (by decide)]; trivial
  | [k], hv =>
    rw [key_eq hv (by decide), hv.arg 1]
    trivial
  | k :: a :: rest, hv =>
    have hk : r.key = some k := by rw [key_eq hv (by decide)]; rfl
    have ha : r.arg 1 = some a := by rw [hv.arg]; rfl
    have has : r.argsFrom 1 = some (a :: rest) := by rw [argsFrom_eq hv]; simp
    simp only [hk, ha, orErr, Option.isNone_some, Bool.false_eq_true, if_false]
    refine works_resolve hv.keyType fun t ht => ?_
    simp only at ht
    cases t with
    | bytes =>
      simp only [setBytes, ha, orErr]
      refine Or.inr (Or.inl ⟨fun _ => rfl, fun _ => works_keyOrInsertWith rfl ht fun hu v => ?_⟩)
      cases v with
      | bytes b => exact Or.inr ⟨effect_set hu ht rfl, fun e => ofOption_ne_err e⟩
      | _ => exact Or.inl rfl
    | boolean =>
      have hc := convBool_eq a
      simp only [setBoolean, ha, Option.bind_some]
      refine works_orErr fun x hx => Or.inr (Or.inl ⟨fun _ => rfl, fun _ => works_keyOrInsertWith rfl ht fun hu v => ?_⟩)
      cases v with
      | boolean b =>
        refine Or.inr ⟨effect_set hu ht ?_, by simp⟩
        simp only [Value.kind, parseValue]
        rw [← hc, hx]
        rfl
      | _ => exact Or.inl rfl
    | float =>
      simp only [setFloat, ha, Option.bind_some, convFloat_eq]
      refine works_orErr fun x hx => Or.inr (Or.inl ⟨fun _ => rfl, fun _ => works_keyOrInsertWith rfl ht fun hu v => ?_⟩)
      split at hx
      · cases hx
        rename_i h8
        cases v with
        | float b =>
          refine Or.inr ⟨effect_set hu ht ?_, by simp⟩
          simp only [Value.kind, parseValue, if_pos h8]
        | _ => exact Or.inl rfl
      · cases hx
    | integer =>
      simp only [setInteger, ha, Option.bind_some, convInt_eq]
      refine works_orErr fun x hx => Or.inr (Or.inl ⟨fun _ => rfl, fun _ => works_keyOrInsertWith rfl ht fun hu v => ?_⟩)
      split at hx
      · cases hx
        rename_i h8
        cases v with
        | integer b =>
          refine Or.inr ⟨effect_set hu ht ?_, by simp⟩
          simp only [Value.kind, parseValue, if_pos h8]
        | _ => exact Or.inl rfl
      · cases hx
    | string =>
      simp only [setString, ha, Option.bind_some, convStr]
      refine works_orErr fun x hx => Or.inr (Or.inl ⟨fun _ => rfl, fun _ => works_keyOrInsertWith rfl ht fun hu v => ?_⟩)
      cases v with
      | string b =>
        refine Or.inr ⟨effect_set hu ht ?_, fun e => ofOption_ne_err e⟩
        simp only [Value.kind, parseValue, hx, Option.map_some]
      | _ => exact Or.inl rfl
    | list =>
      simp only [setList, has, orErr]
      refine Or.inr (Or.inl ⟨fun _ => rfl, fun _ => works_keyOrInsertWith rfl ht fun hu v => ?_⟩)
      cases v with
      | list b => exact Or.inr ⟨effect_set hu ht rfl, fun e => ofOption_ne_err e⟩
      | _ => exact Or.inl rfl
    | map =>
      simp only [setMap, has, orErr, Option.map_some]
      refine Or.inr (Or.inl ⟨fun _ => rfl, fun _ => works_keyOrInsertWith rfl ht fun hu v => ?_⟩)
      cases v with
      | map b =>
        dsimp only
        split
        · exact Or.inr ⟨effect_set hu ht rfl, by simp⟩
        · exact Or.inl rfl
      | _ => exact Or.inl rfl
    | set =>
      simp only [setSet, has, orErr, Option.map_some]
      refine Or.inr (Or.inl ⟨fun _ => rfl, fun _ => works_keyOrInsertWith rfl ht fun hu v => ?_⟩)
      cases v with
      | set b =>
        dsimp only
        split
        · exact Or.inr ⟨effect_set hu ht rfl, by simp⟩
        · exact Or.inl rfl
      | _ => exact Or.inl rfl

theorem works_append {r : Request} {c : Call} (hv : Views r c.cmd c.kt c.args) (hc : c.cmd = .append) (resp : Bytes) :
    Works env c Good none (dispatchAppend env r resp) := by
  obtain ⟨cmd, kt, args⟩ := c
  simp only at hv hc
  subst hc
  unfold dispatchAppend
  cases args with
  | nil => rw [hv.arg]; trivial
  | cons k rest =>
    rw [hv.arg, argsFrom_eq hv]
    simp only [List.getElem?_cons_zero, orErr, List.cons_ne_nil, if_false, List.drop_succ_cons, List.drop_zero]
    refine works_resolve hv.keyType fun t ht => ?_
    simp only at ht
    cases t with
    | bytes =>
      refine works_keyOrInsertWith rfl ht fun hu v => ?_
      cases v with
      | bytes b =>
        refine Or.inr ⟨effect_append hu ht ?_, fun e => ofOption_ne_err e⟩
        simp only [appended, foldl_append]
      | _ => exact Or.inl rfl
    | list =>
      refine works_keyOrInsertWith rfl ht fun hu v => ?_
      cases v with
      | list b => exact Or.inr ⟨effect_append hu ht rfl, fun e => ofOption_ne_err e⟩
      | _ => exact Or.inl rfl
    | string =>
      refine works_keyOrInsertWith rfl ht fun hu v => ?_
      cases v with
      | string b =>
        refine Or.inr ⟨effect_append hu ht ?_, fun e => ofOption_ne_err e⟩
        simp only [appended, pushStrs_eq]
      | _ => exact Or.inl rfl
    | _ => trivial

theorem works_dispatch {r : Request} {c : Call} (hv : Views r c.cmd c.kt c.args) (resp : Bytes) :
    Works env c Over none (dispatch env r resp) := by
  refine Works.andThen ?_
  by_cases hq : c.cmd ∈ [.echo, .exists, .get, .is, .keys, .length, .stats, .type]
  · refine works_writes (writes_command ?_ ?_)
    · intro hn
      rw [hv.command] at hn
      exact absurd hq hn
    · intro e
      rw [hv.command] at e
      rw [e] at hq
      exact absurd hq (by decide)
  · unfold command
    rw [hv.command]
    obtain ⟨cmd, kt, args⟩ := c
    simp only at hv hq ⊢
    cases cmd <;> dsimp only <;> try exact absurd (by decide) hq
    case append => exact works_append (c := ⟨.append, kt, args⟩) hv rfl resp
    case set => exact works_set (c := ⟨.set, kt, args⟩) hv rfl resp
    case increment =>
      unfold dispatchIncrement
      rw [key_eq hv (by decide)]
      cases args with
      | nil => trivial
      | cons k rest =>
        simp only [List.getElem?_cons_zero, orErr, hv.keyType]
        split
        · rename_i h
          exact works_float _ resp (fun s => by simp only [execute, h, if_true]; rfl) rfl
        · rename_i h
          exact works_int 1 1 resp (fun _ => rfl) (fun s => by simp only [execute, h, if_false]) rfl
    case decrement =>
      unfold dispatchDecrement
      rw [key_eq hv (by decide)]
      cases args with
      | nil => trivial
      | cons k rest =>
        simp only [List.getElem?_cons_zero, orErr, hv.keyType]
        split
        · rename_i h
          exact works_float _ resp (fun s => by simp only [execute, h, if_true]; rfl) rfl
        · rename_i h
          exact works_int (-1) (-1) resp (fun _ => rfl) (fun s => by simp only [execute, h, if_false]) rfl
    case incrementBy =>
      unfold dispatchIncrementBy
      rw [key_eq hv (by decide)]
      match args, hv with
      | [], _ => trivial
      | [k], hv =>
        rw [hv.arg]
        trivial
      | k :: a :: rest, hv =>
        simp only [List.getElem?_cons_zero, hv.arg, List.getElem?_cons_succ, Option.bind_some, convInt_eq, convFloat_eq, orErr]
        by_cases h8 : 8 ≤ a.length
        · simp only [if_pos h8]
          exact works_int _ _ resp (fun _ => rfl) (fun s => by simp only [execute, if_pos h8]) rfl
        · simp only [if_neg h8]
          trivial
    case decrementBy =>
      unfold dispatchDecrementBy
      rw [key_eq hv (by decide)]
      match args, hv with
      | [], _ => trivial
      | [k], hv =>
        rw [hv.arg]
        trivial
      | k :: a :: rest, hv =>
        simp only [List.getElem?_cons_zero, hv.arg, List.getElem?_cons_succ, Option.bind_some, convInt_eq, convFloat_eq, orErr]
        by_cases h8 : 8 ≤ a.length
        · simp only [if_pos h8, negI64_eq]
          by_cases hm : env.mode = .debug ∧ (i64OfBytes (a.take 8)).toInt = -2 ^ 63
          · simp only [if_pos hm]; trivial
          · simp only [if_neg hm]
            exact works_int _ _ resp (fun s => addInteger_neg _ _ _ s hm) (fun s => by simp only [execute, if_pos h8, if_neg hm]) rfl
        · simp only [if_neg h8]
          trivial
    case delete =>
      unfold dispatchDelete
      split
      · trivial
      · refine works_orErr fun k _ => Or.inr (Or.inl ⟨fun _ => rfl, fun o => ?_⟩)
        cases o <;> trivial
    case rename =>
      unfold dispatchRename
      split
      · trivial
      · refine works_orErr fun a ha => works_orErr fun b hb => Or.inl ⟨fun _ => rfl, fun o => ?_⟩
        cases o with
        | none => trivial
        | some v =>
          refine Or.inl ⟨fun _ => rfl, fun o => ?_⟩
          cases o with
          | some v => trivial
          | none =>
            refine Or.inr (Or.inr (Or.inr (Or.inr ⟨fun _ => rfl, trivial, fun v => ?_⟩)))
            rw [hv.arg] at hb
            exact ⟨hb, fun _ => rfl, fun _ => trivial⟩

end commands

/-- What is at the keys and in the hands of the threads. -/
def shelfOf (keys : Store) (hand : Nat → Option Value) : Seat → Option Value
  | .inl k => keys k
  | .inr i => hand i

/-- Thread `i`, which executes a counter command, Append or Set, will not do anything to keys any more nor report an
error. -/
def overAt (cs : List Call) (p : Pool Bytes) (i : Nat) : Prop :=
  (∃ c t, cs[i]? = some c ∧ Makes c t) ∧ ∃ t, p.threads[i]? = some t ∧ Over t

/-- The invariant. -/
structure Chronicled (env : Env) (cs : List Call) (before : Store) (hand : Nat → Option Value) (story : Seat → Story)
    (p : Pool Bytes) : Prop where
  works : ∀ (i : Nat) t, p.threads[i]? = some t → ∃ c, cs[i]? = some c ∧ Works env c Over (hand i) t
  ledger : Ledger env cs before (shelfOf p.db.keys hand) (overAt cs p) story

/-- The hand of thread `i` now holds `o`. -/
def handed (hand : Nat → Option Value) (i : Nat) (o : Option Value) : Nat → Option Value := fun j => if j = i then o else hand j

theorem handed_self (hand : Nat → Option Value) (i : Nat) (o : Option Value) : handed hand i o i = o := if_pos rfl
theorem handed_ne (hand : Nat → Option Value) {i j : Nat} (o : Option Value) (h : j ≠ i) : handed hand i o j = hand j := if_neg h
theorem handed_same {hand : Nat → Option Value} {i : Nat} {o : Option Value} (h : hand i = o) : handed hand i o = hand := by
  funext j
  by_cases e : j = i
  · rw [e, handed_self, h]
  · rw [handed_ne _ _ e]

theorem overAt_step {p : Pool Bytes} (hb : Budget p) (i j : Nat) (h : overAt cs p j) : overAt cs (p.stepAt i) j := by
  obtain ⟨hmk, t, ht, ho⟩ := h
  refine ⟨hmk, ?_⟩
  by_cases e : j = i
  · subst e
    exact ⟨_, (Pool.stepAt_self ht).1, (ho.step hb ht).1⟩
  · exact ⟨t, by rw [Pool.stepAt_other _ e]; exact ht, ho⟩

theorem Chronicled.step {hand : Nat → Option Value} {p : Pool Bytes} (h : Chronicled env cs before hand story p) (hb : Budget p)
    (i : Nat) : ∃ hand' story', Chronicled env cs before hand' story' (p.stepAt i) := by
  cases ht : p.threads[i]? with
  | none => rw [Pool.stepAt_none ht]; exact ⟨_, _, h⟩
  | some t =>
    obtain ⟨hself, hdb⟩ := Pool.stepAt_self ht
    obtain ⟨c, hci, hw⟩ := h.works i t ht
    have hcm := List.mem_of_getElem? hci
    have hover := overAt_step (cs := cs) hb i
    -- the other threads go on as they are
    have hworks : ∀ o, Works env c Over o (t.step p.db).1 → ∀ (j : Nat) t', (p.stepAt i).threads[j]? = some t' →
        ∃ c, cs[j]? = some c ∧ Works env c Over (handed hand i o j) t' := by
      intro o ho j t' ht'
      by_cases e : j = i
      · subst e
        rw [hself] at ht'
        cases ht'
        rw [handed_self]
        exact ⟨c, hci, ho⟩
      · rw [Pool.stepAt_other _ e] at ht'
        rw [handed_ne _ _ e]
        exact h.works j t' ht'
    -- a step that adds nothing
    have hquiet : ∀ (hn : hand i = none), Works env c Over none (t.step p.db).1 →
        (∀ k, (t.step p.db).2.keys k = p.db.keys k ∨ (t.step p.db).2.keys k = none) →
        ∃ hand' story', Chronicled env cs before hand' story' (p.stepAt i) := by
      intro hn h1 h2
      refine ⟨hand, story, ?_, h.ledger.less ?_ hover⟩
      · have := hworks none h1
        rw [handed_same hn] at this
        exact this
      · rintro (k | j)
        · simp only [shelfOf, hdb]; exact h2 k
        · exact Or.inl rfl
    cases hh : hand i with
    | some v =>
      rw [hh] at hw
      cases t with
      | done r => exact absurd hw id
      | onCtr m upd next => exact absurd hw id
      | onKey b upd next =>
        obtain ⟨h1, h2, h3⟩ := hw
        simp only [Prog.step, h2] at hdb
        have hkeys : ∀ k, (p.stepAt i).db.keys k = if k = b then some v else p.db.keys k := by
          intro k
          rw [hdb]
          by_cases e : k = b
          · rw [e, Db.setKey_keys_self, if_pos rfl]
          · rw [Db.setKey_keys_ne _ _ e, if_neg e]
        have hin : shelfOf p.db.keys hand (.inr i) ≠ none := by simp only [shelfOf, hh]; simp
        have hlt : ∀ y, y ≠ Sum.inl b → shelfOf (p.stepAt i).db.keys (handed hand i none) y ≠ none →
            shelfOf p.db.keys hand y ≠ none ∧ y ≠ .inr i := by
          rintro (k | j) hy hs
          · simp only [shelfOf, hkeys] at hs ⊢
            rw [if_neg (fun e => hy (by rw [e]))] at hs
            exact ⟨hs, by simp⟩
          · simp only [shelfOf] at hs ⊢
            by_cases e : j = i
            · rw [e, handed_self] at hs; exact absurd rfl hs
            · rw [handed_ne _ _ e] at hs; exact ⟨hs, by simp [e]⟩
        refine ⟨handed hand i none, retold story (.inl b) (story (.inr i)), hworks none (h3 _), h.ledger.replace hover (.inl b)
          (story (.inr i)) v ?_ ?_ (h.ledger.leads _ v hh) (h.ledger.once _ hin) ?_ ?_ ?_ (fun t => h.ledger.made _ t hin) ?_⟩
        · simp only [shelfOf, hkeys, if_true]
        · rintro (k | j) hy
          · simp only [shelfOf, hkeys]
            exact Or.inl (if_neg fun e => hy (by rw [e]))
          · simp only [shelfOf]
            by_cases e : j = i
            · rw [e, handed_self]; exact Or.inr rfl
            · rw [handed_ne _ _ e]; exact Or.inl rfl
        · intro y hy hs j hj
          obtain ⟨h4, h5⟩ := hlt y hy hs
          exact h.ledger.apart _ _ hin h4 (Ne.symm h5) j hj
        · intro y x hy hs hx hx'
          obtain ⟨h4, h5⟩ := hlt y hy hs
          exact h5 (h.ledger.single _ _ x h4 hin hx' hx)
        · intro j hj
          exact hover j (h.ledger.fine _ j hin hj)
        · intro k hk hno
          cases hk
          exact absurd h1 (hno c (List.mem_of_getElem? hci))
    | none =>
      rw [hh] at hw
      cases t with
      | done r => rw [Pool.stepAt_done ht]; exact ⟨_, _, h⟩
      | onCtr m upd next => exact hquiet hh (hw _) fun k => Or.inl rfl
      | onKey k upd next =>
        have hkeys : ∀ o, upd (p.db.keys k) = o → ∀ k', (p.stepAt i).db.keys k' = if k' = k then o else p.db.keys k' := by
          intro o ho k'
          rw [hdb]
          simp only [Prog.step, ho]
          by_cases e : k' = k
          · rw [e, Db.setKey_keys_self, if_pos rfl]
          · rw [Db.setKey_keys_ne _ _ e, if_neg e]
        have hsame : upd (p.db.keys k) = p.db.keys k → ∀ k', ((Prog.onKey k upd next).step p.db).2.keys k' = p.db.keys k' ∨
            ((Prog.onKey k upd next).step p.db).2.keys k' = none := by
          intro e k'
          left
          simp only [Prog.step, e, Db.setKey_self]
        have hnot : ¬ overAt cs p i := by
          rintro ⟨-, t', ht', ho⟩
          rw [ht] at ht'
          cases ht'
          exact not_over_onKey ho
        rcases hw with ⟨h1, h2⟩ | ⟨h1, h2⟩ | ⟨⟨t, hmk, hkc, h1⟩, h2⟩ | ⟨⟨h1, tm, hmk⟩, h2, h3, h4⟩ | ⟨h1, h2, h3⟩
        · exact hquiet hh (h2 _) (hsame (h1 _))
        · refine hquiet hh (h2 _) fun k' => ?_
          rw [← hdb, hkeys _ (h1 _)]
          split
          · exact Or.inr rfl
          · exact Or.inl rfl
        · refine ⟨hand, retold story (.inl k) ⟨.fresh t, []⟩, ?_, h.ledger.replace hover (.inl k) _ (Value.default t) ?_ ?_ rfl
            List.nodup_nil (by simp) (by simp) (by simp) (by rintro t' ⟨⟩; exact ⟨c, hcm, hmk⟩)
            (by rintro k' ⟨⟩ _; exact ⟨by simp, by rintro t' ⟨⟩; exact ⟨c, hcm, hmk, hkc⟩, by simp⟩)⟩
          · have := hworks none (h2 _)
            rw [handed_same hh] at this
            exact this
          · simp only [shelfOf, hkeys _ (h1 _), if_true]
          · rintro (k' | j) hy
            · simp only [shelfOf, hkeys _ (h1 _)]
              exact Or.inl (if_neg fun e => hy (by rw [e]))
            · exact Or.inl rfl
        · cases hk : p.db.keys k with
          | none =>
            refine hquiet hh ?_ (hsame (by rw [hk]; exact h2))
            simp only [Prog.step, hk]
            exact h3
          | some v =>
            obtain ⟨h5, h6 | ⟨w, h6, h7, h8⟩⟩ := h4 v
            · refine hquiet hh ?_ (hsame (by rw [hk]; exact h6))
              simp only [Prog.step, hk]
              exact h5
            · have hupd : upd (p.db.keys k) = some w := by rw [hk]; exact h6
              have hin : shelfOf p.db.keys hand (.inl k) ≠ none := by simp only [shelfOf, hk]; simp
              have hni : ∀ y, shelfOf p.db.keys hand y ≠ none → i ∉ (story y).deeds :=
                fun y hy hi => hnot (h.ledger.fine y i hy hi)
              have hlt : ∀ y, y ≠ Sum.inl k → shelfOf (p.stepAt i).db.keys hand y ≠ none →
                  shelfOf p.db.keys hand y ≠ none := by
                rintro (k' | j) hy hs
                · simp only [shelfOf, hkeys _ hupd] at hs ⊢
                  rw [if_neg (fun e => hy (by rw [e]))] at hs
                  exact hs
                · exact hs
              have hstep : ((Prog.onKey k upd next).step p.db).1 = next (some v) := by simp only [Prog.step, hk]
              refine ⟨hand, retold story (.inl k) ⟨(story (.inl k)).base, (story (.inl k)).deeds ++ [i]⟩, ?_,
                h.ledger.replace hover (.inl k) _ w ?_ ?_ ?_ ?_ ?_ ?_ ?_ (fun t => h.ledger.made _ t hin) ?_⟩
              · have := hworks none (by rw [hstep]; exact h5)
                rw [handed_same hh] at this
                exact this
              · simp only [shelfOf, hkeys _ hupd, if_true]
              · rintro (k' | j) hy
                · simp only [shelfOf, hkeys _ hupd]
                  exact Or.inl (if_neg fun e => hy (by rw [e]))
                · exact Or.inl rfl
              · have hl := h.ledger.leads (.inl k) v hk
                simp only [Story.leads, Story.begins] at hl
                simp only [Story.leads, Story.begins, List.foldl_append, List.foldl_cons, List.foldl_nil, hl, hci,
                  Option.bind_some, h7]
              · rw [List.nodup_append]
                refine ⟨h.ledger.once _ hin, by simp, ?_⟩
                intro a ha b hb' e
                simp only [List.mem_singleton] at hb'
                subst e
                exact hni _ hin (hb' ▸ ha)
              · intro y hy hs j hj
                rcases List.mem_append.mp hj with hj | hj
                · exact h.ledger.apart _ _ hin (hlt y hy hs) (Ne.symm hy) j hj
                · simp only [List.mem_singleton] at hj
                  rw [hj]
                  exact hni y (hlt y hy hs)
              · intro y b hy hs hx hx'
                exact hy (h.ledger.single _ _ b (hlt y hy hs) hin hx' hx)
              · intro j hj
                rcases List.mem_append.mp hj with hj | hj
                · exact hover j (h.ledger.fine _ j hin hj)
                · simp only [List.mem_singleton] at hj
                  rw [hj]
                  exact ⟨⟨c, tm, hci, hmk⟩, _, hself, by rw [hstep]; exact h8⟩
              · intro k' hk' hno
                cases hk'
                obtain ⟨h9, h11, h10⟩ := h.ledger.home k hin hno
                refine ⟨h9, h11, fun j hj => ?_⟩
                rcases List.mem_append.mp hj with hj | hj
                · exact h10 j hj
                · simp only [List.mem_singleton] at hj
                  rw [hj]
                  exact ⟨c, hci, h1⟩
        · cases hk : p.db.keys k with
          | none =>
            refine hquiet hh ?_ (hsame (by rw [hk]; exact h1 _))
            simp only [Prog.step, hk]
            exact h2
          | some v =>
            have hin : shelfOf p.db.keys hand (.inl k) ≠ none := by simp only [shelfOf, hk]; simp
            have hlt : ∀ y, y ≠ Sum.inr i → shelfOf (p.stepAt i).db.keys (handed hand i (some v)) y ≠ none →
                shelfOf p.db.keys hand y ≠ none ∧ y ≠ .inl k := by
              rintro (k' | j) hy hs
              · simp only [shelfOf, hkeys _ (h1 _)] at hs ⊢
                by_cases e : k' = k
                · rw [if_pos e] at hs; exact absurd rfl hs
                · rw [if_neg e] at hs; exact ⟨hs, by simp [e]⟩
              · simp only [shelfOf] at hs ⊢
                rw [handed_ne _ _ (fun e => hy (by rw [e]))] at hs
                exact ⟨hs, by simp⟩
            have hstep : ((Prog.onKey k upd next).step p.db).1 = next (some v) := by simp only [Prog.step, hk]
            refine ⟨handed hand i (some v), retold story (.inr i) (story (.inl k)), hworks _ (by rw [hstep]; exact h3 v),
              h.ledger.replace hover (.inr i) (story (.inl k)) v ?_ ?_ (h.ledger.leads _ v hk) (h.ledger.once _ hin) ?_ ?_ ?_ (fun t => h.ledger.made _ t hin) ?_⟩
            · simp only [shelfOf, handed_self]
            · rintro (k' | j) hy
              · simp only [shelfOf, hkeys _ (h1 _)]
                split
                · exact Or.inr rfl
                · exact Or.inl rfl
              · simp only [shelfOf]
                rw [handed_ne _ _ (fun e => hy (by rw [e]))]
                exact Or.inl rfl
            · intro y hy hs j hj
              obtain ⟨h4, h5⟩ := hlt y hy hs
              exact h.ledger.apart _ _ hin h4 (Ne.symm h5) j hj
            · intro y x hy hs hx hx'
              obtain ⟨h4, h5⟩ := hlt y hy hs
              exact h5 (h.ledger.single _ _ x h4 hin hx' hx)
            · intro j hj
              exact hover j (h.ledger.fine _ j hin hj)
            · intro k' hk'; cases hk'

theorem Chronicled.exec {hand : Nat → Option Value} {p : Pool Bytes} (h : Chronicled env cs before hand story p) (hb : Budget p)
    (s : List Nat) : ∃ hand' story', Chronicled env cs before hand' story' (p.exec s) := by
  induction s using snoc_induction with
  | h0 => exact ⟨_, _, h⟩
  | h1 s i ih =>
    obtain ⟨hand', story', ih⟩ := ih
    rw [Pool.exec_snoc]
    exact ih.step (hb.exec s) i

theorem Chronicled.start {rs : List (Request × Bytes)} {cs : List Call} (hs : Sees rs cs) (db : Db) :
    ∃ story, Chronicled env cs db.keys (fun _ => none) story (Pool.start env rs db) := by
  refine ⟨fun x => match x with | .inl k => ⟨.initial k, []⟩ | .inr _ => ⟨.fresh .bytes, []⟩, ?_, ?_, ?_, ?_, ?_, ?_, ?_, ?_⟩
  · intro i t ht
    simp only [Pool.start, List.getElem?_map, Option.map_eq_some_iff] at ht
    obtain ⟨⟨r, resp⟩, hr, rfl⟩ := ht
    obtain ⟨c, h1, hv⟩ := (Sees.get hs).2 i _ hr
    exact ⟨c, h1, works_dispatch hv resp⟩
  · rintro (k | i) v h
    · exact h
    · cases h
  · rintro (k | i) h <;> exact List.nodup_nil
  · rintro (k | i) y hx hy hne j hj <;> cases hj
  · rintro (k | i) (k' | i') b hx hy h1 h2
    · simp only [Base.initial.injEq] at h1 h2
      rw [h1, h2]
    · cases h2
    · cases h1
    · cases h1
  · rintro (k | i) j h hj <;> cases hj
  · rintro (k | i) t h ht
    · cases ht
    · exact absurd rfl h
  · intro k h hno
    refine ⟨fun b hb => ?_, fun t ht => by (cases ht), fun i hi => by (cases hi)⟩
    simp only [Base.initial.injEq] at hb
    exact hb.symm

/-- C124: any number of clients issue any commands. At every moment of every execution there is a story for everything
that is stored. -/
theorem C124_chronicle {env : Env} {rs : List (Request × Bytes)} {cs : List Call} (hs : Sees rs cs) (db : Db)
    (hc : Roomy rs.length db.ctrs) (sched : List Nat) :
    ∃ story, Chronicle env cs db.keys ((Pool.start env rs db).exec sched).threads
      ((Pool.start env rs db).exec sched).db.keys story := by
  obtain ⟨story, h⟩ := Chronicled.start (env := env) hs db
  obtain ⟨hand, story, h⟩ := h.exec (Budget.start env rs db hc) sched
  refine ⟨fun k => story (.inl k), fun k v hk => h.ledger.leads (.inl k) v hk, fun k hk => h.ledger.once (.inl k) hk, ?_, ?_, ?_,
    fun k t hk => h.ledger.made (.inl k) t hk, ?_⟩
  · intro k k' hk hk' hne
    exact h.ledger.apart (.inl k) (.inl k') hk hk' (by simpa using hne)
  · intro k k' b hk hk' h1 h2
    simpa using h.ledger.single (.inl k) (.inl k') b hk hk' h1 h2
  · intro k i hk hi
    obtain ⟨hmk, t, h1, r, h2, h3⟩ := h.ledger.fine (.inl k) i hk hi
    refine ⟨hmk, fun e he => ?_⟩
    rw [he] at h1
    cases h1
    exact h2 e h3.symm
  · intro k hk hno
    exact h.ledger.home k hk hno

/-- A call that increments key `k` by one, as an integer. -/
def increments (k : Bytes) (c : Call) : Bool := decide (c.cmd = .increment) && decide (c.kt ≠ some .float) && c.args[0]? == some k

theorem effect_increment {c : Call} {k : Bytes} (h : increments k c = true) {v w : Value} (he : effect env c v = some w) :
    ∃ n : Int64, v = .integer n ∧ w = .integer (Int64.ofInt (n.toInt + 1)) := by
  obtain ⟨cmd, kt, args⟩ := c
  simp only [increments, Bool.and_eq_true, decide_eq_true_eq, beq_iff_eq] at h
  obtain ⟨⟨rfl, hkt⟩, hk⟩ := h
  cases args with
  | nil => cases hk
  | cons k' rest =>
    simp only [List.getElem?_cons_zero, Option.some.injEq] at hk
    subst hk
    simp only [effect, List.getElem?_cons_zero, execute, if_neg hkt, addInteger, if_true, Option.getD_some] at he
    cases v with
    | integer n =>
      refine ⟨n, rfl, ?_⟩
      by_cases hu : unusable env.mode k'
      · simp [hu] at he
      · rw [if_neg hu] at he
        dsimp only at he
        by_cases hr : inRange (n.toInt + 1) ∨ env.mode = .release
        · rw [if_pos hr] at he
          simp only [put_at, Option.some.injEq] at he
          exact he.symm
        · rw [if_neg hr] at he
          cases he
    | _ =>
      by_cases hu : unusable env.mode k'
      · simp [hu] at he
      · rw [if_neg hu] at he
        cases he

theorem leads_increments {k : Bytes} (deeds : List Nat) (hd : ∀ i ∈ deeds, ∃ c, cs[i]? = some c ∧ increments k c = true)
    (b : Option Value) (n : Int64)
    (h : deeds.foldl (fun v i => v.bind fun v => cs[i]?.bind fun c => effect env c v) b = some (.integer n)) :
    ∃ m : Int64, b = some (.integer m) ∧ n = Int64.ofInt (m.toInt + deeds.length) := by
  induction deeds generalizing b with
  | nil =>
    refine ⟨n, h, ?_⟩
    simp
  | cons i deeds ih =>
    rw [List.foldl_cons] at h
    obtain ⟨m, h1, h2⟩ := ih (fun j hj => hd j (List.mem_cons_of_mem _ hj)) _ h
    obtain ⟨c, h3, h4⟩ := hd i List.mem_cons_self
    cases b with
    | none => cases h1
    | some v =>
      simp only [Option.bind_some, h3] at h1
      obtain ⟨l, h5, h6⟩ := effect_increment h4 h1
      refine ⟨l, by rw [h5], ?_⟩
      simp only [Value.integer.injEq] at h6
      rw [h2, h6, List.length_cons]
      rw [Int64.ofInt_add, Int64.ofInt_toInt, ← Int64.ofInt_add, Int.add_assoc, Int.add_comm 1, Int.natCast_add]
      rfl

theorem length_le_countP {k : Bytes} (deeds : List Nat) (hn : deeds.Nodup)
    (hd : ∀ i ∈ deeds, ∃ c, cs[i]? = some c ∧ increments k c = true) : deeds.length ≤ cs.countP (increments k) := by
  induction cs generalizing deeds with
  | nil =>
    cases deeds with
    | nil => simp
    | cons i deeds =>
      obtain ⟨c, h1, -⟩ := hd i List.mem_cons_self
      cases h1
  | cons c cs ih =>
    have h0 := ih ((deeds.filter (· ≠ 0)).map (· - 1)) ?_ ?_
    · rw [List.length_map] at h0
      have hlen : deeds.length ≤ (deeds.filter (· ≠ 0)).length + (if 0 ∈ deeds then 1 else 0) := by
        clear h0 hd ih
        induction deeds with
        | nil => simp
        | cons i deeds ih =>
          rw [List.nodup_cons] at hn
          have := ih hn.2
          by_cases e : i = 0
          · subst e
            rw [if_neg hn.1] at this
            simp only [List.length_cons, List.mem_cons, true_or, if_true]
            rw [List.filter_cons_of_neg (by simp)]
            omega
          · rw [List.filter_cons_of_pos (by simp [e])]
            simp only [List.length_cons, List.mem_cons, Ne.symm e, false_or]
            omega
      rw [List.countP_cons]
      by_cases h : 0 ∈ deeds
      · obtain ⟨c', h1, h2⟩ := hd 0 h
        simp only [List.getElem?_cons_zero, Option.some.injEq] at h1
        subst h1
        rw [if_pos h] at hlen
        rw [if_pos h2]
        omega
      · rw [if_neg h] at hlen
        omega
    · refine List.Pairwise.map _ ?_ (List.Pairwise.filter _ hn |>.imp_of_mem ?_ : List.Pairwise (fun a b => a ≠ b ∧ a ≠ 0 ∧ b ≠ 0) _)
      · intro a b ⟨h1, h2, h3⟩ h4
        omega
      · intro a b ha hb hab
        simp only [ne_eq, List.mem_filter, decide_eq_true_eq] at ha hb
        exact ⟨hab, ha.2, hb.2⟩
    · intro i hi
      simp only [ne_eq, List.mem_map, List.mem_filter, decide_eq_true_eq] at hi
      obtain ⟨j, ⟨hj, hj0⟩, rfl⟩ := hi
      obtain ⟨c', h1, h2⟩ := hd j hj
      cases j with
      | zero => exact absurd rfl hj0
      | succ j => exact ⟨c', by simpa using h1, h2⟩

/-- C124 for counters: if of the commands that can give `k` a value only Increments name it, and no Rename moves
anything to it, then, whoever else deletes it, reads it or renames it away, an integer stored at `k` is never more than it was at
first (or 0) plus the number of Increments issued. -/
theorem C124_never_overcounts {env : Env} {rs : List (Request × Bytes)} {cs : List Call} (hs : Sees rs cs) (db : Db)
    (hc : Roomy rs.length db.ctrs) (sched : List Nat) (k : Bytes) (hno : ∀ c ∈ cs, target c ≠ some k)
    (hinc : ∀ c ∈ cs, c.args[0]? = some k → (∃ t, Makes c t) → c.cmd = .increment ∧ c.kt ≠ some .float) (n : Int64)
    (hn : ((Pool.start env rs db).exec sched).db.keys k = some (.integer n)) :
    ∃ (b : Int64) (m : Nat), (db.keys k = some (.integer b) ∨ b = 0) ∧
      m ≤ cs.countP (fun c => c.cmd = .increment ∧ c.args[0]? = some k) ∧ n = Int64.ofInt (b.toInt + m) := by
  obtain ⟨story, h⟩ := C124_chronicle (env := env) hs db hc sched
  have hk : ((Pool.start env rs db).exec sched).db.keys k ≠ none := by rw [hn]; simp
  obtain ⟨h1, h2, h3⟩ := h.home k hk hno
  have hd : ∀ i ∈ (story k).deeds, ∃ c, cs[i]? = some c ∧ increments k c = true := by
    intro i hi
    obtain ⟨c, h4, h5⟩ := h3 i hi
    obtain ⟨⟨c', t, h6, h7⟩, -⟩ := h.fine k i hk hi
    rw [h4] at h6
    cases h6
    obtain ⟨h8, h9⟩ := hinc c (List.mem_of_getElem? h4) h5 ⟨t, h7⟩
    exact ⟨c, h4, by simp [increments, h8, h9, h5]⟩
  obtain ⟨b, h4, h5⟩ := leads_increments (env := env) _ hd _ n (h.leads k _ hn)
  refine ⟨b, (story k).deeds.length, ?_, Nat.le_trans (length_le_countP _ (h.once k hk) hd) ?_, h5⟩
  · simp only [Story.begins] at h4
    cases hb : (story k).base with
    | initial k' =>
      simp only [hb] at h4
      rw [h1 k' hb] at h4
      exact Or.inl h4
    | fresh t =>
      obtain ⟨c, hcm, h6, h7⟩ := h2 t hb
      have h8 := hinc c hcm h7 ⟨t, h6⟩
      simp only [Makes, h8.1] at h6
      simp only [hb, h6, Value.default, Option.some.injEq, Value.integer.injEq] at h4
      exact Or.inr h4.symm
  · refine List.countP_mono_left fun c _ hc' => ?_
    simp only [increments, Bool.and_eq_true, decide_eq_true_eq, beq_iff_eq] at hc'
    simp only [decide_eq_true_eq]
    exact ⟨hc'.1.1, hc'.2⟩

/-- Beside C124: a list that was at key 1 is being moved to key 2 while a client appends to it, another appends to key 1
again, and a third sets key 3. The story of what is at key 2 is that it was at key 1 and call 1 worked on it. -/
example : let rs := [(call .rename none [[1], [2]], []), (call .append none [[1], [7]], []), (call .append (some .list) [[1], [8]], []),
      (call .set (some .bytes) [[3], [9]], [])]
    let cs : List Call := [⟨.rename, none, [[1], [2]]⟩, ⟨.append, none, [[1], [7]]⟩, ⟨.append, some .list, [[1], [8]]⟩,
      ⟨.set, some .bytes, [[3], [9]]⟩]
    let db := sampleDb [([1], .list [[5]])]
    let p := (Pool.start (sampleEnv .debug) rs db).exec [0, 0, 1, 1, 3, 0, 2, 2, 2, 0, 3, 3, 3]
    p.db.keys [1] = some (.list [[8]]) ∧ p.db.keys [2] = some (.list [[5], [7]]) ∧ p.db.keys [3] = some (.bytes [9]) ∧
    Story.leads (sampleEnv .debug) cs db.keys ⟨.initial [1], [1]⟩ = some (.list [[5], [7]]) ∧
    ∃ story, Chronicle (sampleEnv .debug) cs db.keys p.threads p.db.keys story := by
  have hs : Sees [(call .rename none [[1], [2]], []), (call .append none [[1], [7]], []), (call .append (some .list) [[1], [8]], []),
      (call .set (some .bytes) [[3], [9]], [])] [⟨.rename, none, [[1], [2]]⟩, ⟨.append, none, [[1], [7]]⟩,
      ⟨.append, some .list, [[1], [8]]⟩, ⟨.set, some .bytes, [[3], [9]]⟩] :=
    .cons (call_views _ _ _ (by decide) (by decide) (by decide)) (.cons (call_views _ _ _ (by decide) (by decide) (by decide))
      (.cons (call_views _ _ _ (by decide) (by decide) (by decide))
        (.cons (call_views _ _ _ (by decide) (by decide) (by decide)) .nil)))
  exact ⟨by decide +kernel, by decide +kernel, by decide +kernel, by decide +kernel,
    C124_chronicle hs _ (sampleDb_roomy _ _ (by decide)) _⟩

/-- Beside C124 for counters: two clients increment a missing key and a third deletes it in between; one remains. -/
example : let rs := [(call .increment none [[1]], []), (call .increment none [[1]], []), (call .delete none [[1]], [])]
    let p := (Pool.start (sampleEnv .debug) rs (sampleDb [])).exec [0, 0, 0, 2, 1, 1, 1, 0, 1, 2]
    p.db.keys [1] = some (.integer 1) ∧ ∃ (b : Int64) (m : Nat), b = 0 ∧ m ≤ 2 ∧ (1 : Int64) = Int64.ofInt (b.toInt + m) := by
  have hs : Sees [(call .increment none [[1]], []), (call .increment none [[1]], []), (call .delete none [[1]], [])]
      [⟨.increment, none, [[1]]⟩, ⟨.increment, none, [[1]]⟩, ⟨.delete, none, [[1]]⟩] :=
    .cons (call_views _ _ _ (by decide) (by decide) (by decide)) (.cons (call_views _ _ _ (by decide) (by decide) (by decide))
      (.cons (call_views _ _ _ (by decide) (by decide) (by decide)) .nil))
  have hk : ((Pool.start (sampleEnv .debug) [(call .increment none [[1]], []), (call .increment none [[1]], []),
      (call .delete none [[1]], [])] (sampleDb [])).exec [0, 0, 0, 2, 1, 1, 1, 0, 1, 2]).db.keys [1] = some (.integer 1) := by
    decide +kernel
  obtain ⟨b, m, h1, h2, h3⟩ := C124_never_overcounts (env := sampleEnv .debug) hs (sampleDb []) (sampleDb_roomy _ _ (by decide))
    [0, 0, 0, 2, 1, 1, 1, 0, 1, 2] [1] (by simp [target]) (by simp [Makes]) 1 hk
  refine ⟨hk, b, m, h1.resolve_left ?_, by simpa using h2, h3⟩
  rw [show (sampleDb []).keys [1] = none from by decide +kernel]
  simp

end Hop
