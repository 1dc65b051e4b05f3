import Verif.Props.Storable
import Verif.Props.Callers
import Verif.Props.ClientLimits
import Verif.Props.BuildsAround
import Verif.Props.Order

/-!
# Which values and stores an in-memory client can bring about (C207)
-/

namespace Hop

open Prog Spec

/-- The values there can be in a store that began empty and is used through a client only: byte strings, strings, sets and
maps are not empty, and items of lists are not; members of sets, and keys and values in maps, may be. A set has at most 254 members,
a map at most 127 entries, neither with a repetition. -/
def Spec.ClientStorable : Value → Prop
  | .bytes b => b ≠ []
  | .string t => t ≠ []
  | .list l => ∀ x ∈ l, x ≠ []
  | .set s => s ≠ [] ∧ s.Nodup ∧ s.length ≤ 254
  | .map m => m ≠ [] ∧ (m.map Prod.fst).Nodup ∧ m.length ≤ 127
  | _ => True

/-- The stores there can be: finitely many keys, none of them empty, with values as described. -/
structure Spec.ClientReached (s : Store) : Prop where
  finite : ∃ l : List Bytes, ∀ k, k ∉ l → s k = none
  keys : s [] = none
  values : ∀ k v, s k = some v → ClientStorable v

/-! ## What a call is -/

private theorem bytesAll_refuses {m : Mode} {as : List Bytes} (h : [] ∈ as) (b : Builder) : ∀ b', b.bytesAll m as ≠ (.ok (), b') := by
  induction as generalizing b with
  | nil => simp at h
  | cons a as ih =>
    intro b' hb
    simp only [Builder.bytesAll] at hb
    by_cases ha : a = []
    · subst ha
      simp [Builder.bytes] at hb
    · have h' : [] ∈ as := by
        rcases List.mem_cons.mp h with h | h
        · exact absurd h.symm ha
        · exact h
      split at hb
      · exact ih h' _ _ hb
      all_goals simp_all

private theorem built_done {r : Builder.Res} (h : ∀ b, r ≠ (.ok (), b)) (f : Builder → Client.Job Got) : ∃ o, Client.built r f = .done o := by
  obtain ⟨x, b⟩ := r
  cases x with
  | ok u => exact absurd rfl (h b)
  | _ => exact ⟨_, rfl⟩

/-- The same, if they are exactly 256, in a release build. -/
private theorem start_at_256 {env : Env} (a : Api) (hm : env.mode = .release) (hn : (a.call env).args.length = 256) :
    (∃ o, a.start env = .done o) ∨ (a.refusal = none ∧ (a.call env).cmd ≠ .set ∧ Sends env a) := by
  have one : ∀ (c : CommandId) (kt : Option KeyType) (k : Bytes), k = [] → ∀ b, (Builder.newWithKeyType c kt).bytes env.mode k ≠ (.ok (), b) := by
    rintro c kt k rfl b h
    simp [Builder.bytes] at h
  by_cases hs : ∃ k v, a = .set k v
  · obtain ⟨k, v, rfl⟩ := hs
    left
    simp only [Api.start, Client.set, wrap_built]
    by_cases hk : k = []
    · exact built_done (one _ _ _ hk) _
    obtain ⟨b, h1, h2⟩ := one_arg env.mode .set (some v.kind) k rfl hk
    rw [built_ok h1]
    have h4 : b.wouldOverfill (255 % 256) = true := by simp [Builder.wouldOverfill, h2.count]
    simp only [Api.call, List.length_cons, spelled_length] at hn
    refine built_done ?_ _
    cases v <;> simp only [argsOf] at hn <;> first
      | omega
      | (rename_i l
         have hl : l.length = 255 := by omega
         intro b'
         simp only [Builder.value, hl, h4, if_true]
         nofun)
  have hset : (a.call env).cmd ≠ .set := by
    intro h
    cases a <;> simp only [Api.call, reduceCtorEq] at h
    exact hs ⟨_, _, rfl⟩
  cases hr : a.refusal with
  | none =>
    refine .inr ⟨rfl, hset, Api.start_256 env a hm hr hn ?_⟩
    cases a <;> simp only [Api.entries] <;> first | omega | (exact absurd ⟨_, _, rfl⟩ hs)
  | some e =>
    left
    cases a with
    | append k v =>
      simp only [Api.start, Client.append, wrap_built]
      by_cases hk : k = []
      · exact built_done (one _ _ _ hk) _
      obtain ⟨b, h1, h2⟩ := one_arg env.mode .append (some v.kind) k rfl hk
      rw [built_ok h1]
      simp only [Api.refusal, if_neg hk] at hr
      cases v with
      | list l =>
        simp only [wrap_built]
        refine built_done (bytesAll_refuses ?_ _) _
        by_cases h : hollow (.list l) = true
        · obtain ⟨x, hx, h⟩ := List.any_eq_true.mp h
          rwa [List.isEmpty_iff.mp h] at hx
        · simp [Value.kind, appendable, h] at hr
      | bytes x => simp only [Api.call, spelled, List.length_cons, List.length_nil] at hn; omega
      | string x => simp only [Api.call, spelled, List.length_cons, List.length_nil] at hn; omega
      | _ => exact ⟨_, rfl⟩
    | incrementBy k v =>
      simp only [Api.start, Client.incrementBy, wrap_built]
      by_cases hk : k = []
      · exact built_done (one _ _ _ hk) _
      obtain ⟨b, h1, h2⟩ := one_arg env.mode .incrementBy (some v.kind) k rfl hk
      rw [built_ok h1]
      cases v <;> first
        | (simp only [Api.call, spelled, List.length_cons, List.length_nil] at hn; omega)
        | exact ⟨_, rfl⟩
    | decrementBy k v =>
      simp only [Api.start, Client.decrementBy, wrap_built]
      by_cases hk : k = []
      · exact built_done (one _ _ _ hk) _
      obtain ⟨b, h1, h2⟩ := one_arg env.mode .decrementBy (some v.kind) k rfl hk
      rw [built_ok h1]
      cases v <;> first
        | (simp only [Api.call, spelled, List.length_cons, List.length_nil] at hn; omega)
        | exact ⟨_, rfl⟩
    | «exists» ks =>
      simp only [Api.start, Client.exists, wrap_built]
      refine built_done (bytesAll_refuses ?_ _) _
      simp only [Api.refusal] at hr
      by_cases h : [] ∈ ks
      · exact h
      · simp [h] at hr
    | is t ks =>
      simp only [Api.start, Client.is, wrap_built]
      refine built_done (bytesAll_refuses ?_ _) _
      simp only [Api.refusal] at hr
      by_cases h : [] ∈ ks
      · exact h
      · simp [h] at hr
    | set k v => exact absurd ⟨_, _, rfl⟩ hs
    | _ => simp only [Api.call, List.length_cons, List.length_nil] at hn; omega

/-- Every call, however many arguments it needs, is nothing at all, or one request and a computation. -/
theorem start_any (env : Env) (a : Api) :
    (∃ o, a.start env = .done o) ∨
    (a.refusal = none ∧ ((a.call env).args.length ≤ 255 ∨ (a.call env).cmd ≠ .set) ∧
      ∃ r g, Views r (a.call env).cmd (a.call env).kt (a.call env).args ∧ a.start env = (dispatch env r []).andThen g ∧ ∀ o, ∃ x, g o = .done x) := by
  by_cases hn : (a.call env).args.length ≤ 255
  · rcases Api.start_shape env a hn with ⟨e, -, h⟩ | ⟨h1, h2⟩
    · exact .inl ⟨_, h⟩
    · exact .inr ⟨h1, .inl hn, h2⟩
  by_cases hm : mostArgs env.mode < (a.call env).args.length
  · rcases Api.start_fails env a hm with h | ⟨e, h⟩
    · exact .inl ⟨_, h⟩
    · exact .inl ⟨_, h⟩
  have hrel : env.mode = .release := by
    cases he : env.mode with
    | release => rfl
    | debug => rw [he] at hm; simp only [mostArgs] at hm; omega
  have h256 : (a.call env).args.length = 256 := by rw [hrel] at hm; simp only [mostArgs] at hm; omega
  rcases start_at_256 a hrel h256 with h | ⟨h1, h2, b, f, h3, h4, h5⟩
  · exact .inl h
  · refine .inr ⟨h1, .inr h2, b.intoRequest, readOutcome env f, h3, by rw [h4, bind_send], readOutcome_done fun v => ?_⟩
    rw [h5 v (by rintro k rfl; simp only [Api.call, List.length_cons, List.length_nil] at h256; omega)]
    unfold reading
    split <;> exact ⟨_, rfl⟩

/-! ## Nothing else -/

/-- Everything stored is as described. -/
private def Fed (s : Store) : Prop := ∀ k v, s k = some v → ClientStorable v

private theorem Fed.put {s : Store} (h : Fed s) (k : Bytes) {o : Option Value} (ho : ∀ v, o = some v → ClientStorable v) : Fed (s.put k o) := by
  intro k' v hv
  by_cases hk : k' = k
  · rw [hk, put_apply_self] at hv; exact ho v hv
  · rw [put_apply_ne _ _ hk] at hv; exact h k' v hv

private theorem Fed.addInteger {s : Store} (h : Fed s) (m : Mode) (k : Bytes) (n : Int) : Fed (addInteger m k n s).2 := by
  simp only [Spec.addInteger]
  split
  · exact h
  · split
    · split
      · exact h.put k (by rintro _ ⟨⟩; trivial)
      · exact h
    · exact h

private theorem Fed.addFloat {s : Store} (h : Fed s) (m : Mode) (k : Bytes) (f : F64 → F64) : Fed (addFloat m f k s).2 := by
  simp only [Spec.addFloat]
  split
  · exact h
  · split
    · exact h.put k (by rintro _ ⟨⟩; trivial)
    · exact h
    · exact h.put k (by rintro _ ⟨⟩; trivial)

private theorem insert_most (m : BMap) (k v : Bytes) : (BMap.insert m k v).length ≤ m.length + 1 := by
  induction m with
  | nil => simp [BMap.insert]
  | cons e m ih =>
    simp only [BMap.insert]
    split <;> simp only [List.length_cons] <;> omega

private theorem insert_some (m : BMap) (k v : Bytes) : BMap.insert m k v ≠ [] := by
  cases m with
  | nil => simp [BMap.insert]
  | cons e m => simp only [BMap.insert]; split <;> simp

theorem convMapAux_most (items : List Bytes) (m : BMap) :
    (convMapAux m items).length ≤ m.length + items.length / 2 ∧ (m ≠ [] → convMapAux m items ≠ []) := by
  induction m, items using convMapAux.induct with
  | case1 m k v rest ih =>
    rw [convMapAux]
    have := insert_most m k v
    refine ⟨?_, fun _ => ih.2 (insert_some m k v)⟩
    have := ih.1
    simp only [List.length_cons]
    omega
  | case2 m args hn => rw [convMapAux]; exact ⟨by omega, id⟩; exact hn

theorem insertAll_most (items : List Bytes) (s : BSet) : (items.foldl BSet.insert s).length ≤ s.length + items.length := by
  induction items generalizing s with
  | nil => simp
  | cons x items ih =>
    refine Nat.le_trans (ih _) ?_
    simp only [BSet.insert, List.length_cons]
    split <;> simp <;> omega

private theorem spelled_some {env : Env} {v : Value} (hh : hollow v = false) (hl : (spelled env v).length ≤ 254) (h0 : spelled env v ≠ []) {w : Value}
    (h : parseValue v.kind (spelled env v) = some w) : ClientStorable w := by
  cases v with
  | bytes b =>
    simp only [Value.kind, spelled, parseValue, Option.some.injEq] at h
    subst h
    rintro rfl
    simp [hollow] at hh
  | string t =>
    simp only [Value.kind, spelled, parseValue, fromUtf8_strBytes, Option.map_some, Option.some.injEq] at h
    subst h
    rintro rfl
    simp [hollow] at hh
  | list l =>
    simp only [Value.kind, spelled, parseValue, Option.some.injEq] at h
    subst h
    rintro x hx rfl
    simp only [hollow, List.any_eq_false] at hh
    exact hh [] hx rfl
  | map m =>
    simp only [Value.kind, spelled, parseValue, Option.some.injEq] at h
    subst h
    simp only [spelled] at hl h0
    have hm : env.mapOrd m ≠ [] := fun h => h0 (by rw [h]; rfl)
    have h1 := convMapAux_most (alternating (env.mapOrd m)) []
    refine ⟨?_, convMapAux_nodup _ _ (by simp), by simp only [convMap]; have := h1.1; simp only [List.length_nil] at this; omega⟩
    cases hb : env.mapOrd m with
    | nil => exact absurd hb hm
    | cons e l =>
      obtain ⟨a, b⟩ := e
      simp only [alternating, convMap]
      rw [convMapAux]
      exact (convMapAux_most _ _).2 (insert_some _ _ _)
  | set s =>
    simp only [Value.kind, spelled, parseValue, Option.some.injEq] at h
    subst h
    simp only [spelled] at hl h0
    refine ⟨?_, foldl_insert_nodup _ _ (by simp), ?_⟩
    · obtain ⟨x, hx⟩ := List.exists_mem_of_ne_nil _ h0
      exact List.ne_nil_of_mem ((foldl_insert_mem (env.setOrd s) [] x).mpr (.inr hx))
    · have := insertAll_most (env.setOrd s) []
      simp only [convSet]
      simp only [List.length_nil] at this
      omega
  | _ =>
    cases w <;> first | trivial | (have := parseValue_kind h; simp [Value.kind] at this)

private theorem Fed.append {env : Env} {ctrs : Metric → Option Nat} {s : Store} (h : Fed s) (k : Bytes) {v : Value} (ht : appendable v.kind = true)
    (hh : hollow v = false) : Fed (execute env ctrs .append (some v.kind) (k :: spelled env v) s).2 := by
  simp only [Spec.execute]
  split
  · exact h
  · split
    · exact h
    · split
      · exact h
      · rename_i hkind
        split
        · rename_i w hw
          refine h.put k ?_
          rintro _ ⟨⟩
          simp only [effectiveType] at hkind hw
          have h0 : ∀ l, (s k).getD (.default v.kind) = .list l → ∀ x ∈ l, x ≠ [] := by
            intro l hl
            cases hs : s k with
            | some u => rw [hs] at hl; cases hl; exact h k _ hs
            | none =>
              rw [hs] at hl
              cases v <;> simp only [Value.kind, Value.default, Option.getD_none, reduceCtorEq, Value.list.injEq] at hl
              subst hl
              simp
          generalize (s k).getD (.default v.kind) = u at hw hkind h0
          simp only [ne_eq, Classical.not_not] at hkind
          cases v <;> simp only [Value.kind, appendable, reduceCtorEq] at ht <;> cases u <;> simp only [Value.kind, reduceCtorEq] at hkind <;>
            simp only [appended, spelled, Option.some.injEq] at hw <;> subst hw
          · intro he
            simp only [List.flatten_cons, List.flatten_nil, List.append_nil, List.append_eq_nil_iff] at he
            simp [hollow, he.2] at hh
          · intro x hx
            rcases List.mem_append.mp hx with hx | hx
            · exact h0 _ rfl x hx
            · rintro rfl
              simp only [hollow, List.any_eq_false] at hh
              exact hh [] hx rfl
          · intro he
            simp only [List.filterMap_cons, fromUtf8_strBytes, List.filterMap_nil, List.flatten_cons, List.flatten_nil, List.append_nil,
              List.append_eq_nil_iff] at he
            simp [hollow, he.2] at hh
        · exact h

private theorem Fed.set {env : Env} {ctrs : Metric → Option Nat} {s : Store} (h : Fed s) (k : Bytes) {v : Value} (hh : hollow v = false)
    (hl : (spelled env v).length ≤ 254) : Fed (execute env ctrs .set (some v.kind) (k :: spelled env v) s).2 := by
  have hp := fun w => spelled_some (w := w) hh hl
  generalize spelled env v = items at hp
  cases items with
  | nil => exact h
  | cons x items =>
    simp only [Spec.execute, effectiveType]
    split
    · exact h
    · rename_i w hw
      split
      · exact h.put k (by simp)
      · refine h.put k ?_
        rintro _ ⟨⟩
        exact hp w (by simp) hw

/-- Commands that are given no value leave everything as described. -/
private theorem Fed.other {env : Env} {ctrs : Metric → Option Nat} {s : Store} (h : Fed s) {c : CommandId} (kt : Option KeyType) (args : List Bytes)
    (ha : c ≠ .append) (hs : c ≠ .set) : Fed (execute env ctrs c kt args s).2 := by
  cases c with
  | append => exact absurd rfl ha
  | set => exact absurd rfl hs
  | increment =>
    cases args with
    | nil => exact h
    | cons k items => simp only [Spec.execute]; split <;> first | exact h.addFloat _ _ _ | exact h.addInteger _ _ _
  | decrement =>
    cases args with
    | nil => exact h
    | cons k items => simp only [Spec.execute]; split <;> first | exact h.addFloat _ _ _ | exact h.addInteger _ _ _
  | incrementBy =>
    match args with
    | [] => exact h
    | [_] => exact h
    | k :: a :: items => simp only [Spec.execute]; split <;> first | exact h.addInteger _ _ _ | exact h
  | decrementBy =>
    match args with
    | [] => exact h
    | [_] => exact h
    | k :: a :: items =>
      simp only [Spec.execute]
      split
      · split
        · exact h
        · exact h.addInteger _ _ _
      · exact h
  | delete =>
    cases args with
    | nil => exact h
    | cons k items =>
      simp only [Spec.execute]
      split
      · exact h
      · split
        · exact h
        · exact h.put k (by simp)
  | rename =>
    match args with
    | [] => exact h
    | [_] => exact h
    | a :: b :: items =>
      simp only [Spec.execute]
      split
      · exact h
      · split
        · exact h
        · split
          · exact h
          · exact (h.put a (by simp)).put b fun v hv => h a v hv
  | _ => rw [execute_reads _ _ _ (by decide)]; exact h

/-- One call leaves everything as described. -/
private theorem Fed.execute {env : Env} {ctrs : Metric → Option Nat} {a : Api} {s : Store} (h : Fed s) (hr : a.refusal = none)
    (hl : (a.call env).args.length ≤ 255 ∨ (a.call env).cmd ≠ .set) :
    Fed (execute env ctrs (a.call env).cmd (a.call env).kt (a.call env).args s).2 := by
  cases a with
  | append k v =>
    simp only [Api.refusal] at hr
    by_cases hk : k = []
    · simp [hk] at hr
    simp only [if_neg hk] at hr
    have ht : appendable v.kind = true := by
      cases h : appendable v.kind with
      | true => rfl
      | false => simp [h] at hr
    exact h.append k ht (by
      cases h : hollow v with
      | false => rfl
      | true => simp [h, ht] at hr)
  | set k v =>
    simp only [Api.refusal] at hr
    by_cases hk : k = []
    · simp [hk] at hr
    simp only [if_neg hk] at hr
    refine h.set k ?_ ?_
    · cases h : hollow v with
      | false => rfl
      | true => simp [h] at hr
    · rcases hl with hl | hl
      · simp only [Api.call, List.length_cons] at hl; omega
      · exact absurd rfl hl
  | _ => exact h.other _ _ nofun nofun

/-- One call, in a release build. -/
private theorem Fed.start {env : Env} (hm : env.mode = .release) (a : Api) {db : Db} (h : Fed db.keys) : Fed ((a.start env).run db).2.keys := by
  rcases start_any env a with ⟨o, ho⟩ | ⟨hr, hl, r, g, hv, hs, hg⟩
  · rw [ho]; exact h
  · rw [hs, run_andThen]
    have h1 := keys_once (c := a.call env) hv [] db (fun _ => none) (.inl hm)
    obtain ⟨x, hx⟩ := hg ((dispatch env r []).run db).1
    rw [hx]
    show Fed ((dispatch env r []).run db).2.keys
    rw [h1]
    exact h.execute hr hl

/-- The keys of a call that is not refused are not empty. -/
theorem call_bystander (env : Env) (a : Api) (hr : a.refusal = none) : Bystander [] (a.call env) := by
  have key : ∀ {k : Bytes} {e : Client.Error} {o : Option Client.Error}, (if k = [] then some e else o) = none → k ≠ [] := by
    intro k e o h hk
    rw [if_pos hk] at h
    cases h
  have one : ∀ (c : CommandId) (kt : Option KeyType) (k : Bytes) (items : List Bytes), c ≠ .rename → k ≠ [] → Bystander [] ⟨c, kt, k :: items⟩ :=
    fun c kt k items hc hk => .inr ⟨by simpa using hk, fun h => absurd h hc⟩
  cases a with
  | append k v => exact one _ _ _ _ nofun (key hr)
  | decrementBy k v => exact one _ _ _ _ nofun (key hr)
  | incrementBy k v => exact one _ _ _ _ nofun (key hr)
  | set k v => exact one _ _ _ _ nofun (key hr)
  | decrement k t => exact one _ _ _ _ nofun (key hr)
  | increment k t => exact one _ _ _ _ nofun (key hr)
  | delete k => exact one _ _ _ _ nofun (key hr)
  | rename a b =>
    simp only [Api.refusal] at hr
    by_cases h : a = [] ∨ b = []
    · rw [if_pos h] at hr; cases hr
    · rw [not_or] at h
      exact .inr ⟨by simpa [Api.call] using h.1, fun _ => by simpa [Api.call] using h.2⟩
  | _ => exact .inl (by simp [Api.call])

/-- The keys a call can change are its arguments, which as keys are not empty. -/
private theorem start_support (env : Env) (a : Api) (db : Db) :
    (∃ l : List Bytes, ∀ k, k ∉ l → ((a.start env).run db).2.keys k = db.keys k) ∧ ((a.start env).run db).2.keys [] = db.keys [] := by
  rcases start_any env a with ⟨o, ho⟩ | ⟨hr, hl, r, g, hv, hs, hg⟩
  · rw [ho]; exact ⟨⟨[], fun _ _ => rfl⟩, rfl⟩
  · rw [hs, run_andThen]
    obtain ⟨x, hx⟩ := hg ((dispatch env r []).run db).1
    rw [hx]
    have hw : ∀ k, Bystander k (a.call env) → ((dispatch env r []).run db).2.keys k = db.keys k := fun k hk =>
      (bystander_writes (env := env) (K := (· = k)) (c := a.call env) hv (by rintro _ rfl; exact hk) []).run db k (not_not_intro rfl)
    refine ⟨⟨(a.call env).args, fun k hk => hw k (.inr ⟨fun h => hk (List.mem_of_getElem? h), fun _ h => hk (List.mem_of_getElem? h)⟩)⟩, hw [] ?_⟩
    exact call_bystander env a hr

private theorem callAll_support (env : Env) (l : List Api) (db : Db) :
    (∃ ks : List Bytes, ∀ k, k ∉ ks → (callAll env l db).2.keys k = db.keys k) ∧ (callAll env l db).2.keys [] = db.keys [] := by
  induction l generalizing db with
  | nil => exact ⟨⟨[], fun _ _ => rfl⟩, rfl⟩
  | cons a l ih =>
    obtain ⟨⟨k1, h1⟩, h2⟩ := start_support env a db
    obtain ⟨⟨k2, h3⟩, h4⟩ := ih ((a.start env).run db).2
    refine ⟨⟨k1 ++ k2, fun k hk => ?_⟩, h4.trans h2⟩
    rw [List.mem_append, not_or] at hk
    exact (h3 k hk.2).trans (h1 k hk.1)

private theorem callAll_good {env : Env} (hm : env.mode = .release) (l : List Api) {db : Db} (h : Fed db.keys) : Fed (callAll env l db).2.keys := by
  induction l generalizing db with
  | nil => exact h
  | cons a l ih => exact ih (h.start hm a)

/-- Calls none of which panics in a debug build. -/
private theorem callAll_alike (env : Env) (l : List Api) (db : Db) (h : ∀ o ∈ (callAll (builtAs env .debug) l db).1, o ≠ .panic) :
    callAll (builtAs env .release) l db = callAll (builtAs env .debug) l db := by
  induction l generalizing db with
  | nil => rfl
  | cons a l ih =>
    have h1 := C203_call env a db (h _ (List.mem_cons_self ..))
    simp only [callAll]
    rw [h1, ih _ fun o ho => h o (List.mem_cons_of_mem _ ho)]

/-- **C207, nothing else.** Whatever calls are made through an in-memory client, with any arguments and any number of them, whether they succeed
or not: a store as described stays one. (In a debug build: if no call panics; a `set` that does can leave
an empty map or set, C206.) -/
theorem C207_only {env : Env} {l : List Api} {db : Db} (h0 : ClientReached db.keys)
    (hd : env.mode = .release ∨ ∀ o ∈ (callAll env l db).1, o ≠ .panic) : ClientReached (callAll env l db).2.keys := by
  obtain ⟨⟨ks, h1⟩, h2⟩ := callAll_support env l db
  obtain ⟨ks', h3⟩ := h0.finite
  refine ⟨⟨ks ++ ks', fun k hk => ?_⟩, h2.trans h0.keys, ?_⟩
  · rw [List.mem_append, not_or] at hk
    exact (h1 k hk.1).trans (h3 k hk.2)
  · cases hm : env.mode with
    | release => exact callAll_good hm l h0.values
    | debug =>
      have he : builtAs env .debug = env := by cases env; cases hm; rfl
      rw [hm] at hd
      have := callAll_alike env l db (by rw [he]; exact hd.resolve_left nofun)
      rw [he] at this
      rw [← this]
      exact callAll_good rfl l h0.values

/-! ## Everything -/

/-- A call that has its effect whatever is stored. -/
private def Sure (env : Env) (a : Api) : Prop :=
  a.refusal = none ∧ (a.call env).args.length ≤ 255 ∧ ((a.call env).cmd ≠ .set ∨ env.mode = .release ∨
    ∀ s, Deliverable env.mode (execute env (fun _ => none) (a.call env).cmd (a.call env).kt (a.call env).args s).1)

private def callStores (env : Env) (l : List Api) (s : Store) : Store :=
  l.foldl (fun s a => (execute env (fun _ => none) (a.call env).cmd (a.call env).kt (a.call env).args s).2) s

private theorem callAll_stores {env : Env} {l : List Api} (h : ∀ a ∈ l, Sure env a) (db : Db) :
    (callAll env l db).2.keys = callStores env l db.keys := by
  induction l generalizing db with
  | nil => rfl
  | cons a l ih =>
    refine (ih (fun a ha => h a (List.mem_cons_of_mem _ ha)) _).trans ?_
    obtain ⟨h1, h2, h3⟩ := h a (List.mem_cons_self ..)
    rcases Api.start_shape env a h2 with ⟨e, he, -⟩ | ⟨-, r, g, hv, hs, hg⟩
    · rw [h1] at he; cases he
    · rw [hs, run_andThen]
      obtain ⟨x, hx⟩ := hg ((dispatch env r []).run db).1
      rw [hx]
      show callStores env l ((dispatch env r []).run db).2.keys = _
      rw [keys_once (c := a.call env) hv [] db (fun _ => none) (by
        rcases h3 with h | h | h
        · exact .inr (.inl h)
        · exact .inl h
        · exact .inr (.inr (h _)))]
      rfl

/-- Calls that store `v` under `k`. -/
private def putting (k : Bytes) : Value → List Api
  | .bytes b => [.append k (.bytes b)]
  | .string t => [.append k (.string t)]
  | .list l => .append k (.list []) :: l.map fun x => .append k (.list [x])
  | v => [.set k v]

private theorem spelled_parses (env : Env) {v : Value} (hv : ClientStorable v) : parseValue v.kind (spelled env v) = some (orderedValue env v) := by
  cases v with
  | bytes b => rfl
  | string t => simp [Value.kind, spelled, parseValue, fromUtf8_strBytes, orderedValue]
  | list l => rfl
  | map m =>
    simp only [Value.kind, spelled, parseValue, orderedValue, alternating_eq]
    rw [convMap_flattenPairs _ (((env.mapOrd_perm m).map Prod.fst).nodup_iff.mpr hv.2.1)]
  | set s =>
    simp only [Value.kind, spelled, parseValue, orderedValue]
    rw [convSet_of_nodup _ ((env.setOrd_perm s).nodup_iff.mpr hv.2.1)]
  | boolean b => cases b <;> rfl
  | integer i =>
    have hl : (i64Bytes i).length = 8 := beBytes_length _ _
    show parseValue .integer [i64Bytes i] = _
    simp only [parseValue, hl, Nat.le_refl, if_true]
    rw [List.take_of_length_le (by omega), i64OfBytes_i64Bytes]
    rfl
  | float f =>
    have hl : f.toBytes.length = 8 := beBytes_length _ _
    show parseValue .float [f.toBytes] = _
    simp only [parseValue, hl, Nat.le_refl, if_true]
    rw [List.take_of_length_le (by omega), F64.ofBytes_toBytes]
    rfl

private theorem spelled_items (env : Env) {v : Value} (hv : ClientStorable v) (hl : v.kind ≠ .list) : spelled env v ≠ [] := by
  intro h
  have := congrArg List.length h
  rw [spelled_length] at this
  cases v <;> simp only [argsOf, List.length_nil] at this <;> first | exact hl rfl | omega | skip
  · exact hv.1 (List.length_eq_zero_iff.mp (by omega))
  · exact hv.1 (List.length_eq_zero_iff.mp this)

private theorem spelled_few (env : Env) {v : Value} (hv : ClientStorable v) (hl : v.kind ≠ .list) : (spelled env v).length ≤ 254 := by
  rw [spelled_length]
  cases v <;> simp only [argsOf] <;> first | exact absurd rfl hl | omega | skip
  · have := hv.2.2; omega
  · exact hv.2.2

private theorem solid {v : Value} (hv : ClientStorable v) : hollow v = false := by
  cases v with
  | list l => simpa [hollow, ClientStorable] using hv
  | bytes b => simpa [hollow, ClientStorable] using hv
  | string b => simpa [hollow, ClientStorable] using hv
  | set b => simpa [hollow] using hv.1
  | map b => simpa [hollow] using hv.1
  | _ => rfl

private theorem set_sure {env : Env} {k : Bytes} (hk : k ≠ []) (hu : ¬ unusable env.mode k) {v : Value} (hv : ClientStorable v) (hl : v.kind ≠ .list)
    (hd : env.mode = .release ∨ Deliverable env.mode (.value (orderedValue env v))) : Sure env (.set k v) := by
  refine ⟨?_, ?_, .inr (hd.imp id fun hd s => ?_)⟩
  · simp [Api.refusal, hk, solid hv]
  · have := spelled_few env hv hl
    simp only [Api.call, List.length_cons]
    omega
  · simp only [Api.call]
    rw [set_stores hu (spelled_items env hv hl) (spelled_parses env hv)]
    exact hd

private theorem append_sure {env : Env} {k : Bytes} (hk : k ≠ []) {v : Value} (hv : hollow v = false) (ht : appendable v.kind = true)
    (hl : argsOf v ≤ 254) : Sure env (.append k v) := by
  refine ⟨?_, ?_, .inl nofun⟩
  · simp [Api.refusal, hk, hv, ht]
  · simp only [Api.call, List.length_cons, spelled_length]
    omega

private theorem putting_sure {env : Env} {k : Bytes} (hk : k ≠ []) (hu : ¬ unusable env.mode k) {v : Value} (hv : ClientStorable v)
    (hd : Answerable env.mode (orderedValue env v)) : ∀ a ∈ putting k v, Sure env a := by
  intro a ha
  cases v with
  | bytes b => cases List.mem_singleton.mp ha; exact append_sure hk (solid hv) rfl (by simp [argsOf])
  | string b => cases List.mem_singleton.mp ha; exact append_sure hk (solid hv) rfl (by simp [argsOf])
  | list l =>
    rcases List.mem_cons.mp ha with rfl | ha
    · exact append_sure hk rfl rfl (by simp [argsOf])
    · obtain ⟨x, hx, rfl⟩ := List.mem_map.mp ha
      exact append_sure hk (by simpa [hollow] using hv x hx) rfl (by simp [argsOf])
  | boolean b =>
    cases List.mem_singleton.mp ha
    exact set_sure hk hu hv nofun (.inr ⟨by simp [orderedValue, body, payload], by intro _ l h; cases h⟩)
  | integer b =>
    cases List.mem_singleton.mp ha
    exact set_sure hk hu hv nofun (.inr ⟨by simp [orderedValue, body, payload, beBytes_length], by intro _ l h; cases h⟩)
  | float b =>
    cases List.mem_singleton.mp ha
    exact set_sure hk hu hv nofun (.inr ⟨by simp [orderedValue, body, payload, beBytes_length], by intro _ l h; cases h⟩)
  | map m => cases List.mem_singleton.mp ha; exact set_sure hk hu hv nofun (hd.imp id fun h => h (.inl rfl))
  | set m => cases List.mem_singleton.mp ha; exact set_sure hk hu hv nofun (hd.imp id fun h => h (.inr rfl))

private theorem items_stored {env : Env} {k : Bytes} (hu : ¬ unusable env.mode k) (l acc : List Bytes) (s : Store) :
    callStores env (l.map fun x => .append k (.list [x])) (s.put k (some (.list acc))) = s.put k (some (.list (acc ++ l))) := by
  induction l generalizing acc with
  | nil => simp [callStores]
  | cons x l ih =>
    simp only [List.map_cons, callStores, List.foldl_cons, Api.call, spelled, Value.kind] at ih ⊢
    rw [append_stores (w := .list acc) (v := .list (acc ++ [x])) hu (.inr (.inl rfl)) (by rw [put_apply_self]; rfl) rfl rfl, put_put, ih]
    simp

private theorem putting_stores {env : Env} {k : Bytes} (hu : ¬ unusable env.mode k) {v : Value} (hv : ClientStorable v) {s0 : Store} (h0 : s0 k = none) :
    callStores env (putting k v) s0 = s0.put k (some (orderedValue env v)) := by
  have hset : v.kind ≠ .list → callStores env [.set k v] s0 = s0.put k (some (orderedValue env v)) := by
    intro hl
    simp only [callStores, List.foldl_cons, List.foldl_nil, Api.call]
    rw [set_stores hu (spelled_items env hv hl) (spelled_parses env hv)]
  cases v with
  | bytes b =>
    simp only [putting, callStores, List.foldl_cons, List.foldl_nil, Api.call, spelled, Value.kind]
    exact append_stores (w := .bytes []) hu (.inl rfl) (by rw [h0]; rfl) rfl (by simp [appended, orderedValue])
  | string t =>
    simp only [putting, callStores, List.foldl_cons, List.foldl_nil, Api.call, spelled, Value.kind]
    exact append_stores (w := .string []) hu (.inr (.inr rfl)) (by rw [h0]; rfl) rfl (by simp [appended, orderedValue, fromUtf8_strBytes])
  | list l =>
    simp only [putting, callStores, List.foldl_cons, Api.call, spelled, Value.kind]
    rw [append_stores (w := .list []) (v := .list []) hu (.inr (.inl rfl)) (by rw [h0]; rfl) rfl rfl]
    have := items_stored (env := env) hu l [] s0
    simp only [callStores, List.nil_append] at this
    exact this
  | _ => exact hset nofun

private theorem callStores_append (env : Env) (l l' : List Api) (s : Store) : callStores env (l ++ l') s = callStores env l' (callStores env l s) :=
  List.foldl_append ..

/-- Storing under a key in use for nothing, then renaming. -/
private theorem putting_renamed {env : Env} {j k : Bytes} (hu : ¬ unusable env.mode j) {v : Value} (hv : ClientStorable v) {s : Store} (hj : s j = none)
    (hk : s k = none) (hne : j ≠ k) : callStores env (putting j v ++ [.rename j k]) s = s.put k (some (orderedValue env v)) := by
  rw [callStores_append, putting_stores hu hv hj]
  simp only [callStores, List.foldl_cons, List.foldl_nil, Api.call, execute]
  rw [put_apply_self, put_apply_ne _ _ hne.symm, hk]
  simp only [Option.isSome_none, Option.isNone_some, Bool.false_eq_true, if_false, put_put]
  congr 1
  funext x
  by_cases hx : x = j
  · rw [hx, put_apply_self, hj]
  · rw [put_apply_ne _ _ hx]

/-- A store as a client leaves it, with only the given keys. -/
private def onlyThese (env : Env) (s : Store) (l : List Bytes) : Store := fun k => if k ∈ l then (s k).map (orderedValue env) else none

private theorem calls_build {env : Env} {s : Store} (hr : ClientReached s) (hd : ∀ k v, s k = some v → Answerable env.mode (orderedValue env v)) {j : Bytes}
    (hu : ¬ unusable env.mode j) (hj0 : j ≠ []) :
    ∀ l : List Bytes, j ∉ l → ∃ as, (∀ a ∈ as, Sure env a) ∧ callStores env as (fun _ => none) = onlyThese env s l
  | [], _ => ⟨[], by simp, by funext k; simp [callStores, onlyThese]⟩
  | k :: l, hj => by
    obtain ⟨as, h1, h2⟩ := calls_build hr hd hu hj0 l fun h => hj (List.mem_cons_of_mem _ h)
    have same : k ∈ l ∨ s k = none → onlyThese env s (k :: l) = onlyThese env s l := by
      intro h
      funext x
      simp only [onlyThese, List.mem_cons]
      by_cases hx : x = k
      · subst hx
        rcases h with h | h <;> simp [h]
      · simp [hx]
    by_cases hkl : k ∈ l
    · exact ⟨as, h1, by rw [h2, same (.inl hkl)]⟩
    · cases hv : s k with
      | none => exact ⟨as, h1, by rw [h2, same (.inr hv)]⟩
      | some v =>
        have hne : j ≠ k := fun h => hj (h ▸ List.mem_cons_self ..)
        refine ⟨as ++ (putting j v ++ [.rename j k]), ?_, ?_⟩
        · intro a ha
          rcases List.mem_append.mp ha with ha | ha
          · exact h1 a ha
          · rcases List.mem_append.mp ha with ha | ha
            · exact putting_sure hj0 hu (hr.values k v hv) (hd k v hv) a ha
            · cases List.mem_singleton.mp ha
              have hk0 : k ≠ [] := by rintro rfl; rw [hr.keys] at hv; cases hv
              exact ⟨by simp [Api.refusal, hj0, hk0], by simp [Api.call], .inl nofun⟩
        · rw [callStores_append, h2, putting_renamed hu (hr.values k v hv) (if_neg fun h => hj (List.mem_cons_of_mem _ h)) (if_neg hkl) hne]
          funext x
          by_cases hx : x = k
          · rw [hx, put_apply_self]; simp [onlyThese, hv]
          · rw [put_apply_ne _ _ hx]; simp [onlyThese, hx]

private theorem removing_stores (env : Env) (l : List Bytes) (s : Store) :
    callStores env (l.map .delete) s = fun k => if k ∈ l then none else s k := by
  induction l generalizing s with
  | nil => funext k; simp [callStores]
  | cons a l ih =>
    have h : (execute env (fun _ => none) .delete none [a] s).2 = s.put a none := by
      simp only [execute]
      cases ha : s a with
      | some v => simp
      | none => simp [← ha, put_same]
    show callStores env (l.map .delete) (execute env (fun _ => none) .delete none [a] s).2 = _
    rw [h, ih]
    funext k
    simp only [Store.put, List.mem_cons]
    by_cases h1 : k = a <;> by_cases h2 : k ∈ l <;> simp [h1, h2]

private theorem reordered_same (env : Env) (s : Store) : SameStore (fun k => (s k).map (orderedValue env)) s := by
  intro k
  show SameEntry ((s k).map (orderedValue env)) (s k)
  cases s k with
  | none => trivial
  | some v => exact orderedValue_same env v

/-- **C207, everything.** From every store of finitely many keys, none of them empty, calls through an in-memory client that are not refused lead to
every store as described, up to the order in sets and maps. (In a debug build: if the sets and maps fit into responses.) -/
theorem C207_anywhere {env : Env} {s : Store} (hr : ClientReached s) (hd : ∀ k v, s k = some v → Answerable env.mode (orderedValue env v)) {db : Db}
    (hf : ∃ l : List Bytes, ∀ k, k ∉ l → db.keys k = none) (h0 : db.keys [] = none) :
    ∃ l : List Api, (∀ a ∈ l, a.refusal = none ∧ (a.call env).args.length ≤ 255) ∧ SameStore (callAll env l db).2.keys s := by
  obtain ⟨l, hl⟩ := hr.finite
  obtain ⟨n, hn⟩ := unlike l
  have hj : ¬ unusable env.mode (1 :: List.replicate n 1) := by
    rintro (h | h)
    · have := congrArg List.head? h
      rw [show (List.head? (ascii "__hop__:")) = some 95 from by decide] at this
      simp at this
    · exact absurd h.2 (by simp)
  obtain ⟨as, h1, h2⟩ := calls_build (env := env) hr hd hj (by simp) l fun h => absurd (hn _ h) (by simp)
  obtain ⟨ks, hks⟩ := hf
  have hall : ∀ a ∈ (ks.filter (· ≠ [])).map .delete ++ as, Sure env a := by
    intro a ha
    rcases List.mem_append.mp ha with ha | ha
    · obtain ⟨k, hk, rfl⟩ := List.mem_map.mp ha
      exact ⟨by simpa [Api.refusal] using (List.mem_filter.mp hk).2, by simp [Api.call], .inl nofun⟩
    · exact h1 a ha
  refine ⟨_, fun a ha => ⟨(hall a ha).1, (hall a ha).2.1⟩, ?_⟩
  have clear : callStores env ((ks.filter (· ≠ [])).map .delete) db.keys = fun _ => none := by
    rw [removing_stores]
    funext k
    simp only [List.mem_filter]
    split
    · rfl
    · rename_i h
      by_cases hk : k = []
      · rw [hk, h0]
      · exact hks k fun hm => h ⟨hm, by simpa using hk⟩
  rw [callAll_stores hall, callStores_append, clear, h2]
  have he : onlyThese env s l = fun k => (s k).map (orderedValue env) := by
    funext k
    simp only [onlyThese]
    split
    · rfl
    · rename_i h; rw [hl k h]; rfl
  rw [he]
  exact reordered_same env s

theorem sampleDb_reached : ClientReached (sampleDb []).keys := ⟨⟨[], fun _ _ => rfl⟩, rfl, fun _ _ h => by cases h⟩

private theorem same_reached {s s' : Store} (h : SameStore s s') (hr : ClientReached s) : ClientReached s' := by
  have none_iff : ∀ k, s k = none → s' k = none := by
    intro k hk
    have := h k
    rw [hk] at this
    cases hs : s' k with
    | none => rfl
    | some v => rw [hs] at this; exact this.elim
  refine ⟨?_, none_iff _ hr.keys, fun k v hv => ?_⟩
  · obtain ⟨l, hl⟩ := hr.finite
    exact ⟨l, fun k hk => none_iff k (hl k hk)⟩
  · have h1 := h k
    rw [hv] at h1
    cases hs : s k with
    | none => rw [hs] at h1; exact h1.elim
    | some w =>
      rw [hs] at h1
      have h2 := hr.values k w hs
      change Same w v at h1
      cases w with
      | map m =>
        cases v <;> simp only [Same, reduceCtorEq] at h1
        exact ⟨fun h => h2.1 (by subst h; exact h1.eq_nil), (h1.map Prod.fst).nodup_iff.mp h2.2.1, h1.length_eq ▸ h2.2.2⟩
      | set m =>
        cases v <;> simp only [Same, reduceCtorEq] at h1
        exact ⟨fun h => h2.1 (by subst h; exact h1.eq_nil), h1.nodup_iff.mp h2.2.1, h1.length_eq ▸ h2.2.2⟩
      | _ => cases v <;> simp only [Same, reduceCtorEq] at h1 <;> cases h1 <;> exact h2

/-- **C207.** In a release build the stores that calls through an in-memory client can bring about, beginning with an empty one, are, up to the order in sets and maps,
exactly those described. -/
theorem C207_stores {env : Env} (hm : env.mode = .release) (s : Store) :
    (∃ l : List Api, SameStore (callAll env l (sampleDb [])).2.keys s) ↔ ClientReached s := by
  constructor
  · rintro ⟨l, h⟩
    exact same_reached h (C207_only sampleDb_reached (.inl hm))
  · intro h
    obtain ⟨l, -, h⟩ := C207_anywhere (env := env) h (fun _ _ _ => .inl hm) (db := sampleDb []) ⟨[], fun _ _ => rfl⟩ rfl
    exact ⟨l, h⟩

private theorem callAll_append (env : Env) (l l' : List Api) (db : Db) : (callAll env (l ++ l') db).2 = (callAll env l' (callAll env l db).2).2 := by
  induction l generalizing db with
  | nil => rfl
  | cons a l ih => exact ih _

/-- **C207, undone.** Whatever calls have been made, there are further ones after which the keys hold what they held before, up to the order in sets and maps. -/
theorem C207_undo {env : Env} {db : Db} (hr : ClientReached db.keys) (hd : ∀ k v, db.keys k = some v → Answerable env.mode (orderedValue env v)) (l : List Api) :
    ∃ l' : List Api, (∀ a ∈ l', a.refusal = none ∧ (a.call env).args.length ≤ 255) ∧ SameStore (callAll env (l ++ l') db).2.keys db.keys := by
  obtain ⟨⟨ks, h1⟩, h2⟩ := callAll_support env l db
  obtain ⟨ks', h3⟩ := hr.finite
  obtain ⟨l', h4, h5⟩ := C207_anywhere (env := env) hr hd (db := (callAll env l db).2)
    ⟨ks ++ ks', fun k hk => by rw [List.mem_append, not_or] at hk; exact (h1 k hk.1).trans (h3 k hk.2)⟩ (h2.trans hr.keys)
  exact ⟨l', h4, by rw [callAll_append]; exact h5⟩

/-! ## Concrete cases -/

/-- Calls of several kinds, some of them refused, one of them with 300 arguments. -/
example : ClientReached (callAll (sampleEnv .release) [.set [107] (.set [[], [1]]), .set [108] (.bytes []), .append [109] (.list []),
    .append [110] (.list (List.replicate 300 [1])), .rename [107] (ascii "__hop__:a"), .increment [111] none] (sampleDb [])).2.keys :=
  C207_only sampleDb_reached (.inl rfl)

/-- In a debug build none of these panics. -/
example : ClientReached (callAll (sampleEnv .debug) [.set [107] (.map [([], [])]), .delete [108], .rename [107] [109]] (sampleDb [])).2.keys :=
  C207_only sampleDb_reached (.inr (by decide +kernel))

/-- A set with an empty member and a list without items, from a store in use. -/
example : ∃ l : List Api, (∀ a ∈ l, a.refusal = none ∧ (a.call (sampleEnv .debug)).args.length ≤ 255) ∧
    SameStore (callAll (sampleEnv .debug) l (sampleDb [([1], .integer 4)])).2.keys (sampleDb [([107], .set [[], [1]]), (ascii "__hop__:a", .list [])]).keys := by
  have hv : ∀ k v, (sampleDb [([107], .set [[], [1]]), (ascii "__hop__:a", .list [])]).keys k = some v → v = .set [[], [1]] ∨ v = .list [] := by
    intro k v h
    simp only [sampleDb, List.lookup] at h
    split at h
    · cases h; exact .inl rfl
    · split at h
      · cases h; exact .inr rfl
      · cases h
  refine C207_anywhere ⟨⟨[[107], ascii "__hop__:a"], fun k hk => ?_⟩, by decide, fun k v h => ?_⟩ (fun k v h => ?_) ⟨[[1]], fun k hk => ?_⟩ (by decide)
  · simp only [List.mem_cons, List.not_mem_nil, or_false, not_or] at hk
    simp only [sampleDb, List.lookup]
    rw [beq_false_of_ne hk.1, beq_false_of_ne hk.2]
  · rcases hv k v h with rfl | rfl
    · exact ⟨by simp, by decide, by decide⟩
    · exact fun x hx => by cases hx
  · rcases hv k v h with rfl | rfl
    · exact .inr fun _ => ⟨by decide +kernel, by intro _ l h; cases h⟩
    · exact .inr (by rintro (h | h) <;> cases h)
  · simp only [List.mem_cons, List.not_mem_nil, or_false] at hk
    simp only [sampleDb, List.lookup]
    rw [beq_false_of_ne hk]

/-- Through a client no empty string can come to be stored, though requests can bring that about (C192). -/
example : ¬ ∃ l : List Api, SameStore (callAll (sampleEnv .release) l (sampleDb [])).2.keys (sampleDb [([107], .string [])]).keys := by
  rw [C207_stores rfl]
  exact fun h => h.values [107] (.string []) (by decide) rfl

/-- After a deletion and whatever else. -/
example (l : List Api) : ∃ l' : List Api, (∀ a ∈ l', a.refusal = none ∧ (a.call (sampleEnv .release)).args.length ≤ 255) ∧
    SameStore (callAll (sampleEnv .release) ((.delete [107] :: l) ++ l') (sampleDb [([107], .bytes [7])])).2.keys (sampleDb [([107], .bytes [7])]).keys := by
  refine C207_undo ⟨⟨[[107]], fun k hk => ?_⟩, by decide, fun k v h => ?_⟩ (fun _ _ _ => .inl rfl) _
  · simp only [List.mem_cons, List.not_mem_nil, or_false] at hk
    simp only [sampleDb, List.lookup]
    rw [beq_false_of_ne hk]
  · simp only [sampleDb, List.lookup] at h
    split at h
    · cases h; exact (by simp : ([7] : Bytes) ≠ [])
    · cases h

end Hop
