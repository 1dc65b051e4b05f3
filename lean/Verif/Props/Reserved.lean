import Verif.Props.Engine
import Verif.Lemmas.Types

/-! # C30, C57: keys reserved for internal use; C31: when dispatch panics -/

namespace Hop

open Spec

/-! ## C30 Internal keys are out of reach of clients -/

/-- C30 as stated: no request changes an internal key, and a request whose key is internal is answered with
an error. -/
def C30_Statement : Prop :=
  ∀ (env : Env) (r : Request) (c : CommandId) (kt : Option KeyType) (args : List Bytes) (resp : Bytes) (db : Db)
    (k : Bytes), Views r c kt args → Roomy 1 db.ctrs → reserved k →
    ((dispatch env r resp).run db).2.keys k = db.keys k ∧
    (takesKey c → args[0]? = some k → ∃ e, ((dispatch env r resp).run db).1 = .err e)

/-- C30 is false of the code in every respect: Rename creates an internal key, Delete deletes one, Set
panics after deleting one, Exists reveals one, and Get panics instead of reporting an error. -/
theorem C30_false : ¬ C30_Statement ∧
    (∃ db', (dispatch (sampleEnv .release) (call .rename none [[1], ascii "__hop__:a"]) []).run (sampleDb [([1], .integer 5)]) =
      (.ok (frame (.value (.bytes (ascii "__hop__:a")))), db') ∧ db'.keys (ascii "__hop__:a") = some (.integer 5)) ∧
    (∃ db', (dispatch (sampleEnv .release) (call .delete none [ascii "__hop__:a"]) []).run
      (sampleDb [(ascii "__hop__:a", .integer 5)]) =
      (.ok (frame (.value (.bytes (ascii "__hop__:a")))), db') ∧ db'.keys (ascii "__hop__:a") = none) ∧
    (∃ db', (dispatch (sampleEnv .release) (call .set (some .bytes) [ascii "__hop__:a", [1]]) []).run
      (sampleDb [(ascii "__hop__:a", .integer 5)]) = (.panic, db') ∧ db'.keys (ascii "__hop__:a") = none) ∧
    ((dispatch (sampleEnv .release) (call .exists none [ascii "__hop__:a"]) []).run
      (sampleDb [(ascii "__hop__:a", .integer 5)])).1 = .ok (frame (.value (.boolean true))) ∧
    ((dispatch (sampleEnv .release) (call .get none [ascii "__hop__:a"]) []).run
      (sampleDb [(ascii "__hop__:a", .integer 5)])).1 = .panic := by
  have h4 : ((dispatch (sampleEnv .release) (call .get none [ascii "__hop__:a"]) []).run
      (sampleDb [(ascii "__hop__:a", .integer 5)])).1 = .panic := by decide +kernel
  refine ⟨?_, ⟨_, Prod.ext (by decide +kernel) rfl, by decide +kernel⟩, ⟨_, Prod.ext (by decide +kernel) rfl, by decide +kernel⟩,
    ⟨_, Prod.ext (by decide +kernel) rfl, by decide +kernel⟩, by decide +kernel, h4⟩
  intro h
  obtain ⟨-, h2⟩ := h (sampleEnv .release) (call .get none [ascii "__hop__:a"]) .get none [ascii "__hop__:a"] []
    (sampleDb [(ascii "__hop__:a", .integer 5)]) (ascii "__hop__:a")
    (call_views _ _ _ (by decide) (by decide) (by decide +kernel)) (sampleDb_roomy _ _ (by decide)) (by decide +kernel)
  obtain ⟨e, he⟩ := h2 (by simp [takesKey]) rfl
  rw [h4] at he
  simp at he

/-- Commands that work on the value of their key. -/
def Spec.valueCommands : List CommandId :=
  [.get, .increment, .decrement, .incrementBy, .decrementBy, .append, .keys, .length]

/-- C30, the part that holds: the commands that read or update the value of a key never succeed on an
internal key and change nothing. -/
theorem C30_values_out_of_reach_partial {env : Env} {r : Request} {c : CommandId} {kt : Option KeyType} {k : Bytes}
    {more : List Bytes} (hcmd : c ∈ valueCommands) (hv : Views r c kt (k :: more)) (hk : reserved k) (resp : Bytes)
    (db : Db) (hc : Roomy 1 db.ctrs) :
    (∀ out, ((dispatch env r resp).run db).1 ≠ .ok out) ∧ ((dispatch env r resp).run db).2.keys = db.keys := by
  have hu : unusable env.mode k := Or.inl hk
  have hi : ∀ n, addInteger env.mode k n db.keys = (.crash, db.keys) := by intro n; simp only [addInteger, if_pos hu]
  have hf : ∀ f, addFloat env.mode f k db.keys = (.crash, db.keys) := by intro n; simp only [addFloat, if_pos hu]
  have hx : execute env db.ctrs c kt (k :: more) db.keys = (.crash, db.keys) ∨
      ∃ e, execute env db.ctrs c kt (k :: more) db.keys = (.error e, db.keys) := by
    cases c <;> simp [valueCommands] at hcmd
    case increment => left; simp only [execute, hi, hf]; split <;> rfl
    case decrement => left; simp only [execute, hi, hf]; split <;> rfl
    case incrementBy =>
      cases more with
      | nil => right; exact ⟨_, rfl⟩
      | cons a more =>
        simp only [execute, hi]
        split
        · exact Or.inl rfl
        · exact Or.inr ⟨_, rfl⟩
    case decrementBy =>
      cases more with
      | nil => right; exact ⟨_, rfl⟩
      | cons a more =>
        simp only [execute, hi]
        split
        · left; split <;> rfl
        · exact Or.inr ⟨_, rfl⟩
    case get => left; simp only [execute, if_pos hu]
    case append =>
      simp only [execute, if_pos hu]
      split
      · exact Or.inr ⟨_, rfl⟩
      · exact Or.inl rfl
    case keys =>
      simp only [execute, if_pos hu]
      split
      · exact Or.inr ⟨_, rfl⟩
      · exact Or.inl rfl
    case length =>
      simp only [execute, if_pos hu]
      split
      · exact Or.inr ⟨_, rfl⟩
      · exact Or.inl rfl
  rcases hx with hx | ⟨e, hx⟩
  · rw [dispatch_crash hv resp db hc hx]; simp
  · rw [dispatch_error hv resp db hc hx]; simp

/-- C57. All ways in which any request can change the entry of an internal key: it is removed, by Delete,
Rename or Set naming it as key; or, having been missing, it receives the value of the key that Rename moves
to it. Its value is never changed in place. -/
theorem C57_reserved_changes {env : Env} {r : Request} {c : CommandId} {kt : Option KeyType} {args : List Bytes}
    (hv : Views r c kt args) (resp : Bytes) (db : Db) (hc : Roomy 1 db.ctrs) (k : Bytes) (hk : reserved k)
    (hch : ((dispatch env r resp).run db).2.keys k ≠ db.keys k) :
    (((dispatch env r resp).run db).2.keys k = none ∧ args[0]? = some k ∧ (c = .delete ∨ c = .rename ∨ c = .set)) ∨
    (∃ a, c = .rename ∧ args[0]? = some a ∧ args[1]? = some k ∧ db.keys k = none ∧
      ((dispatch env r resp).run db).2.keys k = db.keys a) := by
  have hkeys : c = .set ∨ ((dispatch env r resp).run db).2.keys = (execute env db.ctrs c kt args db.keys).2 := by
    by_cases h : c = .set
    · exact Or.inl h
    · exact Or.inr (dispatch_keys (c := ⟨c, kt, args⟩) hv resp db hc (Or.inr (Or.inl h)))
  by_cases h0 : args[0]? = some k
  · -- the key of the request is internal
    obtain ⟨more, rfl⟩ : ∃ more, args = k :: more := by
      cases args with
      | nil => simp at h0
      | cons a more => simp at h0; exact ⟨more, by rw [h0]⟩
    by_cases hvc : c ∈ valueCommands
    · exact absurd (by rw [(C30_values_out_of_reach_partial hvc hv hk resp db hc).2]) hch
    · by_cases hr : c ∈ [CommandId.echo, .exists, .get, .is, .keys, .length, .stats, .type]
      · exact absurd (by rw [C20_read_only env r resp db (by rw [hv.command]; exact hr)]) hch
      · left
        have hcs : c = .delete ∨ c = .rename ∨ c = .set := by
          cases c <;> simp [valueCommands] at hvc hr ⊢
        refine ⟨?_, h0, hcs⟩
        rcases hcs with rfl | rfl | rfl
        · have hkeys := hkeys.resolve_left (by simp)
          rw [hkeys] at hch ⊢
          simp only [execute] at hch ⊢
          split
          · rename_i h; simp [h] at hch
          · split
            · rename_i h1 h2; simp [h1, h2] at hch
            · exact put_apply_self _ _ _
        · have hkeys := hkeys.resolve_left (by simp)
          rw [hkeys] at hch ⊢
          cases more with
          | nil => simp [execute] at hch
          | cons b more =>
            simp only [execute] at hch ⊢
            split
            · rename_i h; simp [h] at hch
            · split
              · rename_i h1 h2; simp [h1, h2] at hch
              · split
                · rename_i h1 h2 h3; simp [h1, h2, h3] at hch
                · rename_i h1 h2 h3
                  have hne : k ≠ b := by
                    rintro rfl
                    cases hd : db.keys k <;> simp [hd] at h2 h3
                  dsimp only
                  rw [put_apply_ne _ _ hne]
                  exact put_apply_self _ _ _
        · have hu : unusable env.mode k := Or.inl hk
          have hx : execute env db.ctrs .set kt (k :: more) db.keys = (.crash, Store.put db.keys k none) ∨
              ∃ e, execute env db.ctrs .set kt (k :: more) db.keys = (.error e, db.keys) := by
            cases more with
            | nil => exact Or.inr ⟨_, rfl⟩
            | cons a more =>
              simp only [execute, if_pos hu]
              cases parseValue (effectiveType kt (db.keys k) .bytes) (a :: more) with
              | none => exact Or.inr ⟨_, rfl⟩
              | some v => exact Or.inl rfl
          rcases hx with hx | ⟨e, hx⟩
          · rw [dispatch_crash hv resp db hc hx]; exact put_apply_self _ _ _
          · rw [dispatch_error hv resp db hc hx] at hch; simp at hch
  · right
    by_cases hr : c = .rename ∧ args[1]? = some k
    · obtain ⟨rfl, h1⟩ := hr
      have hkeys := hkeys.resolve_left (by simp)
      rw [hkeys] at hch ⊢
      rcases args with _ | ⟨a, _ | ⟨b, more⟩⟩
      · simp at h1
      · simp at h1
      · simp at h1
        subst h1
        refine ⟨a, rfl, rfl, rfl, ?_⟩
        simp only [execute] at hch ⊢
        split
        · rename_i h; simp [h] at hch
        · split
          · rename_i h1 h2; simp [h1, h2] at hch
          · split
            · rename_i h1 h2 h3; simp [h1, h2, h3] at hch
            · rename_i h1 h2 h3
              exact ⟨by simpa using h3, put_apply_self _ _ _⟩
    · refine absurd (C19_frame env r resp db k ?_ ?_) hch
      · rw [hv.arg 0]; exact h0
      · intro h
        rw [hv.command] at h
        rw [hv.arg 1]
        exact fun h1 => hr ⟨h, h1⟩

example : ∃ db', (dispatch (sampleEnv .debug) (call .increment none [ascii "__hop__:a"]) []).run
    (sampleDb [(ascii "__hop__:a", .integer 5)]) = (.panic, db') ∧ db'.keys (ascii "__hop__:a") = some (.integer 5) :=
  ⟨_, Prod.ext (by decide +kernel) rfl, by decide +kernel⟩

/-! ## C31 Dispatch does not panic on well-formed requests -/

/-- Adding `n` to the counter `k` leaves the 64-bit range in a debug build. -/
def Spec.overflows (m : Mode) (k : Bytes) (n : Int) (s : Store) : Prop :=
  m = .debug ∧ ∃ i, (s k).getD (.integer 0) = .integer i ∧ ¬ inRange (i.toInt + n)

/-- The identified cases in which a command panics: reserved keys (and, in debug builds, empty ones) for
the commands that work on a value and for Set, once the arguments are accepted; and overflow in debug
builds. -/
def Spec.PanicCase (m : Mode) (c : CommandId) (kt : Option KeyType) (args : List Bytes) (s : Store) : Prop :=
  match c, args with
  | .get, k :: _ => unusable m k
  | .increment, k :: _ => unusable m k ∨ (kt ≠ some .float ∧ overflows m k 1 s)
  | .decrement, k :: _ => unusable m k ∨ (kt ≠ some .float ∧ overflows m k (-1) s)
  | .incrementBy, k :: a :: _ =>
    8 ≤ a.length ∧ (unusable m k ∨ overflows m k (i64OfBytes (a.take 8)).toInt s)
  | .decrementBy, k :: a :: _ =>
    8 ≤ a.length ∧ (unusable m k ∨ (m = .debug ∧ (i64OfBytes (a.take 8)).toInt = -2 ^ 63) ∨
      overflows m k (-(i64OfBytes (a.take 8)).toInt) s)
  | .append, k :: _ => unusable m k ∧ effectiveType kt (s k) .bytes ∈ [.bytes, .list, .string]
  | .keys, k :: _ => unusable m k ∧ effectiveType kt (s k) .map = .map
  | .length, k :: _ => unusable m k ∧ effectiveType kt (s k) .bytes ∈ [.bytes, .list, .map, .set, .string]
  | .set, k :: a :: items =>
    unusable m k ∧ ∃ v, parseValue (effectiveType kt (s k) .bytes) (a :: items) = some v
  | _, _ => False

theorem addInteger_crash (m : Mode) (k : Bytes) (n : Int) (s : Store) :
    (addInteger m k n s).1 = .crash ↔ unusable m k ∨ overflows m k n s := by
  simp only [addInteger]
  by_cases hu : unusable m k
  · simp [hu]
  · rw [if_neg hu]
    simp only [hu, false_or, overflows]
    cases hv : (s k).getD (.integer 0) with
    | integer i =>
      dsimp only
      by_cases h : inRange (i.toInt + n) ∨ m = .release
      · rw [if_pos h]
        simp only [reduceCtorEq, false_iff, not_and, not_exists]
        rintro rfl j hj hr
        simp at hj
        subst hj
        rcases h with h | h
        · exact hr h
        · simp at h
      · rw [if_neg h]
        simp only [true_iff]
        refine ⟨?_, i, rfl, fun h' => h (Or.inl h')⟩
        cases m with
        | debug => rfl
        | release => exact absurd (Or.inr rfl) h
    | _ => simp

theorem addFloat_crash (m : Mode) (f : F64 → F64) (k : Bytes) (s : Store) :
    (addFloat m f k s).1 = .crash ↔ unusable m k := by
  simp only [addFloat]
  by_cases hu : unusable m k
  · simp [hu]
  · rw [if_neg hu]
    simp only [hu, iff_false]
    repeat' split
    all_goals simp

theorem execute_crash (env : Env) (ctrs : Metric → Option Nat) (c : CommandId) (kt : Option KeyType)
    (args : List Bytes) (s : Store) : (execute env ctrs c kt args s).1 = .crash ↔ PanicCase env.mode c kt args s := by
  cases c
  case increment =>
    cases args with
    | nil => simp [execute, PanicCase]
    | cons k more =>
      simp only [execute, PanicCase]
      split
      · rw [addFloat_crash]; simp [*]
      · rw [addInteger_crash]; simp [*]
  case decrement =>
    cases args with
    | nil => simp [execute, PanicCase]
    | cons k more =>
      simp only [execute, PanicCase]
      split
      · rw [addFloat_crash]; simp [*]
      · rw [addInteger_crash]; simp [*]
  case incrementBy =>
    rcases args with _ | ⟨k, _ | ⟨a, more⟩⟩
    · simp [execute, PanicCase]
    · simp [execute, PanicCase]
    · simp only [execute, PanicCase]
      split
      · rw [addInteger_crash]; simp [*]
      · simp [*]
  case decrementBy =>
    rcases args with _ | ⟨k, _ | ⟨a, more⟩⟩
    · simp [execute, PanicCase]
    · simp [execute, PanicCase]
    · simp only [execute, PanicCase]
      split
      · split
        · rename_i h1 h2
          simp only [true_iff]
          exact ⟨h1, Or.inr (Or.inl h2)⟩
        · rename_i h1 h2
          rw [addInteger_crash]
          constructor
          · rintro (h | h)
            · exact ⟨h1, Or.inl h⟩
            · exact ⟨h1, Or.inr (Or.inr h)⟩
          · rintro ⟨-, h | h | h⟩
            · exact Or.inl h
            · exact absurd h h2
            · exact Or.inr h
      · simp [*]
  case set =>
    rcases args with _ | ⟨k, _ | ⟨a, more⟩⟩
    · simp [execute, PanicCase]
    · simp [execute, PanicCase]
    · simp only [execute, PanicCase]
      cases parseValue (effectiveType kt (s k) .bytes) (a :: more) with
      | none => simp
      | some v =>
        dsimp only
        split
        · simp [*]
        · simp [*]
  case get =>
    cases args with
    | nil => simp [execute, PanicCase]
    | cons k more =>
      simp only [execute, PanicCase]
      split
      · simp [*]
      · simp only [*, iff_false]
        repeat' split
        all_goals simp
  case append =>
    cases args with
    | nil => simp [execute, PanicCase]
    | cons k more =>
      simp only [execute, PanicCase]
      split
      · rename_i h
        simp only [reduceCtorEq, false_iff]
        rintro ⟨-, h'⟩
        simp at h'
        rcases h' with h' | h' | h' <;> simp [h'] at h
      · rename_i h
        have : effectiveType kt (s k) .bytes ∈ [KeyType.bytes, .list, .string] := by
          revert h
          cases effectiveType kt (s k) .bytes <;> simp
        split
        · simp [*]
        · simp only [*, false_and, iff_false]
          repeat' split
          all_goals simp
  case keys =>
    cases args with
    | nil => simp [execute, PanicCase]
    | cons k more =>
      simp only [execute, PanicCase]
      split
      · simp [*]
      · rename_i h
        have h := Classical.not_not.mp h
        split
        · simp [*]
        · simp only [*, false_and, iff_false]
          repeat' split
          all_goals simp
  case length =>
    cases args with
    | nil => simp [execute, PanicCase]
    | cons k more =>
      simp only [execute, PanicCase]
      split
      · rename_i h
        simp only [reduceCtorEq, false_iff]
        rintro ⟨-, h'⟩
        simp at h'
        rcases h' with h' | h' | h' | h' | h' <;> simp [h', sized] at h
      · rename_i h
        have : effectiveType kt (s k) .bytes ∈ [KeyType.bytes, .list, .map, .set, .string] := by
          revert h
          cases effectiveType kt (s k) .bytes <;> simp [sized]
        split
        · simp [*]
        · simp only [*, false_and, iff_false]
          repeat' split
          all_goals simp
  all_goals
    rcases args with _ | ⟨k, _ | ⟨a, more⟩⟩ <;> simp only [execute, PanicCase, iff_false]
    all_goals
      repeat' split
      all_goals simp

/-- C31. For every request and every database, if the answer fits into a response or the build is a release
build: dispatch panics exactly in the identified cases. -/
theorem C31_panic_iff {env : Env} {r : Request} {c : CommandId} {kt : Option KeyType} {args : List Bytes}
    (hv : Views r c kt args) (resp : Bytes) (db : Db) (hc : Roomy 1 db.ctrs)
    (hd : env.mode = .release ∨ Deliverable env.mode (execute env db.ctrs c kt args db.keys).1) :
    ((dispatch env r resp).run db).1 = .panic ↔ PanicCase env.mode c kt args db.keys := by
  obtain ⟨h1, h2, h3, h4⟩ := dispatch_eq (env := env) hv resp db hc
  rw [← execute_crash env db.ctrs]
  cases hx : execute env db.ctrs c kt args db.keys with
  | mk a s =>
    cases a with
    | value v =>
      cases hw : Response.writeValue env resp v with
      | some out => rw [h1 v s out hx hw]; simp
      | none =>
        exfalso
        rcases hd with hm | hd
        · exact writeValue_release env hm resp v hw
        · rw [hx] at hd
          rw [writeValue_deliverable hd] at hw
          simp at hw
    | error e => rw [h3 e s hx]; simp
    | crash => rw [h4 s hx]; simp

/-- C31, built requests: outside the identified cases a request made with the builder is answered with a
response frame or an error; in particular the engine never hangs on it. -/
theorem C31_built_requests_return (env : Env) (c : CommandId) (kt : Option KeyType) (args : List Bytes)
    (hn : args.length ≤ 255) (hne : ∀ a ∈ args, a ≠ []) (hst : c ≠ .stats ∨ args = []) (resp : Bytes) (db : Db)
    (hc : Roomy 1 db.ctrs)
    (hd : env.mode = .release ∨ Deliverable env.mode (execute env db.ctrs c kt args db.keys).1)
    (hp : ¬ PanicCase env.mode c kt args db.keys) :
    ∃ b, (Builder.newWithKeyType c kt).bytesAll env.mode args = (.ok (), b) ∧
      ((∃ out, ((dispatch env b.intoRequest resp).run db).1 = .ok out) ∨
        ∃ e, ((dispatch env b.intoRequest resp).run db).1 = .err e) := by
  obtain ⟨b, hb, hv, -⟩ := C01_built_request_args env.mode c kt args hst hn hne
  refine ⟨b, hb, ?_⟩
  obtain ⟨h1, h2, h3, h4⟩ := dispatch_eq (env := env) hv resp db hc
  rw [← execute_crash env db.ctrs] at hp
  cases hx : execute env db.ctrs c kt args db.keys with
  | mk a s =>
    cases a with
    | value v =>
      cases hw : Response.writeValue env resp v with
      | some out => rw [h1 v s out hx hw]; exact Or.inl ⟨_, rfl⟩
      | none =>
        exfalso
        rcases hd with hm | hd
        · exact writeValue_release env hm resp v hw
        · rw [hx] at hd
          rw [writeValue_deliverable hd] at hw
          simp at hw
    | error e => rw [h3 e s hx]; exact Or.inr ⟨_, rfl⟩
    | crash => rw [hx] at hp; simp at hp

/-- Beside C31: incrementing the largest number. -/
example : ((dispatch (sampleEnv .debug) (call .increment none [[107]]) []).run
    (sampleDb [([107], .integer 9223372036854775807)])).1 = .panic := by
  rw [C31_panic_iff (call_views .increment none [[107]] (by decide) (by decide) (by decide)) _ _ (sampleDb_roomy _ _ (by decide))
    (Or.inr (by
      have : (execute (sampleEnv .debug) (sampleDb [([107], .integer 9223372036854775807)]).ctrs .increment none [[107]]
        (sampleDb [([107], .integer 9223372036854775807)]).keys).1 = .crash := by decide +kernel
      rw [this]; trivial))]
  exact Or.inr ⟨by decide, rfl, 9223372036854775807, by decide +kernel, by decide +kernel⟩

example : ((dispatch (sampleEnv .release) (call .increment none [[107]]) []).run
    (sampleDb [([107], .integer 9223372036854775807)])).1 = .ok (frame (.value (.integer (-9223372036854775808)))) := by
  decide +kernel

/-! ## Further concrete cases -/

/-- A Get of a reserved key. -/
example : ∀ out, ((dispatch (sampleEnv .debug) (call .get none [ascii "__hop__:a"]) []).run (sampleDb [(ascii "__hop__:a", .integer 4)])).1 ≠ .ok out :=
  (C30_values_out_of_reach_partial (c := .get) (kt := none) (more := []) (by decide) (call_views _ _ _ (by decide) (by decide) (by decide))
    (by decide) [] _ (by intro m; simp [sampleDb])).1

/-- A Get that returns. -/
example (resp : Bytes) : ∃ b, (Builder.newWithKeyType .get none).bytesAll .release [[107]] = (.ok (), b) ∧
    ((∃ out, ((dispatch (sampleEnv .release) b.intoRequest resp).run (sampleDb [([107], .integer 4)])).1 = .ok out) ∨
      ∃ e, ((dispatch (sampleEnv .release) b.intoRequest resp).run (sampleDb [([107], .integer 4)])).1 = .err e) :=
  C31_built_requests_return (sampleEnv .release) .get none [[107]] (by decide) (by decide) (.inl (by decide)) resp _ (by intro m; simp [sampleDb])
    (.inl rfl) (show ¬ unusable .release [107] by decide)

/-- A Delete of a reserved key. -/
example : ((dispatch (sampleEnv .debug) (call .delete none [ascii "__hop__:a"]) []).run (sampleDb [(ascii "__hop__:a", .integer 4)])).2.keys
    (ascii "__hop__:a") = none := by
  rcases C57_reserved_changes (env := sampleEnv .debug) (c := .delete) (kt := none) (args := [ascii "__hop__:a"])
    (call_views _ _ _ (by decide) (by decide) (by decide)) [] (sampleDb [(ascii "__hop__:a", .integer 4)]) (by intro m; simp [sampleDb])
    (ascii "__hop__:a") (by decide) (by decide +kernel) with ⟨h, -⟩ | ⟨a, h, -⟩
  · exact h
  · cases h

end Hop
