import Verif.Lemmas.Stores
import Verif.Props.CliOutput
import Verif.Props.Client

/-! # What lines given to the CLI do to the database, and how a session goes (C72-C74) -/

namespace Hop

open Prog Spec
open Hop.Cli (Text Std ParseError Ending)

/-! ## The effect of a line -/

/-- C72. A line that stands for a client call changes the stored keys and the statistics exactly as the
engine command of that call does, and prints the command's answer, provided the answer is within the limits
of a response. -/
theorem C72_effect (env : Env) (std : Std) (c : CommandId) (t : KeyType) (w : Text) (words : List Text)
    (args : List Bytes) (hh : Head c t w) (hw : ∀ x ∈ words, x ≠ [] ∧ ' ' ∉ x) (ha : Arguments std c t words args)
    (hn : args.length ≤ 255) (a : Api) (hm : meaning c t args = .call a) (hr : a.refusal = none) (db : Db)
    (ho : (a.call env).args.length ≤ 255) (hc : Roomy 1 db.ctrs) (hf : Carriable env.mode (perform env (a.call env) db).1) :
    (Cli.process env std (lineOf w words)).run db =
      (reply env std a (a.given env (perform env (a.call env) db).1), (perform env (a.call env) db).2) := by
  rw [C72_line env std c t w words args hh hw ha hn, hm, doing, run_andThen, C65_answered env a db ho hr hc hf]
  rfl

/-- The type named in a line is not looked at: `increment:float k` increments the integer. -/
example : ((Cli.process (sampleEnv .debug) plainStd "increment:float k".toList).run Db.empty).1 = .ok (.ok "1".toList) ∧
    ((Cli.process (sampleEnv .debug) plainStd "increment:float k".toList).run Db.empty).2.keys [107] = some (.integer 1) := by
  decide +kernel

/-! ## What lines can store -/

theorem stores_built {α} {P : Value → Prop} {r : Builder.Res} {f : Builder → Client.Job α}
    (h : ∀ b, r = (.ok (), b) → Stores P (f b)) : Stores P (Client.built r f) := by
  obtain ⟨o, b⟩ := r
  cases o with
  | ok u => cases u; exact h b rfl
  | _ => trivial

theorem stores_awaiting {α} {P : Value → Prop} {p : Client.Job α} {f : α → Option Text} (h : Stores P p) :
    Stores P (Cli.awaiting p f) := by
  refine Stores.andThen h fun o => ?_
  rcases o with (_ | a) | _ | _ | _
  · trivial
  · dsimp only; cases f a <;> trivial
  all_goals trivial

theorem stores_needing {α} {P : Value → Prop} {o : Option α} {e : Cli.Fault} {f : α → Cli.Job}
    (h : ∀ a, Stores P (f a)) : Stores P (Cli.needing o e f) := by
  cases o with
  | none => trivial
  | some a => exact h a

/-- A call of one of the remaining commands, with one key and without a type. -/
theorem stores_one {α} {P : Value → Prop} (hi : ∀ i, P (.integer i)) (env : Env) (c : CommandId) (k : Bytes)
    (f : Value → Client.Job α) (hf : ∀ v, Stores P (f v))
    (hc : c ≠ .append ∧ c ≠ .set ∧ c ≠ .incrementBy ∧ c ≠ .decrementBy) :
    Stores P (Client.built ((Builder.newWithKeyType c none).bytes env.mode k) fun b =>
      Client.bind (Client.send env b) f) := by
  refine stores_built fun b hb => ?_
  obtain ⟨h1, h2, -⟩ := bytes_keeps hb
  have h1 : b.commandId = c := h1
  have h2 : b.keyType = none := h2
  exact Stores.bind (stores_send hi (by rw [h1]; exact hc) (fun _ => by rw [h2]; simp)) hf

theorem stores_process {P : Value → Prop} (hi : ∀ i, P (.integer i)) (env : Env) (std : Std) (line : Text) :
    Stores P (Cli.process env std line) := by
  have asV : ∀ v, Stores P (Client.asNumber v) := by intro v; cases v <;> trivial
  have asB : ∀ v, Stores P (Client.asBytes v) := by intro v; cases v <;> trivial
  have asL : ∀ v, Stores P (Client.asList v) := by intro v; cases v <;> trivial
  have asO : ∀ v, Stores P (Client.asBool v) := by intro v; cases v <;> trivial
  have asM : ∀ v, Stores P (Client.asMap v) := by intro v; cases v <;> trivial
  have asK : ∀ v, Stores P (Client.asKeyType v) := by
    intro v
    cases v with
    | integer i => unfold Client.asKeyType; dsimp only; split <;> trivial
    | _ => trivial
  have main : ∀ r, Stores P (Cli.processInner env std r) := by
    intro r
    unfold Cli.processInner
    cases r.commandId <;> dsimp only
    case decrement =>
      exact stores_needing fun k => stores_awaiting (stores_one hi env .decrement k _ asV (by decide))
    case increment =>
      exact stores_needing fun k => stores_awaiting (stores_one hi env .increment k _ asV (by decide))
    case delete => exact stores_needing fun k => stores_awaiting (stores_one hi env .delete k _ asB (by decide))
    case keys => exact stores_needing fun k => stores_awaiting (stores_one hi env .keys k _ asL (by decide))
    case type => exact stores_needing fun k => stores_awaiting (stores_one hi env .type k _ asK (by decide))
    case echo =>
      split
      · exact stores_awaiting (stores_one hi env .echo _ _ asL (by decide))
      · trivial
    case get =>
      refine stores_needing fun k => stores_awaiting (stores_built fun b hb => ?_)
      obtain ⟨h1, h2, -⟩ := bytes_keeps hb
      have h1 : b.commandId = .get := h1
      exact stores_send hi (by rw [h1]; decide) (by rw [h1]; simp)
    case stats =>
      exact stores_awaiting (Stores.bind (stores_send hi (by decide) (by decide)) asM)
    case rename =>
      refine stores_needing fun k => stores_needing fun d => stores_awaiting (stores_built fun b hb => ?_)
      refine stores_built fun b' hb' => ?_
      have h1 : b'.commandId = .rename := (bytes_keeps hb').1.trans (bytes_keeps hb).1
      exact Stores.bind (stores_send hi (by rw [h1]; decide) (by rw [h1]; simp)) asB
    case «exists» =>
      refine stores_needing fun ks => ?_
      split
      · refine stores_awaiting (stores_built fun b hb => ?_)
        have h1 : b.commandId = .exists := (bytesAll_keeps hb).1
        exact Stores.bind (stores_send hi (by rw [h1]; decide) (by rw [h1]; simp)) asO
      all_goals trivial
    case is =>
      refine stores_needing fun t => stores_needing fun ks => ?_
      split
      · refine stores_awaiting (stores_built fun b hb => ?_)
        have h1 : b.commandId = .is := (bytesAll_keeps hb).1
        exact Stores.bind (stores_send hi (by rw [h1]; decide) (by rw [h1]; simp)) asO
      all_goals trivial
    all_goals trivial
  unfold Cli.process
  split
  · refine Stores.andThen (main _) fun o => ?_
    rcases o with (_ | _) | _ | _ | _ <;> trivial
  all_goals trivial

/-- C73. No line puts anything but an integer into the database: every value stored after a session is an
integer or was stored (possibly under another key) before. -/
theorem C73_session (env : Env) (std : Std) (lines : List Text) (db : Db) (k : Bytes) (v : Value)
    (h : (Cli.session env std lines db).2.2.keys k = some v) : (∃ i, v = .integer i) ∨ ∃ k', db.keys k' = some v := by
  suffices main : AllStored (fun v => (∃ i, v = .integer i) ∨ ∃ k', db.keys k' = some v)
      (Cli.session env std lines db).2.2 from main k v h
  have start : AllStored (fun v => (∃ i, v = .integer i) ∨ ∃ k', db.keys k' = some v) db :=
    fun k v hv => .inr ⟨k, hv⟩
  generalize hP : (fun v => (∃ i, v = Value.integer i) ∨ ∃ k', db.keys k' = some v) = P at start
  have hi : ∀ i, P (.integer i) := by subst hP; exact fun i => .inl ⟨i, rfl⟩
  clear hP h
  induction lines generalizing db with
  | nil =>
    have := (stores_process (P := P) hi env std (Cli.trimEnd [])).run db start
    unfold Cli.session
    split <;> rename_i hr <;> rw [hr] at this <;> exact this
  | cons line lines ih =>
    have := (stores_process (P := P) hi env std (Cli.trimEnd line)).run db start
    unfold Cli.session
    split <;> rename_i hr <;> rw [hr] at this
    · exact ih _ this
    all_goals exact this

/-- C73. Starting from nothing, only integers are ever stored. -/
theorem C73_fresh (env : Env) (std : Std) (lines : List Text) (k : Bytes) (v : Value)
    (h : (Cli.session env std lines Db.empty).2.2.keys k = some v) : ∃ i, v = .integer i := by
  rcases C73_session env std lines Db.empty k v h with h | ⟨_, h⟩
  · exact h
  · cases h

example : (Cli.session (sampleEnv .debug) plainStd ["increment a\n".toList, "rename a b\n".toList] Db.empty).2.2.keys [98] =
    some (.integer 1) := by decide +kernel

/-! ## How a session goes -/

theorem isSpace_iff (c : Char) : Cli.isSpace c = true ↔ whiteSpace c := by
  simp only [Cli.isSpace, whiteSpace, Bool.or_eq_true, Bool.and_eq_true, decide_eq_true_eq, beq_iff_eq, List.mem_cons,
    List.not_mem_nil, or_false]
  omega

/-- Trailing white space of a line is not looked at. -/
theorem trimEnd_append (s ws : Text) (hs : ∀ c ∈ s.getLast?, ¬ whiteSpace c)
    (hw : ∀ c ∈ ws, whiteSpace c) : Cli.trimEnd (s ++ ws) = s := by
  unfold Cli.trimEnd
  rw [List.reverse_append, List.dropWhile_append_of_pos (by simpa [isSpace_iff] using hw)]
  have : s.reverse.dropWhile Cli.isSpace = s.reverse := by
    cases hr : s.reverse with
    | nil => rfl
    | cons c l =>
      have : s.getLast? = some c := by rw [← List.head?_reverse, hr]; rfl
      rw [List.dropWhile_cons_of_neg]
      rw [isSpace_iff]
      exact hs c (by simp [this])
  rw [this, List.reverse_reverse]

/-- C74. A session runs the lines one by one, each on what the ones before have left, printing one text for
each, until it meets a line that cannot be parsed: then it ends with that line's error, having changed
nothing for it, and without looking at any later line. -/
theorem C74_stops (env : Env) (std : Std) (done : List Text) (line ws : Text) (rest : List Text) (db : Db)
    (outs : List Text) (e : ParseError) (db' : Db)
    (hs : ∀ c ∈ line.getLast?, ¬ whiteSpace c) (hw : ∀ c ∈ ws, whiteSpace c)
    (he : Cli.parse env.mode std line = .err e)
    (hd : Cli.session env std done db = (outs, .error .noCommandProvided, db')) (hl : outs.length = done.length) :
    Cli.session env std (done ++ (line ++ ws) :: rest) db = (outs, .error e, db') := by
  induction done generalizing db outs with
  | nil =>
    cases outs with
    | cons _ _ => simp at hl
    | nil =>
      have hdb : db' = db := by
        have : Cli.session env std [] db = ([], .error .noCommandProvided, db) := rfl
        rw [this] at hd
        exact ((Prod.mk.inj (Prod.mk.inj hd).2).2).symm
      rw [List.nil_append, Cli.session, trimEnd_append line ws hs hw]
      have : Cli.process env std line = .done (.ok (.error e)) := by unfold Cli.process; rw [he]
      rw [this, hdb]
      rfl
  | cons x done ih =>
    rw [List.cons_append]
    unfold Cli.session at hd ⊢
    split at hd
    · rename_i s db1 hr
      simp only [Prod.mk.injEq] at hd
      obtain ⟨h1, h2, h3⟩ := hd
      cases outs with
      | nil => simp at h1
      | cons o outs =>
        simp only [List.cons.injEq] at h1
        have := ih db1 outs (by rw [← h1.2, ← h2, ← h3]) (by simpa using hl)
        simp only [this, h1.1]
    all_goals
      simp only [Prod.mk.injEq] at hd
      obtain ⟨h1, -⟩ := hd
      rw [← h1] at hl
      simp at hl

/-- C74. At the end of the input the session ends with the error that no command was provided: there is no
way to leave it without an error or a panic. -/
theorem C74_end (env : Env) (std : Std) (db : Db) :
    Cli.session env std [] db = ([], .error .noCommandProvided, db) := rfl

/-- C74. A line that runs prints its text, and the session goes on with what it has left. -/
theorem C74_continues (env : Env) (std : Std) (line ws : Text) (rest : List Text) (db db' : Db) (s : Text)
    (hs : ∀ c ∈ line.getLast?, ¬ whiteSpace c) (hw : ∀ c ∈ ws, whiteSpace c)
    (h : (Cli.process env std line).run db = (.ok (.ok s), db')) :
    Cli.session env std ((line ++ ws) :: rest) db =
      ((s ++ ['\n']) :: (Cli.session env std rest db').1, (Cli.session env std rest db').2) := by
  rw [Cli.session, trimEnd_append line ws hs hw, h]

/-- A blank line ends the session: the increment after it is not carried out. -/
example : (Cli.session (sampleEnv .debug) plainStd ["increment a\n".toList, "\n".toList, "increment a\n".toList] Db.empty).1 =
      ["1\n".toList] ∧
    (Cli.session (sampleEnv .debug) plainStd ["increment a\n".toList, "\n".toList, "increment a\n".toList] Db.empty).2.1 =
      .error .noCommandProvided ∧
    (Cli.session (sampleEnv .debug) plainStd ["increment a\n".toList, "\n".toList, "increment a\n".toList] Db.empty).2.2.keys
      [97] = some (.integer 1) := by
  decide +kernel

/-! ## Further concrete cases -/

/-- An increment that is typed in. -/
example (std : Std) : (Cli.process (sampleEnv .debug) std "increment a".toList).run (sampleDb [([97], .integer 4)]) =
    (reply (sampleEnv .debug) std (.increment [97] none) (.ok (.ok (.value (.integer 5)))),
      (perform (sampleEnv .debug) ⟨.increment, none, [[97]]⟩ (sampleDb [([97], .integer 4)])).2) :=
  C72_effect (sampleEnv .debug) std .increment .bytes "increment".toList ["a".toList] [[97]] (.inl ⟨rfl, rfl⟩) (by decide)
    (.inr ⟨["a".toList], [], [], rfl, rfl, .nil, fun _ => rfl, by decide⟩) (by decide) (.increment [97] none) rfl rfl _
    (by decide) (by intro m; simp [sampleDb]) trivial

example (std : Std) (k : Bytes) (v : Value) (h : (Cli.session (sampleEnv .debug) std ["increment a\n".toList, "rename a b\n".toList]
    Db.empty).2.2.keys k = some v) : ∃ i, v = .integer i := C73_fresh _ std _ k v h

example (std : Std) (k : Bytes) (v : Value) (h : (Cli.session (sampleEnv .debug) std ["rename a b\n".toList, "increment a\n".toList]
    (sampleDb [([97], .bytes [1])])).2.2.keys k = some v) : (∃ i, v = .integer i) ∨ ∃ k', (sampleDb [([97], .bytes [1])]).keys k' = some v :=
  C73_session _ std _ _ k v h

/-- A session that has got a first line done. -/
example (rest : List Text) : ∃ db', (Cli.process (sampleEnv .debug) plainStd "increment a".toList).run Db.empty = (.ok (.ok "1".toList), db') ∧
    Cli.session (sampleEnv .debug) plainStd (("increment a".toList ++ "\n".toList) :: rest) Db.empty =
      (("1".toList ++ ['\n']) :: (Cli.session (sampleEnv .debug) plainStd rest db').1, (Cli.session (sampleEnv .debug) plainStd rest db').2) := by
  have h : (Cli.process (sampleEnv .debug) plainStd "increment a".toList).run Db.empty = (.ok (.ok "1".toList),
      ((Cli.process (sampleEnv .debug) plainStd "increment a".toList).run Db.empty).2) :=
    Prod.ext (by decide +kernel) rfl
  exact ⟨_, h, C74_continues _ _ _ _ rest _ _ _ (by unfold whiteSpace; decide) (by unfold whiteSpace; decide) h⟩

/-- A line that cannot be parsed after one that can. -/
example (rest : List Text) : ∃ db', Cli.session (sampleEnv .debug) plainStd (["increment a\n".toList] ++ ("gte k".toList ++ "\n".toList) :: rest) Db.empty =
    (["1\n".toList], .error (.invalidCommandType "gte".toList), db') := by
  have h : Cli.session (sampleEnv .debug) plainStd ["increment a\n".toList] Db.empty = (["1\n".toList], .error .noCommandProvided,
      (Cli.session (sampleEnv .debug) plainStd ["increment a\n".toList] Db.empty).2.2) :=
    Prod.ext (by decide +kernel) (Prod.ext (by decide +kernel) rfl)
  exact ⟨_, C74_stops _ _ _ "gte k".toList _ rest _ _ _ _ (by unfold whiteSpace; decide) (by unfold whiteSpace; decide)
    (by decide +kernel) h rfl⟩

end Hop
