import Verif.Props.CliSession
import Verif.Props.ClientStores
import Verif.Props.CountersAside

/-!
# Which stores sessions of the CLI can bring about (C214)
-/

namespace Hop

open Prog Spec
open Hop.Cli (Text Std ParseError Ending)

/-- A text that can stand between the spaces of a line. -/
def Spec.IsWord (t : Text) : Prop := t ≠ [] ∧ ' ' ∉ t ∧ '\n' ∉ t

/-- A line as read from the input: a line break can only be its end. -/
def Spec.IsLine (t : Text) : Prop := '\n' ∉ t.dropLast

/-- The stores there can be: finitely many keys, each a word, with integers. -/
structure Spec.CliReached (s : Store) : Prop where
  finite : ∃ l : List Bytes, ∀ k, k ∉ l → s k = none
  keys : ∀ k v, s k = some v → ∃ t, IsWord t ∧ k = strBytes t
  values : ∀ k v, s k = some v → ∃ i, v = .integer i

/-! ## Nothing else -/

private theorem Writes.before {α β} {K : Bytes → Prop} {p : Prog α} {f : Outcome DispatchError α → Prog β} (h : Writes K (p.andThen f)) :
    Writes K p := by
  induction p with
  | done r => trivial
  | onKey k upd next ih => exact ⟨h.1, fun o => ih o (h.2 o)⟩
  | onCtr m upd next ih => exact fun o => ih o (h o)

private theorem start_writes {env : Env} {K : Bytes → Prop} (a : Api) (h : ∀ k, ¬ K k → Bystander k (a.call env)) : Writes K (a.start env) := by
  rcases start_any env a with ⟨o, ho⟩ | ⟨-, -, r, g, hv, hs, hg⟩
  · rw [ho]; trivial
  · rw [hs]
    refine ((bystander_writes (env := env) (K := fun k => ¬ K k) hv h []).mono fun k hk => Classical.not_not.mp hk).andThen fun o => ?_
    obtain ⟨x, hx⟩ := hg o
    rw [hx]
    trivial

private theorem awaiting_writes {α} {env : Env} {K : Bytes → Prop} (a : Api) (F : α → Got) (p : Client.Job α) (f : α → Option Text)
    (hs : a.start env = wrap F p) (h : ∀ k, ¬ K k → Bystander k (a.call env)) : Writes K (Cli.awaiting p f) := by
  have := start_writes (env := env) a h
  rw [hs] at this
  refine (Writes.before this).andThen fun o => ?_
  rcases o with (_ | x) | _ | _ | _
  · trivial
  · dsimp only; cases f x <;> trivial
  all_goals trivial

private theorem needing_writes {α} {K : Bytes → Prop} {o : Option α} {e : Cli.Fault} {f : α → Cli.Job}
    (h : ∀ a, o = some a → Writes K (f a)) : Writes K (Cli.needing o e f) := by
  cases o with
  | none => trivial
  | some a => exact h a rfl

/-- What a request built of arguments shows, however many there are. -/
theorem built_views {m : Mode} {c : CommandId} {kt : Option KeyType} {args : List Bytes} {b : Builder} (hc : c ≠ .stats)
    (h : (Builder.newWithKeyType c kt).bytesAll m args = (.ok (), b)) : Views b.intoRequest c kt args := by
  have hne := (bytesAll_keeps h).2.2
  by_cases hn : args.length ≤ 255
  · obtain ⟨b', hb', hv, -⟩ := C01_built_request_args m c kt args (.inl hc) hn hne
    rw [h] at hb'
    cases hb'
    exact hv
  · have h0 : [] ∉ args := fun h => hne [] h rfl
    rw [bytesAll_pushAll h0] at h
    by_cases hm : mostArgs m < 0 + args.length
    · obtain ⟨b', hb'⟩ := (Filled.new m c kt).pushAll_over args hm
      rw [h] at hb'
      cases hb'
    · cases m with
      | debug => simp only [mostArgs] at hm; omega
      | release =>
        simp only [mostArgs] at hm
        obtain ⟨b', hb', hv⟩ := (BInv.new c kt (by cases c <;> first | rfl | exact absurd rfl hc)).pushAll_256 args (by simp; omega) (by rintro rfl; simp at hn)
        rw [h] at hb'
        cases hb'
        exact hv.views_of

/-- The keys of a line that is understood are words of it. -/
private theorem parse_words {m : Mode} {std : Std} {line : Text} {r : Request} (h : Cli.parse m std line = .ok r)
    (hl : '\n' ∉ line) :
    (r.commandId.keyNotation = .one ∨ r.commandId.keyNotation = .two → ∀ k, r.arg 0 = some k → ∃ t, IsWord t ∧ k = strBytes t) ∧
    (r.commandId.keyNotation = .two → ∀ k, r.arg 1 = some k → ∃ t, IsWord t ∧ k = strBytes t) := by
  obtain ⟨w, words, hsp, hline, -, hw⟩ := splitOn_inv line
  have hword : ∀ t ∈ words, strBytes t ≠ [] → IsWord t := by
    intro t ht h0
    refine ⟨fun h => h0 (by rw [h]; rfl), hw t ht, fun hn => hl ?_⟩
    rw [hline, lineOf]
    exact List.mem_append_right _ (List.mem_flatMap.mpr ⟨t, ht, List.mem_cons_of_mem _ hn⟩)
  unfold Cli.parse at h
  rw [hsp] at h
  cases w with
  | nil => cases h
  | cons x w =>
    dsimp only at h
    cases hc : Cli.command (x :: w) with
    | none => rw [hc] at h; cases h
    | some p =>
      obtain ⟨c, kt⟩ := p
      rw [hc] at h
      dsimp only at h
      cases words with
      | nil =>
        cases h
        exact ⟨fun _ k hk => by simp [Request.arg, Builder.intoRequest, Builder.newWithKeyType] at hk,
          fun _ k hk => by simp [Request.arg, Builder.intoRequest, Builder.newWithKeyType] at hk⟩
      | cons y words =>
        dsimp only at h
        split at h
        · cases h
        · rename_i args ha
          split at h
          · rename_i b hb
            cases h
            obtain ⟨h1, h2, h3⟩ := bytesAll_keeps hb
            have h1 : b.intoRequest.commandId = c := h1
            rw [h1]
            unfold Cli.inputArgs at ha
            constructor
            · intro hn k hk
              have hcs : c ≠ .stats := by rintro rfl; rcases hn with h | h <;> cases h
              rw [(built_views hcs hb).arg 0] at hk
              have hm := h3 k (List.mem_of_getElem? hk)
              rcases hn with hn | hn <;> rw [hn] at ha
              · dsimp only at ha
                cases hv : Cli.values std (kt.getD .bytes) words with
                | error e => rw [hv] at ha; cases ha
                | ok vs =>
                  rw [hv] at ha
                  cases ha
                  cases hk
                  exact ⟨y, hword y (List.mem_cons_self ..) hm, rfl⟩
              · cases words with
                | nil => cases ha
                | cons z words =>
                  dsimp only at ha
                  cases hv : Cli.values std (kt.getD .bytes) words with
                  | error e => rw [hv] at ha; cases ha
                  | ok vs =>
                    rw [hv] at ha
                    cases ha
                    cases hk
                    exact ⟨y, hword y (List.mem_cons_self ..) hm, rfl⟩
            · intro hn k hk
              have hcs : c ≠ .stats := by rintro rfl; cases hn
              rw [(built_views hcs hb).arg 1] at hk
              have hm := h3 k (List.mem_of_getElem? hk)
              rw [hn] at ha
              cases words with
              | nil => cases ha
              | cons z words =>
                dsimp only at ha
                cases hv : Cli.values std (kt.getD .bytes) words with
                | error e => rw [hv] at ha; cases ha
                | ok vs =>
                  rw [hv] at ha
                  cases ha
                  cases hk
                  exact ⟨z, hword z (List.mem_cons_of_mem _ (List.mem_cons_self ..)) hm, rfl⟩
          all_goals cases h

/-- A line changes nothing but keys that are words of it. -/
private theorem process_writes (env : Env) (std : Std) {line : Text} (hl : '\n' ∉ line) :
    Writes (fun k => ∃ t, IsWord t ∧ k = strBytes t) (Cli.process env std line) := by
  unfold Cli.process
  split
  · rename_i r hr
    refine Writes.andThen ?_ fun o => ?_
    · obtain ⟨h0, h1⟩ := parse_words hr hl
      unfold Cli.processInner
      have key : ∀ k, r.key = some k → r.arg 0 = some k := fun k hk => Request.key_arg hk
      cases hc : r.commandId <;> dsimp only
      case decrement =>
        refine needing_writes fun k hk => awaiting_writes (.decrement k none) .value _ _ rfl fun x hx => .inr ⟨?_, by simp [Api.call]⟩
        rintro ⟨⟩
        exact hx (h0 (by rw [hc]; exact .inl rfl) _ (key _ hk))
      case increment =>
        refine needing_writes fun k hk => awaiting_writes (.increment k none) .value _ _ rfl fun x hx => .inr ⟨?_, by simp [Api.call]⟩
        rintro ⟨⟩
        exact hx (h0 (by rw [hc]; exact .inl rfl) _ (key _ hk))
      case delete =>
        refine needing_writes fun k hk => awaiting_writes (.delete k) .bytes _ _ rfl fun x hx => .inr ⟨?_, by simp [Api.call]⟩
        rintro ⟨⟩
        exact hx (h0 (by rw [hc]; exact .inl rfl) _ (key _ hk))
      case rename =>
        refine needing_writes fun k hk => needing_writes fun d hd =>
          awaiting_writes (.rename k d) .bytes _ _ rfl fun x hx => .inr ⟨?_, fun _ => ?_⟩
        · rintro ⟨⟩
          exact hx (h0 (by rw [hc]; exact .inr rfl) _ (key _ hk))
        · rintro ⟨⟩
          exact hx (h1 (by rw [hc]; rfl) _ hd)
      case get => exact needing_writes fun k hk => awaiting_writes (.get k) .value _ _ rfl fun x hx => .inl (by simp [Api.call])
      case keys => exact needing_writes fun k hk => awaiting_writes (.keys k) .list _ _ rfl fun x hx => .inl (by simp [Api.call])
      case type => exact needing_writes fun k hk => awaiting_writes (.keyType k) .kind _ _ rfl fun x hx => .inl (by simp [Api.call])
      case stats => exact awaiting_writes .stats .stats _ _ rfl fun x hx => .inl (by simp [Api.call])
      case echo =>
        split
        · exact awaiting_writes (.echo _) .list _ _ rfl fun x hx => .inl (by simp [Api.call])
        · trivial
      case «exists» =>
        refine needing_writes fun ks _ => ?_
        split
        · exact awaiting_writes (.exists _) .bool _ _ rfl fun x hx => .inl (by simp [Api.call])
        all_goals trivial
      case is =>
        refine needing_writes fun t _ => needing_writes fun ks _ => ?_
        split
        · exact awaiting_writes (.is t _) .bool _ _ rfl fun x hx => .inl (by simp [Api.call])
        all_goals trivial
      all_goals trivial
    · rcases o with (_ | _) | _ | _ | _ <;> trivial
  all_goals trivial

private theorem trimmed_line {t : Text} (h : IsLine t) : '\n' ∉ Cli.trimEnd t := by
  unfold IsLine at h
  by_cases h0 : t = []
  · subst h0; simp [Cli.trimEnd]
  · obtain ⟨init, c, rfl⟩ : ∃ init c, t = init ++ [c] := ⟨_, _, (List.dropLast_concat_getLast h0).symm⟩
    rw [List.dropLast_concat] at h
    unfold Cli.trimEnd
    rw [List.reverse_append]
    simp only [List.reverse_cons, List.reverse_nil, List.nil_append, List.singleton_append]
    by_cases hc : Cli.isSpace c = true
    · rw [List.dropWhile_cons_of_pos hc]
      intro hm
      exact h (List.mem_reverse.mp ((List.dropWhile_sublist _).subset (List.mem_reverse.mp hm)))
    · rw [List.dropWhile_cons_of_neg hc]
      simp only [List.reverse_cons, List.reverse_reverse, List.mem_append, List.mem_singleton, not_or]
      refine ⟨h, ?_⟩
      rintro rfl
      exact hc (by decide)

/-- A program changes finitely many keys. -/
private theorem run_finite {α} (p : Prog α) (db : Db) : ∃ l : List Bytes, ∀ k, k ∉ l → (p.run db).2.keys k = db.keys k := by
  induction p generalizing db with
  | done r => exact ⟨[], fun _ _ => rfl⟩
  | onKey k upd next ih =>
    obtain ⟨l, hl⟩ := ih (db.keys k) (db.setKey k (upd (db.keys k)))
    refine ⟨k :: l, fun x hx => ?_⟩
    rw [List.mem_cons, not_or] at hx
    refine (hl x hx.2).trans ?_
    simp only [Db.setKey, if_neg hx.1]
  | onCtr m upd next ih =>
    obtain ⟨l, hl⟩ := ih (db.ctrs m) (db.setCtr m (upd (db.ctrs m)))
    exact ⟨l, fun x hx => hl x hx⟩

/-- **C214, nothing else.** Whatever lines are typed into the CLI, understood or not, a store as described stays one, in either
build. -/
theorem C214_only (env : Env) (std : Std) (lines : List Text) (hl : ∀ x ∈ lines, IsLine x) (db : Db) (h : CliReached db.keys) :
    CliReached (Cli.session env std lines db).2.2.keys := by
  have values : ∀ k v, (Cli.session env std lines db).2.2.keys k = some v → ∃ i, v = .integer i := by
    intro k v hv
    rcases C73_session env std lines db k v hv with h' | ⟨k', h'⟩
    · exact h'
    · exact h.values k' v h'
  suffices main : (∃ l : List Bytes, ∀ k, k ∉ l → (Cli.session env std lines db).2.2.keys k = none) ∧
      ∀ k v, (Cli.session env std lines db).2.2.keys k = some v → ∃ t, IsWord t ∧ k = strBytes t from ⟨main.1, main.2, values⟩
  have hf := h.finite
  have hk := h.keys
  clear h values
  have one : ∀ (line : Text) (db : Db), '\n' ∉ line → (∃ l : List Bytes, ∀ k, k ∉ l → db.keys k = none) →
      (∀ k v, db.keys k = some v → ∃ t, IsWord t ∧ k = strBytes t) →
      (∃ l : List Bytes, ∀ k, k ∉ l → ((Cli.process env std line).run db).2.keys k = none) ∧
      ∀ k v, ((Cli.process env std line).run db).2.keys k = some v → ∃ t, IsWord t ∧ k = strBytes t := by
    intro line db hline hf hk
    have hw := process_writes env std hline
    obtain ⟨l, hl⟩ := hf
    obtain ⟨l', hl'⟩ := run_finite (Cli.process env std line) db
    refine ⟨⟨l' ++ l, fun k hkl => ?_⟩, fun k v hv => Classical.byContradiction fun hn => ?_⟩
    · rw [List.mem_append, not_or] at hkl
      rw [hl' k hkl.1]
      exact hl k hkl.2
    · rw [hw.run db k hn] at hv
      exact hn (hk k v hv)
  induction lines generalizing db with
  | nil =>
    have := one (Cli.trimEnd []) db (by simp [Cli.trimEnd]) hf hk
    unfold Cli.session
    split <;> rename_i hr <;> rw [hr] at this <;> exact this
  | cons line lines ih =>
    have := one (Cli.trimEnd line) db (trimmed_line (hl line (List.mem_cons_self ..))) hf hk
    unfold Cli.session
    split <;> rename_i hr <;> rw [hr] at this
    · exact ih (fun x hx => hl x (List.mem_cons_of_mem _ hx)) _ this.1 this.2
    all_goals exact this

/-! ## Everything -/

/-- The number of lines that are needed at most for what is under a key: one for each step from zero to the integer, and three more. -/
def Spec.linesFor : Option Value → Nat
  | some (.integer i) => i.toInt.natAbs + 3
  | _ => 0

/-- There are lines that lead from a store to another by at most `n` commands, whatever is typed afterwards. -/
private def CliLeads (env : Env) (std : Std) (n : Nat) (s s' : Store) : Prop :=
  ∃ lines : List Text, (∀ x ∈ lines, IsLine x) ∧ ∀ db : Db, db.keys = s → (env.mode = .release ∨ Roomy n db.ctrs) →
    ∃ db' : Db, db'.keys = s' ∧ (env.mode = .release ∨ ∀ m, (db'.ctrs m).getD 0 ≤ (db.ctrs m).getD 0 + n) ∧
      ∀ rest, (Cli.session env std (lines ++ rest) db).2 = (Cli.session env std rest db').2

private theorem CliLeads.refl {env : Env} {std : Std} (s : Store) : CliLeads env std 0 s s :=
  ⟨[], by simp, fun db h _ => ⟨db, h, .inr fun _ => Nat.le_refl _, fun _ => rfl⟩⟩

private theorem CliLeads.trans {env : Env} {std : Std} {n n' : Nat} {s s' s'' : Store} (h : CliLeads env std n s s') (h' : CliLeads env std n' s' s'') :
    CliLeads env std (n + n') s s'' := by
  obtain ⟨l, h1, h2⟩ := h
  obtain ⟨l', h3, h4⟩ := h'
  refine ⟨l ++ l', fun x hx => (List.mem_append.mp hx).elim (h1 x) (h3 x), fun db hdb hroom => ?_⟩
  obtain ⟨db1, h5, hc, h6⟩ := h2 db hdb (hroom.imp id fun h m => by have := h m; omega)
  obtain ⟨db2, h7, hc', h8⟩ := h4 db1 h5 (by
    rcases hroom with h | h
    · exact .inl h
    · exact hc.imp id fun hc m => by have := h m; have := hc m; omega)
  refine ⟨db2, h7, ?_, fun rest => by rw [List.append_assoc, h6, h8]⟩
  rcases hc with h | hc
  · exact .inl h
  · exact hc'.imp id fun hc' m => by have := hc m; have := hc' m; omega

private theorem CliLeads.mono {env : Env} {std : Std} {n n' : Nat} {s s' : Store} (h : CliLeads env std n s s') (hn : n ≤ n') : CliLeads env std n' s s' := by
  obtain ⟨l, h1, h2⟩ := h
  refine ⟨l, h1, fun db hdb hroom => ?_⟩
  obtain ⟨db1, h5, hc, h6⟩ := h2 db hdb (hroom.imp id fun h m => by have := h m; omega)
  exact ⟨db1, h5, hc.imp id fun hc m => by have := hc m; omega, h6⟩

/-- What a call comes to and stores does not depend on the counters in a release build. -/
private theorem start_counters {env : Env} (hm : env.mode = .release) (a : Api) (hn : (a.call env).args.length ≤ 255) (hs : (a.call env).cmd ≠ .stats) (db : Db) :
    ((a.start env).run db).1 = ((a.start env).run { db with ctrs := fun _ => none }).1 ∧
    ((a.start env).run db).2.keys = ((a.start env).run { db with ctrs := fun _ => none }).2.keys := by
  rcases Api.start_shape env a hn with ⟨e, -, he⟩ | ⟨-, r, g, hv, hs', hg⟩
  · rw [he]; exact ⟨rfl, rfl⟩
  · have h1 := C182_outcome env r (by rw [hv.command]; exact hs) [] db
    have h2 := C182_keys env r [] db fun _ => none
    rw [hs', run_andThen, run_andThen, h1]
    have h3 : recounted env.mode db.ctrs ((dispatch env r []).run { db with ctrs := fun _ => none }).1 =
        ((dispatch env r []).run { db with ctrs := fun _ => none }).1 := by
      rw [hm]; cases ((dispatch env r []).run { db with ctrs := fun _ => none }).1 <;> simp [recounted]
    rw [h3]
    obtain ⟨x, hx⟩ := hg ((dispatch env r []).run { db with ctrs := fun _ => none }).1
    rw [hx]
    exact ⟨rfl, h2.symm⟩

/-- A call that is answered. -/
private theorem answered {env : Env} {a : Api} (hr : a.refusal = none) (hal : (a.call env).args.length ≤ 255) (hs : (a.call env).cmd ≠ .stats)
    {s s' : Store} {v : Value} {g : Got}
    (he : ∀ ctrs, execute env ctrs (a.call env).cmd (a.call env).kt (a.call env).args s = (.value v, s')) (hv : FitsValue env.mode v)
    (hg : a.understood (orderedValue env v) = some g) {db : Db} (hdb : db.keys = s) (hroom : env.mode = .release ∨ Roomy 1 db.ctrs) :
    ((a.start env).run db).1 = .ok (.ok g) ∧ ((a.start env).run db).2.keys = s' ∧
      (env.mode = .release ∨ ∀ m, (((a.start env).run db).2.ctrs m).getD 0 ≤ (db.ctrs m).getD 0 + 1) := by
  have roomy : ∀ db : Db, db.keys = s → Roomy 1 db.ctrs → ((a.start env).run db).1 = .ok (.ok g) ∧ ((a.start env).run db).2.keys = s' ∧
      ∀ m, (((a.start env).run db).2.ctrs m).getD 0 ≤ (db.ctrs m).getD 0 + 1 := by
    intro db hdb hroom
    have hp : perform env (a.call env) db = (.value v, { keys := s', ctrs := counted db.ctrs .commandsSuccessful }) := by
      simp only [perform, hdb, he]
      rfl
    have hans := C65_answered env a db hal hr hroom (by rw [hp]; exact hv)
    rw [hans, hp]
    refine ⟨by simp only [Api.given, hg], rfl, fun m => ?_⟩
    show (counted db.ctrs .commandsSuccessful m).getD 0 ≤ _
    unfold counted
    split
    · rename_i h; subst h; exact Nat.le_refl _
    · omega
  cases hm : env.mode with
  | release =>
    obtain ⟨h1, h2⟩ := start_counters hm a hal hs db
    obtain ⟨h3, h4, -⟩ := roomy { db with ctrs := fun _ => none } hdb (roomy_none 1 (by omega))
    exact ⟨h1.trans h3, h2.trans h4, .inl rfl⟩
  | debug =>
    obtain ⟨h1, h2, h3⟩ := roomy db hdb (hroom.resolve_left (by rw [hm]; nofun))
    exact ⟨h1, h2, .inr h3⟩

/-- A line that stands for a call which is answered. -/
private theorem CliLeads.line {env : Env} {std : Std} {c : CommandId} {w : Text} {words : List Text} {args : List Bytes}
    (hh : Head c .bytes w) (hw : ∀ x ∈ words, IsWord x) (ha : Arguments std c .bytes (words ++ [['0']]) args) (hn : args.length ≤ 255) {a : Api}
    (hme : Spec.meaning c .bytes args = .call a) (hr : a.refusal = none) (hal : (a.call env).args.length ≤ 255) (hs : (a.call env).cmd ≠ .stats)
    (hwn : '\n' ∉ w) {s s' : Store} {v : Value} {g : Got} {out : Text}
    (he : ∀ ctrs, execute env ctrs (a.call env).cmd (a.call env).kt (a.call env).args s = (.value v, s')) (hv : FitsValue env.mode v)
    (hg : a.understood (orderedValue env v) = some g) (ho : written env std a g = some out) : CliLeads env std 1 s s' := by
  refine ⟨[lineOf w (words ++ [['0']])], ?_, fun db hdb hroom => ?_⟩
  · intro x hx
    rw [List.mem_singleton] at hx
    subst hx
    intro hn'
    have hmem := List.dropLast_subset _ hn'
    rw [lineOf] at hmem
    rcases List.mem_append.mp hmem with h | h
    · exact hwn h
    · obtain ⟨t, ht, h⟩ := List.mem_flatMap.mp h
      rcases List.mem_cons.mp h with h | h
      · cases h
      · rcases List.mem_append.mp ht with ht | ht
        · exact (hw t ht).2.2 h
        · rw [List.mem_singleton] at ht
          subst ht
          simp at h
  · have hline := C72_line env std c .bytes w (words ++ [['0']]) args hh (by
      intro x hx
      rcases List.mem_append.mp hx with hx | hx
      · exact ⟨(hw x hx).1, (hw x hx).2.1⟩
      · rw [List.mem_singleton] at hx
        subst hx
        decide) ha hn
    rw [hme, doing] at hline
    obtain ⟨h1, h2, h3⟩ := answered hr hal hs he hv hg hdb hroom
    refine ⟨((a.start env).run db).2, h2, h3, fun rest => ?_⟩
    have hrun : (Cli.process env std (lineOf w (words ++ [['0']]))).run db = (.ok (.ok out), ((a.start env).run db).2) := by
      rw [hline, run_andThen, h1]
      simp only [reply, ho]
      rfl
    have := C74_continues env std (lineOf w (words ++ [['0']])) [] rest db _ out (by
      intro ch hch
      rw [lineOf, List.flatMap_append] at hch
      simp only [List.flatMap_cons, List.flatMap_nil, List.append_nil] at hch
      rw [← List.append_assoc, List.getLast?_append] at hch
      simp at hch
      subst hch
      unfold whiteSpace
      decide) (by simp) hrun
    rw [List.append_nil] at this
    rw [List.singleton_append, this]

private theorem strBytes_word {t : Text} (h : t ≠ []) : strBytes t ≠ [] := by
  cases t with
  | nil => exact absurd rfl h
  | cons c t =>
    rw [strBytes_cons]
    intro h
    have := congrArg List.length (List.append_eq_nil_iff.mp h).1
    rw [String.length_utf8EncodeChar] at this
    have := Char.utf8Size_pos c
    simp at *

private theorem usable {m : Mode} {t : Text} (ht : IsWord t) (hres : ¬ reserved (strBytes t)) : ¬ unusable m (strBytes t) := by
  rintro (h | ⟨-, h⟩)
  · exact hres h
  · exact strBytes_word ht.1 h

private theorem CliLeads.increment {env : Env} {std : Std} {t : Text} (ht : IsWord t) (hres : ¬ reserved (strBytes t)) {s : Store} {i : Int64}
    (hs : (s (strBytes t)).getD (.integer 0) = .integer i) (hi : inRange (i.toInt + 1)) :
    CliLeads env std 1 s (s.put (strBytes t) (some (.integer (Int64.ofInt (i.toInt + 1))))) := by
  have ht0 := strBytes_word ht.1
  refine CliLeads.line (c := .increment) (w := "increment".toList) (words := [t]) (args := [strBytes t, strBytes ['0']]) (a := .increment (strBytes t) none)
    (v := .integer (Int64.ofInt (i.toInt + 1))) (g := .value (.integer (Int64.ofInt (i.toInt + 1)))) (.inl ⟨rfl, rfl⟩) (by simpa using ht)
    (.inr ⟨[t], [['0']], [strBytes ['0']], rfl, rfl, .cons rfl .nil, nofun, rfl⟩) (by simp) rfl (by simp [Api.refusal, ht0]) (by simp [Api.call]) (by simp [Api.call])
    (by decide) (fun ctrs => ?_) trivial rfl rfl
  show execute env ctrs .increment none [strBytes t] s = _
  simp only [execute, Spec.addInteger, if_neg (usable ht hres), hs, if_pos (Or.inl hi : inRange (i.toInt + 1) ∨ env.mode = .release), reduceCtorEq, if_false]

private theorem CliLeads.decrement {env : Env} {std : Std} {t : Text} (ht : IsWord t) (hres : ¬ reserved (strBytes t)) {s : Store} {i : Int64}
    (hs : (s (strBytes t)).getD (.integer 0) = .integer i) (hi : inRange (i.toInt + -1)) :
    CliLeads env std 1 s (s.put (strBytes t) (some (.integer (Int64.ofInt (i.toInt + -1))))) := by
  have ht0 := strBytes_word ht.1
  refine CliLeads.line (c := .decrement) (w := "decrement".toList) (words := [t]) (args := [strBytes t, strBytes ['0']]) (a := .decrement (strBytes t) none)
    (v := .integer (Int64.ofInt (i.toInt + -1))) (g := .value (.integer (Int64.ofInt (i.toInt + -1)))) (.inl ⟨rfl, rfl⟩) (by simpa using ht)
    (.inr ⟨[t], [['0']], [strBytes ['0']], rfl, rfl, .cons rfl .nil, nofun, rfl⟩) (by simp) rfl (by simp [Api.refusal, ht0]) (by simp [Api.call]) (by simp [Api.call])
    (by decide) (fun ctrs => ?_) trivial rfl rfl
  show execute env ctrs .decrement none [strBytes t] s = _
  simp only [execute, Spec.addInteger, if_neg (usable ht hres), hs, if_pos (Or.inl hi : inRange (i.toInt + -1) ∨ env.mode = .release), reduceCtorEq, if_false]

private theorem CliLeads.rename {env : Env} {std : Std} {t u : Text} (ht : IsWord t) (hu : IsWord u) {s : Store} {v : Value}
    (hs : s (strBytes t) = some v) (hn : s (strBytes u) = none) (hl : (strBytes u).length + 5 < 2 ^ 32) :
    CliLeads env std 1 s ((s.put (strBytes t) none).put (strBytes u) (some v)) := by
  refine CliLeads.line (c := .rename) (w := "rename".toList) (words := [t, u]) (args := [strBytes t, strBytes u, strBytes ['0']])
    (a := .rename (strBytes t) (strBytes u))
    (v := .bytes (strBytes u)) (g := .bytes (strBytes u)) (.inl ⟨rfl, rfl⟩) (by simpa using ⟨ht, hu⟩)
    (.inr ⟨[t, u], [['0']], [strBytes ['0']], rfl, rfl, .cons rfl .nil, nofun, rfl⟩) (by simp) rfl
    (by simp [Api.refusal, strBytes_word ht.1, strBytes_word hu.1]) (by simp [Api.call]) (by simp [Api.call])
    (by decide) (fun ctrs => ?_) ⟨hl, fun _ => strBytes_word hu.1⟩ rfl rfl
  show execute env ctrs .rename none [strBytes t, strBytes u] s = _
  simp [execute, hs, hn]

private theorem CliLeads.delete {env : Env} {std : Std} {t : Text} (ht : IsWord t) {s : Store} {v : Value}
    (hs : s (strBytes t) = some v) (hl : (strBytes t).length + 5 < 2 ^ 32) : CliLeads env std 1 s (s.put (strBytes t) none) := by
  refine CliLeads.line (c := .delete) (w := "delete".toList) (words := [t]) (args := [strBytes t, strBytes ['0']]) (a := .delete (strBytes t))
    (v := .bytes (strBytes t)) (g := .bytes (strBytes t)) (.inl ⟨rfl, rfl⟩) (by simpa using ht)
    (.inr ⟨[t], [['0']], [strBytes ['0']], rfl, rfl, .cons rfl .nil, nofun, rfl⟩) (by simp) rfl (by simp [Api.refusal, strBytes_word ht.1])
    (by simp [Api.call]) (by simp [Api.call]) (by decide) (fun ctrs => ?_) ⟨hl, fun _ => strBytes_word ht.1⟩ rfl rfl
  show execute env ctrs .delete none [strBytes t] s = _
  simp [execute, hs]

/-- Deleting one key after the other leads to an empty store. -/
private theorem CliLeads.clear {env : Env} {std : Std} :
    ∀ (l : List Bytes) (s : Store), (∀ k, k ∉ l → s k = none) → (∀ k v, s k = some v → (∃ t, IsWord t ∧ k = strBytes t) ∧ k.length + 5 < 2 ^ 32) →
      CliLeads env std l.length s (fun _ => none)
  | [], s, hf, _ => by
    have : s = fun _ => none := funext fun k => hf k (by simp)
    rw [this]
    exact .refl _
  | k :: l, s, hf, hk => by
    have rest : ∀ s' : Store, (∀ x, x ≠ k → s' x = s x) → s' k = none → CliLeads env std l.length s' (fun _ => none) := by
      intro s' h1 h2
      refine CliLeads.clear l s' (fun x hx => ?_) fun x v hv => ?_
      · by_cases hxk : x = k
        · rw [hxk, h2]
        · rw [h1 x hxk]
          exact hf x (by simp [hxk, hx])
      · have hxk : x ≠ k := by rintro rfl; rw [h2] at hv; cases hv
        rw [h1 x hxk] at hv
        exact hk x v hv
    cases hv : s k with
    | none => exact (rest s (fun _ _ => rfl) hv).mono (by simp)
    | some v =>
      obtain ⟨⟨t, ht, rfl⟩, hl⟩ := hk k v hv
      exact ((CliLeads.delete ht hv hl).trans (rest _ (fun x hx => put_apply_ne _ _ hx) (put_apply_self _ _ _))).mono (by simp only [List.length_cons]; omega)

/-- Counting up or down leads to every integer. -/
private theorem CliLeads.count {env : Env} {std : Std} {t : Text} (ht : IsWord t) (hres : ¬ reserved (strBytes t)) {s : Store}
    (hs : s (strBytes t) = none) (i : Int64) : CliLeads env std (i.toInt.natAbs + 2) s (s.put (strBytes t) (some (.integer i))) := by
  have at0 : (s (strBytes t)).getD (.integer 0) = .integer 0 := by rw [hs]; rfl
  have up : ∀ n : Nat, inRange (1 + n : Int) → CliLeads env std (n + 1) s (s.put (strBytes t) (some (.integer (Int64.ofInt (1 + n))))) := by
    intro n hn
    induction n with
    | zero => exact CliLeads.increment ht hres at0 (by decide)
    | succ n ih =>
      have hn' : inRange (1 + n : Int) := by unfold inRange at hn ⊢; omega
      have := CliLeads.increment (env := env) (std := std) ht hres (s := s.put (strBytes t) (some (.integer (Int64.ofInt (1 + n))))) (i := Int64.ofInt (1 + n))
        (by rw [put_apply_self]; rfl) (by rw [toInt_ofInt hn']; unfold inRange at hn ⊢; omega)
      rw [put_put, toInt_ofInt hn'] at this
      exact (ih hn').trans this
  have down : ∀ n : Nat, inRange (-1 - n : Int) → CliLeads env std (n + 1) s (s.put (strBytes t) (some (.integer (Int64.ofInt (-1 - n))))) := by
    intro n hn
    induction n with
    | zero => exact CliLeads.decrement ht hres at0 (by decide)
    | succ n ih =>
      have hn' : inRange (-1 - n : Int) := by unfold inRange at hn ⊢; omega
      have := CliLeads.decrement (env := env) (std := std) ht hres (s := s.put (strBytes t) (some (.integer (Int64.ofInt (-1 - n))))) (i := Int64.ofInt (-1 - n))
        (by rw [put_apply_self]; rfl) (by rw [toInt_ofInt hn']; unfold inRange at hn ⊢; omega)
      rw [put_put, toInt_ofInt hn', show (-1 - n + -1 : Int) = -1 - ((n + 1 : Nat) : Int) by omega] at this
      exact (ih hn').trans this
  have hr : inRange i.toInt := ⟨Int64.le_toInt i, Int64.toInt_lt i⟩
  by_cases h0 : i.toInt = 0
  · have hi : i = 0 := by rw [← Int64.ofInt_toInt (x := i), h0]; rfl
    have := CliLeads.decrement (env := env) (std := std) ht hres (s := s.put (strBytes t) (some (.integer 1))) (i := 1) (by rw [put_apply_self]; rfl) (by decide)
    rw [put_put] at this
    subst hi
    exact (up 0 (by decide)).trans this
  · by_cases hpos : 0 < i.toInt
    · have he : (1 + ((i.toInt - 1).toNat : Int)) = i.toInt := by omega
      have := up (i.toInt - 1).toNat (by rw [he]; exact hr)
      rw [he, Int64.ofInt_toInt] at this
      exact this.mono (by omega)
    · have he : (-1 - ((-i.toInt - 1).toNat : Int)) = i.toInt := by omega
      have := down (-i.toInt - 1).toNat (by rw [he]; exact hr)
      rw [he, Int64.ofInt_toInt] at this
      exact this.mono (by omega)

private def theseOnly (s : Store) (l : List Bytes) : Store := fun k => if k ∈ l then s k else none

private theorem CliLeads.build {env : Env} {std : Std} {s : Store} (hr : CliReached s)
    (hl : ∀ k v, s k = some v → k.length + 5 < 2 ^ 32) {j : Text} (hj : IsWord j) (hres : ¬ reserved (strBytes j)) :
    ∀ l : List Bytes, strBytes j ∉ l → CliLeads env std (l.map fun k => linesFor (s k)).sum (fun _ => none) (theseOnly s l)
  | [], _ => by
    have : theseOnly s [] = fun _ => none := by funext k; simp [theseOnly]
    rw [this]
    exact .refl _
  | k :: l, hjl => by
    have ih := CliLeads.build (env := env) (std := std) hr hl hj hres l fun h => hjl (List.mem_cons_of_mem _ h)
    rw [List.map_cons, List.sum_cons]
    have same : k ∈ l ∨ s k = none → theseOnly s (k :: l) = theseOnly s l := by
      intro h
      funext x
      simp only [theseOnly, List.mem_cons]
      by_cases hx : x = k
      · subst hx
        rcases h with h | h <;> simp [h]
      · simp [hx]
    by_cases hkl : k ∈ l
    · rw [same (.inl hkl)]; exact ih.mono (by omega)
    · cases hv : s k with
      | none => rw [same (.inr hv)]; exact ih.mono (by omega)
      | some v =>
        have hne : strBytes j ≠ k := fun h => hjl (h ▸ List.mem_cons_self ..)
        obtain ⟨i, rfl⟩ := hr.values k v hv
        obtain ⟨u, hu, rfl⟩ := hr.keys k _ hv
        have hj0 : theseOnly s l (strBytes j) = none := if_neg fun h => hjl (List.mem_cons_of_mem _ h)
        have hu0 : theseOnly s l (strBytes u) = none := if_neg hkl
        have := CliLeads.rename (env := env) (std := std) hj hu (s := (theseOnly s l).put (strBytes j) (some (.integer i))) (put_apply_self _ _ _)
          (by rw [put_apply_ne _ _ hne.symm]; exact hu0) (hl _ _ hv)
        rw [put_put] at this
        have he : ((theseOnly s l).put (strBytes j) none).put (strBytes u) (some (.integer i)) = theseOnly s (strBytes u :: l) := by
          funext x
          by_cases hx : x = strBytes u
          · rw [hx, put_apply_self]; simp [theseOnly, hv]
          · rw [put_apply_ne _ _ hx]
            by_cases hxj : x = strBytes j
            · rw [hxj, put_apply_self]
              exact (if_neg hjl).symm
            · rw [put_apply_ne _ _ hxj]; simp [theseOnly, hx]
        rw [he] at this
        refine ((ih.trans (CliLeads.count hj hres hj0 i)).trans this).mono ?_
        simp only [linesFor]
        omega

/-- A word that is none of the given keys. -/
private theorem spare (l : List Bytes) : ∃ j : Text, IsWord j ∧ ¬ reserved (strBytes j) ∧ strBytes j ∉ l := by
  have len : ∀ n, strBytes (List.replicate n 'a') = List.replicate n 97 := by
    intro n
    induction n with
    | zero => rfl
    | succ n ih => rw [List.replicate_succ, strBytes_cons, ih]; rfl
  have big : ∀ l : List Bytes, ∃ n, ∀ x ∈ l, x.length ≤ n := by
    intro l
    induction l with
    | nil => exact ⟨0, by simp⟩
    | cons y l ih =>
      obtain ⟨n, hn⟩ := ih
      refine ⟨n + y.length, fun x hx => ?_⟩
      rcases List.mem_cons.mp hx with rfl | hx
      · omega
      · have := hn x hx; omega
  obtain ⟨n, hn⟩ := big l
  refine ⟨List.replicate (n + 1) 'a', ⟨by simp, by simp [List.mem_replicate], by simp [List.mem_replicate]⟩, ?_, fun h => ?_⟩
  · rw [len]
    intro h
    have h := congrArg List.head? h
    rw [List.replicate_succ] at h
    simp [List.take_succ_cons] at h
    revert h
    decide
  · have := hn _ h
    rw [len, List.length_replicate] at this
    omega

/-- **C214, everything.** For every store as described there are lines that lead to exactly that store from whatever values are stored
under finitely many keys that are words, even values the CLI itself could not store; as far as keys shorter than 4 GiB are concerned, and in a debug build if
the statistics can still count the lines needed: one for each key to be deleted, and three for each key to be made, and one for each step from zero to its integer. -/
theorem C214_every {env : Env} (std : Std) {s : Store} (hr : CliReached s) (hl : ∀ k v, s k = some v → k.length + 5 < 2 ^ 32)
    {db : Db} (hk : ∀ k v, db.keys k = some v → (∃ t, IsWord t ∧ k = strBytes t) ∧ k.length + 5 < 2 ^ 32)
    {old new : List Bytes} (ho : ∀ k, k ∉ old → db.keys k = none) (hn : ∀ k, k ∉ new → s k = none)
    (hd : env.mode = .release ∨ Roomy (old.length + (new.map fun k => linesFor (s k)).sum) db.ctrs) :
    ∃ lines : List Text, (∀ x ∈ lines, IsLine x) ∧ (Cli.session env std lines db).2.2.keys = s ∧
      (Cli.session env std lines db).2.1 = .error .noCommandProvided := by
  obtain ⟨j, hj, hres, hjl⟩ := spare new
  obtain ⟨lines, h1, h2⟩ := (CliLeads.clear (env := env) (std := std) old db.keys ho hk).trans (CliLeads.build (std := std) hr hl hj hres new hjl)
  obtain ⟨db', h3, -, h4⟩ := h2 db rfl hd
  have := h4 []
  rw [List.append_nil] at this
  refine ⟨lines, h1, ?_, by rw [this, C74_end]⟩
  rw [this, C74_end]
  show db'.keys = s
  rw [h3]
  funext k
  by_cases hk : k ∈ new
  · exact if_pos hk
  · rw [hn k hk]; exact if_neg hk

/-- **C214.** In a release build the stores that sessions of the CLI can leave, begun with nothing stored, are exactly those described (among those
whose keys are shorter than 4 GiB). -/
theorem C214_stores {env : Env} (std : Std) (hm : env.mode = .release) (s : Store) (hl : ∀ k v, s k = some v → k.length + 5 < 2 ^ 32) :
    (∃ lines : List Text, (∀ x ∈ lines, IsLine x) ∧ (Cli.session env std lines Db.empty).2.2.keys = s) ↔ CliReached s := by
  constructor
  · rintro ⟨lines, h1, rfl⟩
    exact C214_only env std lines h1 Db.empty ⟨⟨[], fun _ _ => rfl⟩, fun _ _ h => (by cases h), fun _ _ h => (by cases h)⟩
  · intro h
    obtain ⟨l, hf⟩ := h.finite
    obtain ⟨lines, h1, h2, -⟩ := C214_every std h hl (db := Db.empty) (fun _ _ h => (by cases h)) (old := []) (fun _ _ => rfl) hf (.inl hm)
    exact ⟨lines, h1, h2⟩

/-! ## Concrete cases -/

/-- A store with an internal key that holds a negative integer. -/
private theorem sample_cli : CliReached (fun k => if k = ascii "__hop__:x" then some (.integer (-7)) else none) := by
  refine ⟨⟨[ascii "__hop__:x"], fun k hk => if_neg (by simpa using hk)⟩, fun k v h => ?_, fun k v h => ?_⟩
  · by_cases hk : k = ascii "__hop__:x"
    · exact ⟨"__hop__:x".toList, by unfold IsWord; decide, by rw [hk]; decide⟩
    · rw [if_neg hk] at h; cases h
  · by_cases hk : k = ascii "__hop__:x"
    · rw [if_pos hk] at h; cases h; exact ⟨_, rfl⟩
    · rw [if_neg hk] at h; cases h

example (std : Std) : ∃ lines : List Text, (∀ x ∈ lines, IsLine x) ∧
    (Cli.session (sampleEnv .release) std lines Db.empty).2.2.keys = fun k => if k = ascii "__hop__:x" then some (.integer (-7)) else none :=
  (C214_stores (env := sampleEnv .release) std rfl _ fun k v h => by
    by_cases hk : k = ascii "__hop__:x"
    · rw [hk]; decide
    · rw [if_neg hk] at h; cases h).mpr sample_cli

/-- There are lines that get rid of a list, which no line could have stored, in a debug build too. -/
example (std : Std) (m : Mode) : ∃ lines : List Text, (∀ x ∈ lines, IsLine x) ∧
    (Cli.session (sampleEnv m) std lines (sampleDb [([97], .list [[1]])])).2.2.keys = (fun k => if k = ascii "__hop__:x" then some (.integer (-7)) else none) ∧
    (Cli.session (sampleEnv m) std lines (sampleDb [([97], .list [[1]])])).2.1 = .error .noCommandProvided := by
  refine C214_every std sample_cli (fun k v h => ?_) (fun k v h => ?_) (old := [[97]]) (fun k hk => ?_) (new := [ascii "__hop__:x"])
    (fun k hk => if_neg (by simpa using hk)) (.inr (sampleDb_roomy _ _ (by decide)))
  · by_cases hk : k = ascii "__hop__:x"
    · rw [hk]; decide
    · rw [if_neg hk] at h; cases h
  · by_cases hk : k = [97]
    · exact ⟨⟨['a'], by unfold IsWord; decide, by rw [hk]; decide⟩, by rw [hk]; decide⟩
    · simp [sampleDb, List.lookup, beq_false_of_ne hk] at h
  · have hk : k ≠ [97] := by simpa using hk
    simp [sampleDb, List.lookup, beq_false_of_ne hk]

/-- No session stores anything under a key with a space in it. -/
example (std : Std) (m : Mode) (lines : List Text) (hl : ∀ x ∈ lines, IsLine x) :
    (Cli.session (sampleEnv m) std lines Db.empty).2.2.keys [97, 32, 98] = none := by
  have h := C214_only (sampleEnv m) std lines hl Db.empty ⟨⟨[], fun _ _ => rfl⟩, fun _ _ h => (by cases h), fun _ _ h => (by cases h)⟩
  cases hk : (Cli.session (sampleEnv m) std lines Db.empty).2.2.keys [97, 32, 98] with
  | none => rfl
  | some v =>
    obtain ⟨t, hw, ht⟩ := h.keys _ _ hk
    have h1 := fromUtf8_strBytes t
    have h2 : fromUtf8 [97, 32, 98] = some "a b".toList := by decide +kernel
    rw [← ht, h2] at h1
    cases h1
    exact absurd (by decide) hw.2.1

end Hop
