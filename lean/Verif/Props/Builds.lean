import Verif.Props.Store

/-!
# A release build does what a debug build does, unless that panics (C201)
-/

namespace Hop

open Prog Spec

/-- The same program in the same environment, built in this mode. -/
def Spec.builtAs (env : Env) (m : Mode) : Env := { env with mode := m }

/-! ## Arithmetic and responses -/

theorem addU_alike {bits a b n : Nat} (h : addU .debug bits a b = some n) : addU .release bits a b = some n := by
  simp only [addU] at h ⊢
  split at h
  · rename_i hlt; rw [if_pos hlt]; exact h
  · cases h

private theorem writeBytes_alike {to v out : Bytes} (h : Response.writeBytes .debug to v = some out) : Response.writeBytes .release to v = some out := by
  simp only [Response.writeBytes, Option.bind_eq_bind, Option.bind_eq_some_iff] at h ⊢
  obtain ⟨n, hn, h⟩ := h
  exact ⟨n, addU_alike hn, h⟩

private theorem writeStr_alike {to out : Bytes} {s : List Char} (h : Response.writeStr .debug to s = some out) : Response.writeStr .release to s = some out := by
  simp only [Response.writeStr, Option.bind_eq_bind, Option.bind_eq_some_iff] at h ⊢
  obtain ⟨n, hn, h⟩ := h
  exact ⟨n, addU_alike hn, h⟩

private theorem writeListLoop_alike (l : List Bytes) : ∀ {to : Bytes} {a b : Nat} {x : Bytes × Nat × Nat},
    Response.writeListLoop .debug to a b l = some x → Response.writeListLoop .release to a b l = some x := by
  induction l with
  | nil => exact fun h => h
  | cons y l ih =>
    intro to a b x h
    simp only [Response.writeListLoop, Option.bind_eq_bind, Option.bind_eq_some_iff] at h ⊢
    obtain ⟨n1, h1, n2, h2, n3, h3, h⟩ := h
    exact ⟨n1, addU_alike h1, n2, addU_alike h2, n3, addU_alike h3, ih h⟩

private theorem writeList_alike {to out : Bytes} {l : List Bytes} (h : Response.writeList .debug to l = some out) : Response.writeList .release to l = some out := by
  simp only [Response.writeList, Option.bind_eq_bind, Option.bind_eq_some_iff] at h ⊢
  obtain ⟨x, hx, h⟩ := h
  exact ⟨x, writeListLoop_alike l hx, h⟩

private theorem mapLen_alike (l : BMap) : ∀ {a n : Nat}, Response.mapLen .debug a l = some n → Response.mapLen .release a l = some n := by
  induction l with
  | nil => exact fun h => h
  | cons e l ih =>
    intro a n h
    simp only [Response.mapLen, Option.bind_eq_bind, Option.bind_eq_some_iff] at h ⊢
    obtain ⟨n1, h1, n2, h2, n3, h3, n4, h4, h⟩ := h
    exact ⟨n1, addU_alike h1, n2, addU_alike h2, n3, addU_alike h3, n4, addU_alike h4, ih h⟩

private theorem setLen_alike (l : BSet) : ∀ {a n : Nat}, Response.setLen .debug a l = some n → Response.setLen .release a l = some n := by
  induction l with
  | nil => exact fun h => h
  | cons e l ih =>
    intro a n h
    simp only [Response.setLen, Option.bind_eq_bind, Option.bind_eq_some_iff] at h ⊢
    obtain ⟨n1, h1, n2, h2, h⟩ := h
    exact ⟨n1, addU_alike h1, n2, addU_alike h2, ih h⟩

private theorem writeMap_alike {env : Env} {to out : Bytes} {l : BMap} (h : Response.writeMap (builtAs env .debug) to l = some out) :
    Response.writeMap (builtAs env .release) to l = some out := by
  simp only [Response.writeMap, Response.writeMapIter, builtAs, Option.bind_eq_bind, Option.bind_eq_some_iff] at h ⊢
  obtain ⟨n, hn, h⟩ := h
  exact ⟨n, mapLen_alike _ hn, h⟩

private theorem writeSet_alike {env : Env} {to out : Bytes} {l : BSet} (h : Response.writeSet (builtAs env .debug) to l = some out) :
    Response.writeSet (builtAs env .release) to l = some out := by
  simp only [Response.writeSet, Response.writeSetIter, builtAs, Option.bind_eq_bind, Option.bind_eq_some_iff] at h ⊢
  obtain ⟨n, hn, h⟩ := h
  exact ⟨n, setLen_alike _ hn, h⟩

private theorem writeValue_alike {env : Env} {to out : Bytes} {v : Value} (h : Response.writeValue (builtAs env .debug) to v = some out) :
    Response.writeValue (builtAs env .release) to v = some out := by
  cases v with
  | bytes b => exact writeBytes_alike h
  | list b => exact writeList_alike h
  | map b => exact writeMap_alike h
  | set b => exact writeSet_alike h
  | string b => exact writeStr_alike h
  | _ => exact h

private theorem addI64_alike {a b c : Int64} (h : addI64 .debug a b = some c) : addI64 .release a b = some c := by
  simp only [addI64] at h ⊢
  split at h
  · rename_i hlt; rw [if_pos hlt]; exact h
  · cases h

private theorem negI64_alike {a c : Int64} (h : negI64 .debug a = some c) : negI64 .release a = some c := by
  simp only [negI64] at h ⊢
  split at h
  · rename_i hlt; rw [if_pos hlt]; exact h
  · cases h

/-! ## Programs that agree until the first ends badly -/

/-- The outcome is a panic. -/
def Panicked {α} (r : Outcome DispatchError α) : Prop := r = .panic

/-- Whatever else happens to the store, the two programs do and answer the same, until the first ends badly. -/
inductive UntilBad {α} (bad : Outcome DispatchError α → Prop) : Prog α → Prog α → Prop
  | bad {r : Outcome DispatchError α} {q : Prog α} : bad r → UntilBad bad (.done r) q
  | same (r : Outcome DispatchError α) : UntilBad bad (.done r) (.done r)
  | onKey {k : Bytes} {upd upd' : Option Value → Option Value} {next next' : Option Value → Prog α} :
    (∀ o, UntilBad bad (next o) (next' o)) → (∀ o, upd o = upd' o ∨ ∃ r, bad r ∧ next o = .done r) → UntilBad bad (.onKey k upd next) (.onKey k upd' next')
  | onCtr {m : Metric} {upd upd' : Option Nat → Option Nat} {next next' : Option Nat → Prog α} :
    (∀ o, UntilBad bad (next o) (next' o)) → (∀ o, upd o = upd' o ∨ ∃ r, bad r ∧ next o = .done r) → UntilBad bad (.onCtr m upd next) (.onCtr m upd' next')

theorem UntilBad.panic {α} {q : Prog α} : UntilBad Panicked (.done .panic) q := .bad rfl

/-- What either gives or panics. -/
theorem UntilBad.opt {α} {o o' : Option α} (h : ∀ x, o = some x → o' = some x) : UntilBad Panicked (.done (.ofOption o)) (.done (.ofOption o')) := by
  cases o with
  | none => exact .panic
  | some x => rw [h x rfl]; exact .same _

theorem UntilBad.andThen {α β} {bad : Outcome DispatchError α → Prop} {bad' : Outcome DispatchError β → Prop} {p q : Prog α} (h : UntilBad bad p q)
    {f g : Outcome DispatchError α → Prog β} (hp : ∀ r, bad r → ∃ r', bad' r' ∧ f r = .done r') (hf : ∀ r, UntilBad bad' (f r) (g r)) :
    UntilBad bad' (p.andThen f) (q.andThen g) := by
  have hb : ∀ {p : Prog α}, (∃ r, bad r ∧ p = .done r) → ∃ r, bad' r ∧ p.andThen f = .done r := by
    rintro _ ⟨r, hr, rfl⟩
    exact hp r hr
  induction h with
  | bad h =>
    obtain ⟨r', hr', he⟩ := hp _ h
    simp only [Prog.andThen, he]
    exact .bad hr'
  | same r => exact hf r
  | onKey _ hu ih => exact .onKey ih fun o => (hu o).imp id hb
  | onCtr _ hu ih => exact .onCtr ih fun o => (hu o).imp id hb

theorem UntilBad.read {α} {bad : Outcome DispatchError α → Prop} {k : Bytes} {next next' : Option Value → Prog α} (h : ∀ o, UntilBad bad (next o) (next' o)) :
    UntilBad bad (readKey k next) (readKey k next') := .onKey h fun _ => .inl rfl

private theorem UntilBad.remove {k : Bytes} {next next' : Option Value → Prog Bytes} (h : ∀ o, UntilBad Panicked (next o) (next' o)) :
    UntilBad Panicked (removeKey k next) (removeKey k next') := .onKey h fun _ => .inl rfl

private theorem UntilBad.orErr {α} {o : Option α} {e : DispatchError} {f g : α → Prog Bytes} (h : ∀ a, UntilBad Panicked (f a) (g a)) :
    UntilBad Panicked (orErr o e f) (orErr o e g) := by
  cases o with
  | none => exact .same _
  | some a => exact h a

private theorem UntilBad.loop {k : Bytes} {mk : Value} {body body' : Value → Value × Outcome DispatchError Bytes}
    (hb : ∀ v, (body v).2 = .panic ∨ body v = body' v) (i : Nat) : UntilBad Panicked (keyOrInsertLoop k mk body i) (keyOrInsertLoop k mk body' i) := by
  induction i with
  | zero => exact .same _
  | succ i ih =>
    refine .onKey (fun o => ?_) fun o => ?_
    · cases o with
      | none => exact .onKey (fun _ => ih) fun _ => .inl rfl
      | some v =>
        cases hb v with
        | inl h => simp only [h]; exact .panic
        | inr h => simp only [h]; exact .same _
    · cases o with
      | none => exact .inl rfl
      | some v =>
        cases hb v with
        | inl h => exact .inr ⟨_, rfl, by simp only [h]⟩
        | inr h => exact .inl (by simp only [Option.map_some, h])

private theorem UntilBad.orInsert {env : Env} {k : Bytes} {mk : Value} {body body' : Value → Value × Outcome DispatchError Bytes}
    (hb : ∀ v, (body v).2 = .panic ∨ body v = body' v) :
    UntilBad Panicked (keyOrInsertWith (builtAs env .debug) k mk body) (keyOrInsertWith (builtAs env .release) k mk body') := by
  simp only [keyOrInsertWith]
  by_cases hi : isInternal k = true
  · simp only [hi, if_true]; exact .panic
  · simp only [hi]
    by_cases he : k = []
    · simp only [he, builtAs, and_true, if_true, Bool.false_eq_true, if_false]; exact .panic
    · simp only [he, builtAs, and_false, Bool.false_eq_true, if_false]; exact .loop hb _

private theorem UntilBad.keyRef {env : Env} {k : Bytes} {next next' : Option Value → Prog Bytes} (h : ∀ o, UntilBad Panicked (next o) (next' o)) :
    UntilBad Panicked (Hop.keyRef (builtAs env .debug) k next) (Hop.keyRef (builtAs env .release) k next') := by
  simp only [Hop.keyRef]
  by_cases hi : isInternal k = true
  · simp only [hi, if_true]; exact .panic
  · simp only [hi]
    by_cases he : k = []
    · simp only [he, builtAs, and_true, if_true, Bool.false_eq_true, if_false]; exact .panic
    · simp only [he, builtAs, and_false, Bool.false_eq_true, if_false]; exact .read h

private theorem UntilBad.resolve {r : Request} {k : Bytes} {t : KeyType} {next next' : KeyType → Prog Bytes} (h : ∀ t, UntilBad Panicked (next t) (next' t)) :
    UntilBad Panicked (resolveKeyType r k t next) (resolveKeyType r k t next') := by
  simp only [resolveKeyType]
  split
  · exact h _
  · exact .read fun _ => h _

private theorem opt_same {v : Value} {o o' : Option Bytes} (h : ∀ x, o = some x → o' = some x) :
    (v, (Outcome.ofOption o : Outcome DispatchError Bytes)).2 = .panic ∨ (v, (Outcome.ofOption o : Outcome DispatchError Bytes)) = (v, .ofOption o') := by
  cases o with
  | none => exact .inl rfl
  | some x => rw [h x rfl]; exact .inr rfl

private theorem UntilBad.float (env : Env) (k : Bytes) (f : F64) (resp : Bytes) :
    UntilBad Panicked (incrementFloatBy (builtAs env .debug) k f resp) (incrementFloatBy (builtAs env .release) k f resp) :=
  .orInsert fun _ => .inr rfl

private theorem UntilBad.int (env : Env) (k : Bytes) (i : Int64) (resp : Bytes) :
    UntilBad Panicked (incrementIntBy (builtAs env .debug) k i resp) (incrementIntBy (builtAs env .release) k i resp) :=
  .orInsert fun v => by
    cases v with
    | integer j =>
      simp only [builtAs]
      cases h : addI64 .debug j i with
      | none => exact .inl rfl
      | some n => rw [addI64_alike h]; exact .inr rfl
    | _ => exact .inr rfl

private theorem UntilBad.append (env : Env) (r : Request) (resp : Bytes) :
    UntilBad Panicked (dispatchAppend (builtAs env .debug) r resp) (dispatchAppend (builtAs env .release) r resp) := by
  refine .orErr fun k => .orErr fun l => .resolve fun t => ?_
  cases t with
  | bytes => exact .orInsert fun v => by cases v <;> first | exact .inr rfl | exact opt_same fun _ => writeBytes_alike
  | list => exact .orInsert fun v => by cases v <;> first | exact .inr rfl | exact opt_same fun _ => writeList_alike
  | string => exact .orInsert fun v => by cases v <;> first | exact .inr rfl | exact opt_same fun _ => writeStr_alike
  | _ => exact .same _

private theorem UntilBad.set (env : Env) (r : Request) (resp : Bytes) :
    UntilBad Panicked (dispatchSet (builtAs env .debug) r resp) (dispatchSet (builtAs env .release) r resp) := by
  refine .orErr fun k => ?_
  split
  · exact .same _
  · refine .resolve fun t => ?_
    cases t with
    | bytes => exact .orErr fun x => .remove fun _ => .orInsert fun v => by cases v <;> first | exact .inr rfl | exact opt_same fun _ => writeBytes_alike
    | list => exact .orErr fun x => .remove fun _ => .orInsert fun v => by cases v <;> first | exact .inr rfl | exact opt_same fun _ => writeList_alike
    | string => exact .orErr fun x => .remove fun _ => .orInsert fun v => by cases v <;> first | exact .inr rfl | exact opt_same fun _ => writeStr_alike
    | map =>
      refine .orErr fun x => .remove fun _ => .orInsert fun v => ?_
      cases v with
      | map old =>
        simp only []
        cases h : Response.writeMap (builtAs env .debug) resp x with
        | none => exact .inl rfl
        | some out => rw [writeMap_alike h]; exact .inr rfl
      | _ => exact .inr rfl
    | set =>
      refine .orErr fun x => .remove fun _ => .orInsert fun v => ?_
      cases v with
      | set old =>
        simp only []
        cases h : Response.writeSet (builtAs env .debug) resp x with
        | none => exact .inl rfl
        | some out => rw [writeSet_alike h]; exact .inr rfl
      | _ => exact .inr rfl
    | _ => exact .orErr fun x => .remove fun _ => .orInsert fun v => by cases v <;> exact .inr rfl

private theorem UntilBad.rename (env : Env) (r : Request) (resp : Bytes) :
    UntilBad Panicked (dispatchRename (builtAs env .debug) r resp) (dispatchRename (builtAs env .release) r resp) := by
  simp only [dispatchRename]
  split
  · exact .same _
  · refine .orErr fun k => .orErr fun x => .read fun _ => ?_
    simp only []
    split
    · exact .same _
    · refine .read fun _ => ?_
      simp only []
      split
      · exact .same _
      · refine .remove fun o => ?_
        cases o with
        | none => exact .same _
        | some v => exact .onKey (fun _ => .opt (fun _ => writeBytes_alike)) fun _ => .inl rfl

private theorem UntilBad.allExist {next next' : Bool → Prog Bytes} (h : ∀ b, UntilBad Panicked (next b) (next' b)) (ks : List Bytes) :
    UntilBad Panicked (allExist next ks) (allExist next' ks) := by
  induction ks with
  | nil => exact h _
  | cons k ks ih =>
    refine .read fun o => ?_
    simp only []
    split
    · exact ih
    · exact h _

private theorem UntilBad.allAre {t : KeyType} {next next' : Bool → Prog Bytes} (h : ∀ b, UntilBad Panicked (next b) (next' b)) (ks : List Bytes) :
    UntilBad Panicked (allAre t next ks) (allAre t next' ks) := by
  induction ks with
  | nil => exact h _
  | cons k ks ih =>
    refine .read fun o => ?_
    simp only []
    split
    · exact ih
    · exact h _

private theorem UntilBad.statsLoop {next next' : BMap → Prog Bytes} (h : ∀ b, UntilBad Panicked (next b) (next' b)) (cs : List Metric) : ∀ m : BMap,
    UntilBad Panicked (statsLoop next cs m) (statsLoop next' cs m) := by
  induction cs with
  | nil => exact fun m => h _
  | cons c cs ih =>
    intro m
    refine .onCtr (fun o => ?_) fun _ => .inl rfl
    cases o with
    | none => exact ih _
    | some n =>
      simp only []
      split
      · exact ih _
      · exact ih _

theorem agree_command (env : Env) (r : Request) (resp : Bytes) : UntilBad Panicked (command (builtAs env .debug) r resp) (command (builtAs env .release) r resp) := by
  simp only [command]
  cases hc : r.commandId with
  | append => exact .append env r resp
  | set => exact .set env r resp
  | rename => exact .rename env r resp
  | decrementBy =>
    refine .orErr fun k => ?_
    cases (r.arg 1).bind convInt with
    | some i =>
      simp only [builtAs]
      cases h : negI64 .debug i with
      | none => exact .panic
      | some n => rw [negI64_alike h]; exact .int env k _ _
    | none =>
      simp only []
      cases (r.arg 1).bind convFloat with
      | some f => exact .float env k _ _
      | none => exact .same _
  | incrementBy =>
    refine .orErr fun k => ?_
    cases (r.arg 1).bind convInt with
    | some i => exact .int env k _ _
    | none =>
      simp only []
      cases (r.arg 1).bind convFloat with
      | some f => exact .float env k _ _
      | none => exact .same _
  | decrement =>
    refine .orErr fun k => ?_
    split
    · exact .float env k _ _
    · exact .int env k _ _
  | increment =>
    refine .orErr fun k => ?_
    split
    · exact .float env k _ _
    · exact .int env k _ _
  | delete =>
    simp only [dispatchDelete]
    split
    · exact .same _
    · refine .orErr fun k => .remove fun o => ?_
      cases o with
      | none => exact .same _
      | some v => exact .opt (fun _ => writeBytes_alike)
  | echo =>
    simp only [dispatchEcho]
    split <;> exact .opt (fun _ => writeList_alike)
  | «exists» =>
    simp only [dispatchExists]
    split
    · exact .same _
    · exact .orErr fun _ => .allExist (fun _ => .same _) _
  | get =>
    refine .orErr fun k => .keyRef fun o => ?_
    cases o with
    | none => exact .same _
    | some v =>
      simp only []
      split
      · split
        · exact .same _
        · exact .opt (fun _ => writeValue_alike)
      · exact .opt (fun _ => writeValue_alike)
  | is => exact .orErr fun _ => .orErr fun _ => .allAre (fun _ => .same _) _
  | keys =>
    refine .orErr fun k => .resolve fun t => ?_
    cases t with
    | map =>
      refine .keyRef fun o => ?_
      cases o with
      | none => exact .same _
      | some v =>
        cases v with
        | map m => exact .opt (fun _ => writeList_alike)
        | _ => exact .same _
    | _ => exact .same _
  | length =>
    have hl : ∀ t k, UntilBad Panicked (lengthAs (builtAs env .debug) t k resp) (lengthAs (builtAs env .release) t k resp) := fun t k => .keyRef fun o => by
      cases o with
      | none => exact .same _
      | some v =>
        simp only []
        split <;> exact .same _
    refine .orErr fun k => .resolve fun t => ?_
    cases t <;> first | exact .same _ | exact hl _ _
  | stats =>
    simp only [dispatchStats]
    split
    · exact .same _
    · exact .statsLoop (fun m => .opt (fun _ => writeMap_alike)) _ _
  | type =>
    refine .orErr fun k => ?_
    split
    · exact .same _
    · refine .read fun o => ?_
      cases o <;> exact .same _

theorem agree_dispatch (env : Env) (r : Request) (resp : Bytes) : UntilBad Panicked (dispatch (builtAs env .debug) r resp) (dispatch (builtAs env .release) r resp) := by
  refine (agree_command env r resp).andThen (fun r h => ⟨_, h, by rw [h]; rfl⟩) fun o => ?_
  have hi : ∀ m (q : Outcome DispatchError Bytes), UntilBad Panicked (incrementMetric (builtAs env .debug) m (.done q)) (incrementMetric (builtAs env .release) m (.done q)) :=
    fun m q => by
      refine .onCtr (fun o => ?_) (fun o => ?_)
      · simp only [builtAs]
        cases h : addU .debug 64 (o.getD 0) 1 with
        | none => exact .panic
        | some n => rw [addU_alike h]; exact .same _
      · simp only [builtAs]
        cases h : addU .debug 64 (o.getD 0) 1 with
        | none => exact .inr ⟨_, rfl, rfl⟩
        | some n => rw [addU_alike h]; exact .inl rfl
  cases o <;> first | exact hi _ _ | exact .same _

/-! ## C201 -/

theorem UntilBad.run {α} {bad : Outcome DispatchError α → Prop} {p q : Prog α} (h : UntilBad bad p q) : ∀ {db : Db}, ¬ bad (p.run db).1 → q.run db = p.run db := by
  induction h with
  | bad h => exact fun hp => (hp h).elim
  | same r => exact fun _ => rfl
  | @onKey k upd upd' next next' _ hu ih =>
    intro db hp
    simp only [Prog.run] at hp ⊢
    rcases hu (db.keys k) with h | ⟨r, hr, h⟩
    · rw [← h]; exact ih _ hp
    · rw [h] at hp; exact (hp hr).elim
  | @onCtr m upd upd' next next' _ hu ih =>
    intro db hp
    simp only [Prog.run] at hp ⊢
    rcases hu (db.ctrs m) with h | ⟨r, hr, h⟩
    · rw [← h]; exact ih _ hp
    · rw [h] at hp; exact (hp hr).elim

/-- **C201.** A request, built, parsed or malformed, that does not panic in a debug build has the same outcome, response and effect in a release build. -/
theorem C201_request (env : Env) (r : Request) (resp : Bytes) (db : Db) (h : ((dispatch (builtAs env .debug) r resp).run db).1 ≠ .panic) :
    (dispatch (builtAs env .release) r resp).run db = (dispatch (builtAs env .debug) r resp).run db :=
  (agree_dispatch env r resp).run h

/-- **C201, histories.** The same for requests one after the other: the answers and what is stored and counted in the end are the same. -/
theorem C201_history (env : Env) (rs : List (Request × Bytes)) : ∀ (db : Db), .panic ∉ (serveAll (builtAs env .debug) rs db).1 →
    serveAll (builtAs env .release) rs db = serveAll (builtAs env .debug) rs db := by
  induction rs with
  | nil => exact fun _ _ => rfl
  | cons r rs ih =>
    intro db h
    simp only [serveAll, List.mem_cons, not_or] at h ⊢
    rw [C201_request env r.1 r.2 db fun e => h.1 e.symm, ih _ h.2]

theorem UntilBad.step {α} {bad : Outcome DispatchError α → Prop} {p q : Prog α} (h : UntilBad bad p q) {db : Db} (hp : ∀ r, bad r → (p.step db).1 ≠ .done r) :
    UntilBad bad (p.step db).1 (q.step db).1 ∧ (q.step db).2 = (p.step db).2 := by
  have hno : ∀ {P : Prop}, P ∨ (∃ r, bad r ∧ (p.step db).1 = .done r) → P := fun h => h.resolve_right fun ⟨r, hr, he⟩ => hp r hr he
  cases h with
  | bad h => exact (hp _ h rfl).elim
  | same r => exact ⟨.same r, rfl⟩
  | @onKey k upd upd' next next' hn hu =>
    simp only [Prog.step] at hno ⊢
    exact ⟨hn _, by rw [hno (hu _)]⟩
  | @onCtr m upd upd' next next' hn hu =>
    simp only [Prog.step] at hno ⊢
    exact ⟨hn _, by rw [hno (hu _)]⟩

private theorem ended_stays {α} {r : Outcome DispatchError α} (sched : List Nat) : ∀ {p : Pool α} {i : Nat}, p.threads[i]? = some (.done r) →
    (p.exec sched).threads[i]? = some (.done r) := by
  induction sched with
  | nil => exact fun h => h
  | cons j sched ih =>
    intro p i h
    refine ih (p := p.stepAt j) ?_
    simp only [Pool.stepAt]
    cases hj : p.threads[j]? with
    | none => exact h
    | some t =>
      by_cases hij : j = i
      · subst hij
        rw [h, Option.some.injEq] at hj
        subst hj
        exact List.getElem?_set_self (List.getElem?_eq_some_iff.mp h).1
      · simp only [List.getElem?_set_ne hij]; exact h

private theorem agree_exec {α} {bad : Outcome DispatchError α → Prop} (sched : List Nat) : ∀ {p q : Pool α}, q.db = p.db →
    (∀ i : Nat, (p.threads[i]? = none ∧ q.threads[i]? = none) ∨ ∃ t u, p.threads[i]? = some t ∧ q.threads[i]? = some u ∧ UntilBad bad t u) →
    (∀ t ∈ (p.exec sched).threads, ∀ r, bad r → t ≠ .done r) → (q.exec sched).db = (p.exec sched).db ∧
    ∀ i : Nat, ((p.exec sched).threads[i]? = none ∧ (q.exec sched).threads[i]? = none) ∨
      ∃ t u, (p.exec sched).threads[i]? = some t ∧ (q.exec sched).threads[i]? = some u ∧ UntilBad bad t u := by
  induction sched with
  | nil => exact fun hd ht _ => ⟨hd, ht⟩
  | cons j sched ih =>
    intro p q hd ht hp
    have hno : ∀ (i : Nat) r, bad r → (p.stepAt j).threads[i]? ≠ some (Prog.done r) := fun i r hr hi =>
      hp _ (List.mem_of_getElem? (ended_stays sched hi)) r hr rfl
    have : (q.stepAt j).db = (p.stepAt j).db ∧ ∀ i : Nat, ((p.stepAt j).threads[i]? = none ∧ (q.stepAt j).threads[i]? = none) ∨
        ∃ t u, (p.stepAt j).threads[i]? = some t ∧ (q.stepAt j).threads[i]? = some u ∧ UntilBad bad t u := by
      simp only [Pool.stepAt] at hno ⊢
      rcases ht j with ⟨h1, h2⟩ | ⟨t, u, h1, h2, ha⟩
      · simp only [h1, h2]; exact ⟨hd, ht⟩
      · simp only [h1, h2] at hno ⊢
        have hjp := (List.getElem?_eq_some_iff.mp h1).1
        have hjq := (List.getElem?_eq_some_iff.mp h2).1
        have hs := ha.step (db := p.db) fun r hr e => hno j r hr (by rw [List.getElem?_set_self hjp, e])
        rw [hd]
        refine ⟨hs.2, fun i => ?_⟩
        by_cases hij : j = i
        · subst hij
          exact .inr ⟨_, _, List.getElem?_set_self hjp, List.getElem?_set_self hjq, hs.1⟩
        · simp only [List.getElem?_set_ne hij]; exact ht i
    exact ih this.1 this.2 hp

/-- Programs that agree, executed at once in any order of their steps, none of the first having ended badly so far. -/
theorem UntilBad.pool {ι α} {bad : Outcome DispatchError α → Prop} {f g : ι → Prog α} (hf : ∀ x, UntilBad bad (f x) (g x)) (xs : List ι) (db : Db) (sched : List Nat)
    (h : ∀ t ∈ (Pool.exec ⟨xs.map f, db⟩ sched).threads, ∀ r, bad r → t ≠ .done r) :
    (Pool.exec ⟨xs.map g, db⟩ sched).db = (Pool.exec ⟨xs.map f, db⟩ sched).db ∧
    ∀ (i : Nat) (o : Outcome DispatchError α),
      (Pool.exec ⟨xs.map g, db⟩ sched).threads[i]? = some (.done o) ↔ (Pool.exec ⟨xs.map f, db⟩ sched).threads[i]? = some (.done o) := by
  obtain ⟨h1, h2⟩ := agree_exec sched (p := ⟨xs.map f, db⟩) (q := ⟨xs.map g, db⟩) rfl (fun i => by
      simp only [List.getElem?_map]
      cases xs[i]? with
      | none => exact .inl ⟨rfl, rfl⟩
      | some x => exact .inr ⟨_, _, rfl, rfl, hf x⟩) h
  refine ⟨h1, fun i o => ?_⟩
  rcases h2 i with ⟨h3, h4⟩ | ⟨t, u, h3, h4, ha⟩
  · rw [h3, h4]
  · have ht := h t (List.mem_of_getElem? h3)
    rw [h3, h4]
    cases ha with
    | bad hb => exact (ht _ hb rfl).elim
    | same r => exact Iff.rfl
    | onKey => exact ⟨fun h => (by cases h), fun h => (by cases h)⟩
    | onCtr => exact ⟨fun h => (by cases h), fun h => (by cases h)⟩

/-- **C201, at once.** Requests executed at once, in any order of their steps, none of which has panicked so far in a debug build: in a release build, with the
same order of steps, the same is stored and counted, and the same requests have been answered in the same way. -/
theorem C201_at_once (env : Env) (rs : List (Request × Bytes)) (db : Db) (sched : List Nat)
    (h : ∀ t ∈ (Pool.exec ⟨rs.map fun r => dispatch (builtAs env .debug) r.1 r.2, db⟩ sched).threads, t ≠ .done .panic) :
    (Pool.exec ⟨rs.map fun r => dispatch (builtAs env .release) r.1 r.2, db⟩ sched).db =
      (Pool.exec ⟨rs.map fun r => dispatch (builtAs env .debug) r.1 r.2, db⟩ sched).db ∧
    ∀ (i : Nat) (o : Outcome DispatchError Bytes),
      (Pool.exec ⟨rs.map fun r => dispatch (builtAs env .release) r.1 r.2, db⟩ sched).threads[i]? = some (.done o) ↔
      (Pool.exec ⟨rs.map fun r => dispatch (builtAs env .debug) r.1 r.2, db⟩ sched).threads[i]? = some (.done o) :=
  UntilBad.pool (fun r : Request × Bytes => agree_dispatch env r.1 r.2) rs db sched fun t ht r hr e => h t ht (by rw [e, hr])

/-- Three requests that do not panic; the third reports an error. -/
example : serveAll (builtAs (sampleEnv .debug) .release) [(call .increment none [[1]], []), (call .append (some .list) [[2], [7], [8]], []), (call .get (some .list) [[1]], [])] (sampleDb []) =
    serveAll (builtAs (sampleEnv .debug) .debug) [(call .increment none [[1]], []), (call .append (some .list) [[2], [7], [8]], []), (call .get (some .list) [[1]], [])] (sampleDb []) :=
  C201_history _ _ _ (by decide +kernel)

/-- Where a debug build panics a release build goes on: an Increment of the greatest integer, and a Get of the empty key by a malformed request. -/
example : ((dispatch (sampleEnv .debug) (call .increment none [[1]]) []).run (sampleDb [([1], .integer Int64.maxValue)])).1 = .panic ∧
    ((dispatch (sampleEnv .release) (call .increment none [[1]]) []).run (sampleDb [([1], .integer Int64.maxValue)])).2.keys [1] = some (.integer Int64.minValue) := by
  decide +kernel

private def hasPanicked : Prog Bytes → Bool
  | .done .panic => true
  | _ => false

/-- An interleaving of two Increments of a missing key and an Exists, none of which panics. -/
example : (Pool.exec ⟨[(call .increment none [[1]], []), (call .increment none [[1]], []), (call .exists none [[1]], ([] : Bytes))].map
      fun r => dispatch (builtAs (sampleEnv .debug) .release) r.1 r.2, sampleDb []⟩ [0, 1, 0, 1, 2, 1, 0, 1, 2, 0]).db.keys [1] = some (.integer 2) := by
  have := (C201_at_once (sampleEnv .debug) [(call .increment none [[1]], []), (call .increment none [[1]], []), (call .exists none [[1]], [])] (sampleDb [])
    [0, 1, 0, 1, 2, 1, 0, 1, 2, 0] ?_).1
  · rw [this]; decide +kernel
  · intro t ht hp
    have hall : ∀ t ∈ (Pool.exec ⟨[(call .increment none [[1]], []), (call .increment none [[1]], []), (call .exists none [[1]], ([] : Bytes))].map
      fun r => dispatch (builtAs (sampleEnv .debug) .debug) r.1 r.2, sampleDb []⟩ [0, 1, 0, 1, 2, 1, 0, 1, 2, 0]).threads, hasPanicked t = false := by decide +kernel
    have := hall t ht
    rw [hp] at this
    cases this

end Hop
