import Verif.Props.CallersEnd
import Verif.Props.Observe

/-!
# What calls through an in-memory client can find out (C210)
-/

namespace Hop

open Prog Spec

/-- What `get` makes of a value: whether the engine can write a response with it, and what the decoder reads there, if anything. -/
def Spec.readOff (env : Env) (v : Value) : Option (Option Response) :=
  (Response.writeValue env [] v).map fun b =>
    match (RespParser.feed env.mode .new b).1 with
    | .concluded r => some r
    | _ => none

/-- Two values that are the same, or of which `get` makes the same and that agree in what else is told of them: two maps with the same keys, two
sets with as many members. -/
def Spec.Hidden (env : Env) (v w : Value) : Prop :=
  v = w ∨ (readOff env v = readOff env w ∧ ((∃ m m', v = .map m ∧ w = .map m' ∧ (env.mapOrd m).map Prod.fst = (env.mapOrd m').map Prod.fst) ∨
    ∃ s s', v = .set s ∧ w = .set s' ∧ s.length = s'.length))

/-- As `Hidden`, for what is or is not under a key. -/
def Spec.HiddenEntry (env : Env) : Option Value → Option Value → Prop
  | none, none => True
  | some v, some w => Hidden env v w
  | _, _ => False

/-! ## Programs that do the same with what is hidden -/

/-- The programs of two threads that do the same, as far as entries are the same but for what is hidden. -/
private inductive Veil {α : Type} (env : Env) (R : Outcome DispatchError α → Outcome DispatchError α → Prop) : Prog α → Prog α → Prop
  | done {o o'} : R o o' → Veil env R (.done o) (.done o')
  | onKey {k u u' f f'} : (∀ o o', HiddenEntry env o o' → HiddenEntry env (u o) (u' o')) →
      (∀ o o', HiddenEntry env o o' → Veil env R (f o) (f' o')) → Veil env R (.onKey k u f) (.onKey k u' f')
  | onCtr {m u f f'} : (∀ o, Veil env R (f o) (f' o)) → Veil env R (.onCtr m u f) (.onCtr m u f')

private theorem hidden_self (env : Env) (v : Value) : Hidden env v v := .inl rfl

private theorem hiddenEntry_self (env : Env) (o : Option Value) : HiddenEntry env o o := by
  cases o <;> first | trivial | exact .inl rfl

private theorem hidden_kind {env : Env} {v w : Value} (h : Hidden env v w) : w.kind = v.kind := by
  rcases h with rfl | ⟨-, ⟨_, _, rfl, rfl, -⟩ | ⟨_, _, rfl, rfl, -⟩⟩ <;> rfl

private theorem hidden_length {env : Env} {v w : Value} (h : Hidden env v w) (t : KeyType) : lengthOf t w = lengthOf t v := by
  rcases h with rfl | ⟨-, ⟨m, m', rfl, rfl, h⟩ | ⟨_, _, rfl, rfl, h⟩⟩
  · rfl
  · have h1 := congrArg List.length h
    simp only [List.length_map, (env.mapOrd_perm m).length_eq, (env.mapOrd_perm m').length_eq] at h1
    cases t <;> simp only [lengthOf, h1]
  · cases t <;> simp only [lengthOf, h]

/-- What may be answered: the same, or by `get` two responses of which the decoder makes the same. -/
private def Mute (env : Env) (c : CommandId) (o o' : Outcome DispatchError Bytes) : Prop :=
  o = o' ∨ (c = .get ∧ ∃ b b', o = .ok b ∧ o' = .ok b' ∧
    ∀ r, (RespParser.feed env.mode .new b).1 = .concluded r ↔ (RespParser.feed env.mode .new b').1 = .concluded r)

section
variable {env : Env} {c : CommandId}

private abbrev Mutes (env : Env) (c : CommandId) : Prog Bytes → Prog Bytes → Prop := Veil env (Mute env c)

private theorem mutes_done (o : Outcome DispatchError Bytes) : Mutes env c (.done o) (.done o) := .done (.inl rfl)

private theorem mutes_orErr {β : Type} {o : Option β} {e : DispatchError} {f : β → Prog Bytes} (h : ∀ a, Mutes env c (f a) (f a)) :
    Mutes env c (orErr o e f) (orErr o e f) := by
  cases o with
  | none => exact mutes_done _
  | some a => exact h a

private theorem mutes_read {k : Bytes} {f f' : Option Value → Prog Bytes} (h : ∀ o o', HiddenEntry env o o' → Mutes env c (f o) (f' o')) :
    Mutes env c (readKey k f) (readKey k f') := .onKey (fun _ _ h => h) h

private theorem mutes_contains {k : Bytes} {f : Bool → Prog Bytes} (h : ∀ b, Mutes env c (f b) (f b)) :
    Mutes env c (containsKey k f) (containsKey k f) :=
  mutes_read fun o o' ho => by cases o <;> cases o' <;> first | exact h _ | cases ho

private theorem mutes_type {k : Bytes} {f : Option KeyType → Prog Bytes} (h : ∀ t, Mutes env c (f t) (f t)) :
    Mutes env c (keyTypeOf k f) (keyTypeOf k f) :=
  mutes_read fun o o' ho => by
    cases o <;> cases o' <;> first | exact h _ | cases ho; done | (simp only [Option.map_some, hidden_kind ho]; exact h _)

private theorem mutes_resolve {r : Request} {k : Bytes} {d : KeyType} {f : KeyType → Prog Bytes} (h : ∀ t, Mutes env c (f t) (f t)) :
    Mutes env c (resolveKeyType r k d f) (resolveKeyType r k d f) := by
  simp only [resolveKeyType]
  cases r.keyType with
  | some t => exact h t
  | none => exact mutes_type fun t => h _

private theorem mutes_remove {k : Bytes} {f f' : Option Value → Prog Bytes} (h : ∀ o o', HiddenEntry env o o' → Mutes env c (f o) (f' o')) :
    Mutes env c (removeKey k f) (removeKey k f') := .onKey (fun _ _ _ => trivial) h

private theorem mutes_insert {k : Bytes} {v w : Value} (hv : Hidden env v w) {f f' : Prog Bytes} (h : Mutes env c f f') :
    Mutes env c (insertKey k v f) (insertKey k w f') := .onKey (fun _ _ _ => hv) fun _ _ _ => h

private theorem mutes_ref {k : Bytes} {f : Option Value → Prog Bytes}
    (h : ∀ o o', HiddenEntry env o o' → Mutes env c (f o) (f o')) : Mutes env c (keyRef env k f) (keyRef env k f) := by
  simp only [keyRef]
  split
  · exact mutes_done _
  · split
    · exact mutes_done _
    · exact mutes_read h

private theorem mutes_loop {k : Bytes} {mk : Value} {b : Value → Value × Outcome DispatchError Bytes}
    (h : ∀ v w, Hidden env v w → Hidden env (b v).1 (b w).1 ∧ Mute env c (b v).2 (b w).2) :
    ∀ n, Mutes env c (keyOrInsertLoop k mk b n) (keyOrInsertLoop k mk b n)
  | 0 => mutes_done _
  | n + 1 => by
    refine .onKey ?_ ?_
    · intro o o' ho
      cases o <;> cases o' <;> first | trivial | cases ho; done | exact (h _ _ ho).1
    · intro o o' ho
      cases o <;> cases o'
      · exact mutes_insert (hidden_self _ _) (mutes_loop h n)
      · cases ho
      · cases ho
      · exact .done (h _ _ ho).2

private theorem mutes_insertWith {k : Bytes} {mk : Value} {b : Value → Value × Outcome DispatchError Bytes}
    (h : ∀ v w, Hidden env v w → Hidden env (b v).1 (b w).1 ∧ Mute env c (b v).2 (b w).2) :
    Mutes env c (keyOrInsertWith env k mk b) (keyOrInsertWith env k mk b) := by
  simp only [keyOrInsertWith]
  split
  · exact mutes_done _
  · split
    · exact mutes_done _
    · exact mutes_loop h _

/-- What is done through the guard of an entry that is neither a map nor a set. -/
private theorem mute_body {b : Value → Value × Outcome DispatchError Bytes}
    (hmap : ∀ m, b (.map m) = (.map m, .err .keyTypeDifferent)) (hset : ∀ m, b (.set m) = (.set m, .err .keyTypeDifferent)) :
    ∀ v w, Hidden env v w → Hidden env (b v).1 (b w).1 ∧ Mute env c (b v).2 (b w).2 := by
  intro v w h
  have h0 := h
  rcases h with rfl | ⟨-, ⟨m, m', rfl, rfl, -⟩ | ⟨m, m', rfl, rfl, -⟩⟩
  · exact ⟨.inl rfl, .inl rfl⟩
  · rw [hmap m, hmap m']; exact ⟨h0, .inl rfl⟩
  · rw [hset m, hset m']; exact ⟨h0, .inl rfl⟩

private theorem mutes_append (r : Request) : Mutes env c (dispatchAppend env r []) (dispatchAppend env r []) := by
  refine mutes_orErr fun k => mutes_orErr fun args => mutes_resolve fun t => ?_
  cases t <;> first | exact mutes_done _ | exact mutes_insertWith (mute_body (fun _ => rfl) (fun _ => rfl))

private theorem mutes_float (k : Bytes) (x : F64) : Mutes env c (incrementFloatBy env k x []) (incrementFloatBy env k x []) :=
  mutes_insertWith (mute_body (fun _ => rfl) (fun _ => rfl))

private theorem mutes_int (k : Bytes) (x : Int64) : Mutes env c (incrementIntBy env k x []) (incrementIntBy env k x []) :=
  mutes_insertWith (mute_body (fun _ => rfl) (fun _ => rfl))

private theorem mutes_get (r : Request) : Mutes env .get (dispatchGet env r []) (dispatchGet env r []) := by
  refine mutes_orErr fun k => mutes_ref fun o o' ho => ?_
  cases o <;> cases o' <;> first | exact mutes_done _ | cases ho; done | skip
  rename_i v w
  have h1 : Mutes env .get (.done (.ofOption (Response.writeValue env [] v))) (.done (.ofOption (Response.writeValue env [] w))) := by
    rcases ho with rfl | ⟨h, -⟩
    · exact mutes_done _
    · unfold readOff at h
      cases hb : Response.writeValue env [] v with
      | none =>
        rw [hb, Option.map_none] at h
        rw [Option.map_eq_none_iff.mp h.symm]
        exact mutes_done _
      | some b =>
        rw [hb, Option.map_some] at h
        obtain ⟨b', hb', h'⟩ := Option.map_eq_some_iff.mp h.symm
        rw [hb']
        refine .done (.inr ⟨rfl, b, b', rfl, rfl, fun r => ?_⟩)
        have key : ∀ x : RespParser.Fed, x = .concluded r ↔ (match x with | .concluded r => some r | _ => none) = some r := by
          intro x; cases x <;> simp
        rw [key, key, h']
  cases ht : r.keyType with
  | none => exact h1
  | some t =>
    simp only [hidden_kind ho]
    split
    · exact mutes_done _
    · exact h1

private theorem mutes_allExist {f : Bool → Prog Bytes} (h : ∀ b, Mutes env c (f b) (f b)) :
    ∀ ks, Mutes env c (allExist f ks) (allExist f ks)
  | [] => h true
  | k :: ks => mutes_contains fun b => by
    cases b
    · exact h false
    · exact mutes_allExist h ks

private theorem mutes_allAre (t : KeyType) {f : Bool → Prog Bytes} (h : ∀ b, Mutes env c (f b) (f b)) :
    ∀ ks, Mutes env c (allAre t f ks) (allAre t f ks)
  | [] => h true
  | k :: ks => mutes_type fun o => by
    split
    · exact mutes_allAre t h ks
    · exact h false

private theorem mutes_keys (r : Request) : Mutes env c (dispatchKeys env r []) (dispatchKeys env r []) := by
  refine mutes_orErr fun k => mutes_resolve fun t => ?_
  cases t <;> first | exact mutes_done _ | skip
  refine mutes_ref fun o o' ho => ?_
  cases o <;> cases o' <;> first | exact mutes_done _ | cases ho; done | skip
  rcases ho with rfl | ⟨-, ⟨m, m', rfl, rfl, h⟩ | ⟨m, m', rfl, rfl, -⟩⟩
  · rename_i v
    cases v <;> exact mutes_done _
  · simp only [h]
    exact mutes_done _
  · exact mutes_done _

private theorem mutes_length (r : Request) : Mutes env c (dispatchLength env r []) (dispatchLength env r []) := by
  have as : ∀ t k, Mutes env c (lengthAs env t k []) (lengthAs env t k []) := by
    intro t k
    refine mutes_ref fun o o' ho => ?_
    cases o <;> cases o' <;> first | exact mutes_done _ | cases ho; done | skip
    simp only [hidden_length ho]
    split <;> exact mutes_done _
  refine mutes_orErr fun k => mutes_resolve fun t => ?_
  cases t <;> first | exact mutes_done _ | exact as _ _

private theorem mutes_rename (r : Request) : Mutes env c (dispatchRename env r []) (dispatchRename env r []) := by
  simp only [dispatchRename]
  split
  · exact mutes_done _
  · refine mutes_orErr fun a => mutes_orErr fun b => mutes_contains fun x => ?_
    split
    · exact mutes_done _
    · refine mutes_contains fun y => ?_
      split
      · exact mutes_done _
      · refine mutes_remove fun o o' ho => ?_
        cases o <;> cases o' <;> first
          | exact mutes_done _
          | cases ho; done
          | exact mutes_insert ho (mutes_done _)

private theorem mutes_set (r : Request) : Mutes env c (dispatchSet env r []) (dispatchSet env r []) := by
  refine mutes_orErr fun k => ?_
  split
  · exact mutes_done _
  · refine mutes_resolve fun t => ?_
    cases t with
    | map =>
      refine mutes_orErr fun m => mutes_remove fun _ _ _ => mutes_insertWith ?_
      intro v w h
      have h0 := h
      rcases h with rfl | ⟨-, ⟨x, y, rfl, rfl, -⟩ | ⟨x, y, rfl, rfl, -⟩⟩
      · exact ⟨.inl rfl, .inl rfl⟩
      · cases h1 : Response.writeMap env [] m <;> first | exact ⟨h0, .inl rfl⟩ | exact ⟨.inl rfl, .inl rfl⟩
      · exact ⟨h0, .inl rfl⟩
    | set =>
      refine mutes_orErr fun m => mutes_remove fun _ _ _ => mutes_insertWith ?_
      intro v w h
      have h0 := h
      rcases h with rfl | ⟨-, ⟨x, y, rfl, rfl, -⟩ | ⟨x, y, rfl, rfl, -⟩⟩
      · exact ⟨.inl rfl, .inl rfl⟩
      · exact ⟨h0, .inl rfl⟩
      · cases h1 : Response.writeSet env [] m <;> first | exact ⟨h0, .inl rfl⟩ | exact ⟨.inl rfl, .inl rfl⟩
    | _ => exact mutes_orErr fun x => mutes_remove fun _ _ _ => mutes_insertWith (mute_body (fun _ => rfl) (fun _ => rfl))

private theorem mutes_stats : ∀ (cs : List Metric) (m : BMap),
    Mutes env c (statsLoop (fun m => done (.ofOption (Response.writeMap env [] m))) cs m)
      (statsLoop (fun m => done (.ofOption (Response.writeMap env [] m))) cs m)
  | [], m => mutes_done _
  | x :: cs, m => .onCtr fun o => by
    cases o with
    | none => exact mutes_stats cs m
    | some n =>
      dsimp only
      split
      · exact mutes_stats cs _
      · exact mutes_stats cs m

private theorem mutes_command (r : Request) : Mutes env r.commandId (command env r []) (command env r []) := by
  unfold command
  cases hc : r.commandId with
  | append => exact mutes_append r
  | decrementBy =>
    refine mutes_orErr fun k => ?_
    split
    · split
      · exact mutes_int _ _
      · exact mutes_done _
    · split
      · exact mutes_float _ _
      · exact mutes_done _
  | decrement =>
    refine mutes_orErr fun k => ?_
    split
    · exact mutes_float _ _
    · exact mutes_int _ _
  | delete =>
    simp only [dispatchDelete]
    split
    · exact mutes_done _
    · refine mutes_orErr fun k => mutes_remove fun o o' ho => ?_
      cases o <;> cases o' <;> first | exact mutes_done _ | cases ho
  | echo =>
    simp only [dispatchEcho]
    split <;> exact mutes_done _
  | «exists» =>
    simp only [dispatchExists]
    split
    · exact mutes_done _
    · exact mutes_orErr fun ks => mutes_allExist (fun b => mutes_done _) ks
  | get => exact mutes_get r
  | increment =>
    refine mutes_orErr fun k => ?_
    split
    · exact mutes_float _ _
    · exact mutes_int _ _
  | incrementBy =>
    refine mutes_orErr fun k => ?_
    split
    · exact mutes_int _ _
    · split
      · exact mutes_float _ _
      · exact mutes_done _
  | is => exact mutes_orErr fun t => mutes_orErr fun ks => mutes_allAre t (fun b => mutes_done _) ks
  | keys => exact mutes_keys r
  | rename => exact mutes_rename r
  | set => exact mutes_set r
  | stats =>
    simp only [dispatchStats]
    split
    · exact mutes_done _
    · exact mutes_stats _ _
  | type =>
    refine mutes_orErr fun k => ?_
    split
    · exact mutes_done _
    · refine mutes_type fun t => ?_
      cases t <;> exact mutes_done _
  | length => exact mutes_length r

private theorem mutes_count {o o' : Outcome DispatchError Bytes} (h : Mute env c o o') : Mutes env c (countOutcome env o) (countOutcome env o') := by
  have inc : ∀ m, Mutes env c (incrementMetric env m (.done o)) (incrementMetric env m (.done o')) := by
    intro m
    simp only [incrementMetric]
    refine .onCtr fun x => ?_
    split
    · exact .done h
    · exact mutes_done _
  rcases h with rfl | ⟨-, b, b', rfl, rfl, -⟩
  · cases o <;> first | exact inc _ | exact mutes_done _
  · exact inc _

private theorem Veil.andThen {α β : Type} {R : Outcome DispatchError α → Outcome DispatchError α → Prop}
    {R' : Outcome DispatchError β → Outcome DispatchError β → Prop} {p q : Prog α} (h : Veil env R p q) {f g : Outcome DispatchError α → Prog β}
    (hf : ∀ o o', R o o' → Veil env R' (f o) (g o')) : Veil env R' (p.andThen f) (q.andThen g) := by
  induction h with
  | done h => exact hf _ _ h
  | onKey h _ ih => exact .onKey h ih
  | onCtr _ ih => exact .onCtr ih

private theorem mutes_dispatch (r : Request) : Mutes env r.commandId (dispatch env r []) (dispatch env r []) :=
  (mutes_command r).andThen fun _ _ h => mutes_count h

end

/-- A call does the same and resolves to the same. -/
private theorem veil_start (env : Env) (a : Api) : Veil env Eq (a.start env) (a.start env) := by
  by_cases ha : ∃ k, a = .get k
  · obtain ⟨k, rfl⟩ := ha
    cases hr : (Api.get k).refusal with
    | some e =>
      have := Api.start_eq env (.get k) (by simp [Api.call])
      rw [hr] at this
      rw [this]
      exact .done rfl
    | none =>
      obtain ⟨r, f, hv, h, hf⟩ := sends_awake env (.get k) (by simp [Api.call]) hr
      rw [h]
      refine (mutes_dispatch r).andThen fun o o' ho => ?_
      rcases ho with rfl | ⟨-, b, b', rfl, rfl, h1⟩
      · obtain ⟨x, hx⟩ := readOutcome_done (env := env) (f := f) (fun v => let ⟨o, h, _⟩ := hf v; ⟨o, h⟩) o
        rw [hx]
        exact .done rfl
      · have hs := (C13_terminates env.mode .new b).1
        have hs' := (C13_terminates env.mode .new b').1
        have key : readOutcome env f (.ok b) = readOutcome env f (.ok b') := by
          simp only [readOutcome]
          cases h3 : (RespParser.feed env.mode .new b).1 with
          | concluded r => rw [(h1 r).mp h3]
          | stuck => exact absurd h3 hs
          | _ =>
            cases h4 : (RespParser.feed env.mode .new b').1 with
            | concluded r => have := (h1 r).mpr h4; rw [h3] at this; cases this
            | stuck => exact absurd h4 hs'
            | _ => rfl
        rw [key]
        obtain ⟨x, hx⟩ := readOutcome_done (env := env) (f := f) (fun v => let ⟨o, h, _⟩ := hf v; ⟨o, h⟩) (.ok b')
        rw [hx]
        exact .done rfl
  · rcases start_any env a with ⟨o, h⟩ | ⟨-, -, r, g, hv, h, hg⟩
    · rw [h]; exact .done rfl
    · rw [h]
      refine (mutes_dispatch r).andThen fun o o' ho => ?_
      rcases ho with rfl | ⟨hc, -⟩
      · obtain ⟨x, hx⟩ := hg o
        rw [hx]
        exact .done rfl
      · rw [hv.command] at hc
        cases a <;> simp only [Api.call, reduceCtorEq] at hc
        exact absurd ⟨_, rfl⟩ ha

private theorem veil_caller (env : Env) (c : Caller) (n : Nat) (past : List Resolved) :
    Veil env Eq (Caller.prog env c n past) (Caller.prog env c n past) := by
  induction n generalizing past with
  | zero => exact .done rfl
  | succ n ih =>
    simp only [Caller.prog]
    cases hc : c past with
    | none => exact .done rfl
    | some a => exact (veil_start env a).andThen fun o o' h => by subst h; exact ih _

private theorem hidden_put {env : Env} {a b : Db} (h : ∀ k, HiddenEntry env (a.keys k) (b.keys k)) (k : Bytes) {o o' : Option Value} (ho : HiddenEntry env o o') :
    ∀ j, HiddenEntry env ((a.setKey k o).keys j) ((b.setKey k o').keys j) := by
  intro j
  simp only [Db.setKey]
  split
  · exact ho
  · exact h j

private theorem Veil.run {α : Type} {env : Env} {p q : Prog α} (h : Veil env Eq p q) {a b : Db} (hk : ∀ k, HiddenEntry env (a.keys k) (b.keys k))
    (hc : b.ctrs = a.ctrs) :
    (p.run a).1 = (q.run b).1 ∧ (∀ k, HiddenEntry env ((p.run a).2.keys k) ((q.run b).2.keys k)) ∧ (q.run b).2.ctrs = (p.run a).2.ctrs := by
  induction h generalizing a b with
  | done h => exact ⟨h, hk, hc⟩
  | onKey h1 _ ih => exact ih _ _ (hk _) (hidden_put hk _ (h1 _ _ (hk _))) hc
  | onCtr _ ih =>
    simp only [Prog.run, hc]
    exact ih _ hk (by simp only [Db.setCtr, hc])

private theorem Veil.step {α : Type} {env : Env} {p q : Prog α} (h : Veil env Eq p q) {a b : Db} (hk : ∀ k, HiddenEntry env (a.keys k) (b.keys k))
    (hc : b.ctrs = a.ctrs) :
    Veil env Eq (p.step a).1 (q.step b).1 ∧ (∀ k, HiddenEntry env ((p.step a).2.keys k) ((q.step b).2.keys k)) ∧
      (q.step b).2.ctrs = (p.step a).2.ctrs := by
  cases h with
  | done h => exact ⟨.done h, hk, hc⟩
  | onKey h1 h2 => exact ⟨h2 _ _ (hk _), hidden_put hk _ (h1 _ _ (hk _)), hc⟩
  | onCtr h => exact ⟨by simp only [Prog.step, hc]; exact h _, hk, by simp only [Prog.step, Db.setCtr, hc]⟩

/-- How two executions compare. -/
private structure VeilStep {α : Type} (env : Env) (p q : Pool α) : Prop where
  keys : ∀ k, HiddenEntry env (p.db.keys k) (q.db.keys k)
  ctrs : q.db.ctrs = p.db.ctrs
  length : p.threads.length = q.threads.length
  threads : ∀ (i : Nat) t u, p.threads[i]? = some t → q.threads[i]? = some u → Veil env Eq t u

private theorem VeilStep.step {α : Type} {env : Env} {p q : Pool α} (h : VeilStep env p q) (i : Nat) : VeilStep env (p.stepAt i) (q.stepAt i) := by
  unfold Pool.stepAt
  cases hp : p.threads[i]? with
  | none =>
    have hq : q.threads[i]? = none := by
      rw [List.getElem?_eq_none_iff] at hp ⊢
      rw [← h.length]
      exact hp
    rw [hq]
    exact h
  | some t =>
    have hlt : i < p.threads.length := (List.getElem?_eq_some_iff.1 hp).1
    obtain ⟨u, hq⟩ : ∃ u, q.threads[i]? = some u := ⟨_, List.getElem?_eq_getElem (h.length ▸ hlt)⟩
    rw [hq]
    have hs := (h.threads i t u hp hq).step h.keys h.ctrs
    refine ⟨hs.2.1, hs.2.2, by simp [h.length], ?_⟩
    intro j t' u' ht' hu'
    simp only [List.getElem?_set] at ht' hu'
    by_cases hij : i = j
    · subst hij
      rw [if_pos rfl, if_pos hlt] at ht'
      rw [if_pos rfl, if_pos (h.length ▸ hlt)] at hu'
      simp only [Option.some.injEq] at ht' hu'
      subst ht' hu'
      exact hs.1
    · rw [if_neg hij] at ht' hu'
      exact h.threads j t' u' ht' hu'

/-- **C210, what stays hidden.** Two stores hold the same, except that under some keys there are two maps with the same keys, or two sets with as many
members, of which `get` makes the same. Tasks that share an in-memory client and make any calls, each depending on what those before came to, taking turns in
any way, fare the same with the two stores: the same tasks have come to their end, their calls came to the same, and the stores are again as said. -/
theorem C210_hidden (env : Env) (cs : List (Caller × Nat)) {db db' : Db} (hk : ∀ k, HiddenEntry env (db.keys k) (db'.keys k)) (hc : db'.ctrs = db.ctrs)
    (sched : List Nat) :
    (∀ (i : Nat) x, ((Callers.pool env cs db).exec sched).threads[i]? = some (.done x) ↔
      ((Callers.pool env cs db').exec sched).threads[i]? = some (.done x)) ∧
    ∀ k, HiddenEntry env (((Callers.pool env cs db).exec sched).db.keys k) (((Callers.pool env cs db').exec sched).db.keys k) := by
  have h0 : VeilStep env (Callers.pool env cs db) (Callers.pool env cs db') := by
    refine ⟨hk, hc, by simp [Callers.pool], fun i t u ht hu => ?_⟩
    simp only [Callers.pool, List.getElem?_map, Option.map_eq_some_iff] at ht hu
    obtain ⟨c, hc, rfl⟩ := ht
    obtain ⟨c', hc', rfl⟩ := hu
    rw [hc] at hc'
    cases hc'
    exact veil_caller env _ _ _
  have h : ∀ (s : List Nat) (p q : Pool (List Resolved)), VeilStep env p q → VeilStep env (p.exec s) (q.exec s) := by
    intro s
    induction s with
    | nil => exact fun _ _ h => h
    | cons i s ih => exact fun p q h => ih _ _ (h.step i)
  have h := h sched _ _ h0
  refine ⟨fun i x => ?_, h.keys⟩
  constructor
  · intro hp
    have hlt := (List.getElem?_eq_some_iff.1 hp).1
    obtain ⟨u, hq⟩ : ∃ u, ((Callers.pool env cs db').exec sched).threads[i]? = some u := ⟨_, List.getElem?_eq_getElem (h.length ▸ hlt)⟩
    have := h.threads i _ _ hp hq
    cases this with
    | done e => subst e; exact hq
  · intro hq
    have hlt := (List.getElem?_eq_some_iff.1 hq).1
    obtain ⟨u, hp⟩ : ∃ u, ((Callers.pool env cs db).exec sched).threads[i]? = some u := ⟨_, List.getElem?_eq_getElem (h.length.symm ▸ hlt)⟩
    have := h.threads i _ _ hp hq
    cases this with
    | done e => subst e; exact hp

/-- **C210, what stays hidden from calls one after the other.** -/
theorem C210_calls (env : Env) (l : List Api) {db db' : Db} (hk : ∀ k, HiddenEntry env (db.keys k) (db'.keys k)) (hc : db'.ctrs = db.ctrs) :
    (callAll env l db).1 = (callAll env l db').1 := by
  induction l generalizing db db' with
  | nil => rfl
  | cons a l ih =>
    have h := (veil_start env a).run hk hc
    simp only [callAll]
    rw [h.1, ih h.2.1 h.2.2]

/-! ## What can be told apart -/

private theorem resolved {env : Env} {a : Api} {db : Db} (hn : (a.call env).args.length ≤ 255) (hf : a.refusal = none) (hr : Roomy 1 db.ctrs) {v : Value}
    (hx : (execute env db.ctrs (a.call env).cmd (a.call env).kt (a.call env).args db.keys).1 = .value v) (hv : FitsValue env.mode v) :
    ((a.start env).run db).1 = a.given env (.value v) := by
  have hp : (perform env (a.call env) db).1 = .value v := hx
  rw [C65_answered env a db hn hf hr (by rw [hp]; exact hv), hp]

private theorem left_behind (env : Env) (a : Api) (hn : (a.call env).args.length ≤ 255) (hf : a.refusal = none) :
    ∃ r, Views r (a.call env).cmd (a.call env).kt (a.call env).args ∧ ∀ db, ((a.start env).run db).2 = ((dispatch env r []).run db).2 := by
  rcases Api.start_shape env a hn with ⟨e, h, -⟩ | ⟨-, r, g, hv, h, hg⟩
  · rw [hf] at h; cases h
  · refine ⟨r, hv, fun db => ?_⟩
    rw [h, run_andThen]
    obtain ⟨x, hx⟩ := hg ((dispatch env r []).run db).1
    rw [hx]
    rfl

/-- A call that comes to different things. -/
private def Splits (env : Env) (db db' : Db) (a : Api) : Prop := ((a.start env).run db).1 ≠ ((a.start env).run db').1

private theorem splits_kind {env : Env} {db db' : Db} (hr : Roomy 1 db.ctrs) (hr' : Roomy 1 db'.ctrs) {k : Bytes} (hk : k ≠ [])
    (hne : (db.keys k).map Value.kind ≠ (db'.keys k).map Value.kind) : ∃ a, Splits env db db' a := by
  have ask : ∀ (t : KeyType) (d : Db), Roomy 1 d.ctrs → (((Api.is t [k]).start env).run d).1 = .ok (.ok (.bool (decide ((d.keys k).map Value.kind = some t)))) := by
    intro t d hd
    rw [resolved (v := .boolean (decide ((d.keys k).map Value.kind = some t))) (by simp [Api.call]) (by simp [Api.refusal, Ne.symm hk]) hd
      (by simp [Api.call, execute]) trivial]
    rfl
  have go : ∀ t, ((db.keys k).map Value.kind = some t ↔ ¬ (db'.keys k).map Value.kind = some t) → ∃ a, Splits env db db' a := by
    intro t h
    refine ⟨.is t [k], ?_⟩
    unfold Splits
    rw [ask t db hr, ask t db' hr']
    intro e
    simp only [Outcome.ok.injEq, Except.ok.injEq, Got.bool.injEq, decide_eq_decide] at e
    by_cases hx : (db'.keys k).map Value.kind = some t
    · exact h.mp (e.mpr hx) hx
    · exact hx (e.mp (h.mpr hx))
  cases h1 : (db.keys k).map Value.kind with
  | some t => exact go t ⟨fun _ h => hne (by rw [h1, h]), fun _ => h1⟩
  | none =>
    cases h2 : (db'.keys k).map Value.kind with
    | none => exact absurd (h1.trans h2.symm) hne
    | some t => exact go t ⟨fun h => (by rw [h1] at h; cases h), fun h => absurd h2 h⟩

private theorem splits_value {env : Env} {db db' : Db} (hr : Roomy 1 db.ctrs) (hr' : Roomy 1 db'.ctrs) {k : Bytes} (hk : k ≠ [])
    (hu : ¬ unusable env.mode k) {v w : Value} (h1 : db.keys k = some v) (h2 : db'.keys k = some w) (hkind : v.kind = w.kind)
    (hv : Legible env.mode v) (hw : Legible env.mode w) (hne : ¬ Same v w) : ∃ a, Splits env db db' a := by
  by_cases hf : FitsValue env.mode v ∧ FitsValue env.mode w
  · refine ⟨.get k, ?_⟩
    have ask : ∀ {d : Db} {x : Value}, Roomy 1 d.ctrs → d.keys k = some x → FitsValue env.mode x →
        (((Api.get k).start env).run d).1 = .ok (.ok (.value (orderedValue env x))) := by
      intro d x hd hx hfx
      rw [resolved (v := x) (by simp [Api.call]) (by simp [Api.refusal, hk]) hd (by simp [Api.call, execute, if_neg hu, hx]) hfx]
      rfl
    unfold Splits
    rw [ask hr h1 hf.1, ask hr' h2 hf.2]
    intro e
    simp only [Outcome.ok.injEq, Except.ok.injEq, Got.value.injEq] at e
    exact hne (same_trans (same_symm (orderedValue_same env v)) (e ▸ orderedValue_same env w))
  · -- one of them is empty, and the other is not
    have hlen : ∃ n m : Nat, size v = some n ∧ size w = some m ∧ n ≠ m ∧ n < 2 ^ 32 ∧ m < 2 ^ 32 := by
      have hs : ∃ n m, size v = some n ∧ size w = some m := by
        by_cases h : FitsValue env.mode v
        · have h' := hw.resolve_left fun h' => hf ⟨h, h'⟩
          obtain ⟨n, hn⟩ := size_of_kind hkind.symm h'
          exact ⟨n, 0, hn, h'⟩
        · have h' := hv.resolve_left h
          obtain ⟨m, hm⟩ := size_of_kind hkind h'
          exact ⟨0, m, h', hm⟩
      obtain ⟨n, m, s1, s2⟩ := hs
      have bound : ∀ {x : Value} {n : Nat}, Legible env.mode x → size x = some n → n < 2 ^ 32 := by
        intro x n hx hs
        rcases hx with hx | hx
        · exact fits_size hx hs
        · rw [hs] at hx; cases hx; decide
      refine ⟨n, m, s1, s2, ?_, bound hv s1, bound hw s2⟩
      rintro rfl
      by_cases h0 : n = 0
      · subst h0; exact hne (empty_same hkind s1 s2)
      · exact hf ⟨hv.resolve_right (by rw [s1]; simpa using h0), hw.resolve_right (by rw [s2]; simpa using h0)⟩
    obtain ⟨n, m, s1, s2, hnm, hn, hm⟩ := hlen
    have sz : ∀ {x : Value} {n : Nat}, size x = some n → sized x.kind = true := by
      intro x n h; cases x <;> simp_all [size, sized, Value.kind]
    have ask : ∀ {d : Db} {x : Value} {n : Nat}, Roomy 1 d.ctrs → d.keys k = some x → size x = some n →
        (((Api.length k none).start env).run d).1 = .ok (.ok (.int (Int64.ofNat n))) := by
      intro d x n hd hx hs
      rw [resolved (v := .integer (Int64.ofNat n)) (by simp [Api.call]) (by simp [Api.refusal, hk]) hd ?_ trivial]
      · rfl
      · simp only [Api.call, execute, effectiveType, hx, sz hs, if_neg hu, hs]
        simp
    refine ⟨.length k none, ?_⟩
    unfold Splits
    rw [ask hr h1 s1, ask hr' h2 s2]
    intro e
    simp only [Outcome.ok.injEq, Except.ok.injEq, Got.int.injEq] at e
    have := congrArg Int64.toInt e
    rw [Int64.toInt_ofNat_of_lt (by omega), Int64.toInt_ofNat_of_lt (by omega)] at this
    omega

/-- A value under any key can be brought under a key that calls can read, by one call at most. -/
private theorem brought {env : Env} {db db' : Db} (hr : Roomy 2 db.ctrs) (hr' : Roomy 2 db'.ctrs) (hf : ClientReached db.keys) (hf' : ClientReached db'.keys)
    {k : Bytes} {v w : Value} (h1 : db.keys k = some v) (h2 : db'.keys k = some w) :
    ∃ (d d' : Db) (j : Bytes), j ≠ [] ∧ ¬ unusable env.mode j ∧ d.keys j = some v ∧ d'.keys j = some w ∧ Roomy 1 d.ctrs ∧ Roomy 1 d'.ctrs ∧
      ((∃ a, Splits env d d' a) → ∃ l : List Api, l.length ≤ 2 ∧ (callAll env l db).1 ≠ (callAll env l db').1) := by
  have hk : k ≠ [] := by
    rintro rfl
    rw [hf.keys] at h1
    cases h1
  by_cases hu : unusable env.mode k
  · obtain ⟨l, hl0⟩ := hf.finite
    obtain ⟨l', hl0'⟩ := hf'.finite
    obtain ⟨n, hn⟩ := unlike (l ++ l')
    have hj : ∀ x, x ∈ l ∨ x ∈ l' → x ≠ 1 :: List.replicate n 1 := by
      rintro x hx rfl
      have := hn _ (List.mem_append.mpr hx)
      simp only [List.length_cons, List.length_replicate] at this
      omega
    have hju : ¬ unusable env.mode (1 :: List.replicate n 1) := by
      rintro (h | h)
      · have := congrArg List.head? h
        rw [show (List.head? (ascii "__hop__:")) = some 95 from by decide] at this
        simp at this
      · exact absurd h.2 (by simp)
    have e1 := hl0 _ fun h => hj _ (.inl h) rfl
    have e2 := hl0' _ fun h => hj _ (.inr h) rfl
    generalize hje : (1 :: List.replicate n 1 : Bytes) = j at hju e1 e2
    have hj0 : j ≠ [] := by rw [← hje]; simp
    obtain ⟨r, hrv, hrun⟩ := left_behind env (.rename k j) (by simp [Api.call]) (by simp [Api.refusal, hk, hj0])
    have moved : ∀ {d : Db} {x : Value}, d.keys k = some x → d.keys j = none → (((Api.rename k j).start env).run d).2.keys j = some x := by
      intro d x hx hjn
      rw [hrun d, keys_once (c := ⟨.rename, none, [k, j]⟩) hrv [] d d.ctrs (.inr (.inl nofun))]
      simp only [execute, hx, hjn]
      simp [put_apply_self]
    have room : ∀ {d : Db}, Roomy 2 d.ctrs → Roomy 1 (((Api.rename k j).start env).run d).2.ctrs := by
      intro d hd
      rw [hrun d]
      exact dispatch_roomy env r [] d 1 hd
    refine ⟨_, _, j, hj0, hju, moved h1 e1, moved h2 e2, room hr, room hr', ?_⟩
    rintro ⟨a, ha⟩
    refine ⟨[.rename k j, a], by simp, fun h => ha ?_⟩
    simp only [callAll, List.cons.injEq, and_true] at h
    exact h.2
  · refine ⟨db, db', k, hk, hu, h1, h2, Roomy.mono hr (by omega), Roomy.mono hr' (by omega), ?_⟩
    rintro ⟨a, ha⟩
    refine ⟨[a], by simp, fun h => ha ?_⟩
    simp only [callAll, List.cons.injEq, and_true] at h
    exact h

/-- What is missing under a key, and the type of what is there, can be found out. -/
private theorem told_kind {env : Env} {db db' : Db} (hr : Roomy 2 db.ctrs) (hr' : Roomy 2 db'.ctrs) {k : Bytes} (hk : k ≠ [])
    (hne : (db.keys k).map Value.kind ≠ (db'.keys k).map Value.kind) : ∃ l : List Api, l.length ≤ 2 ∧ (callAll env l db).1 ≠ (callAll env l db').1 := by
  obtain ⟨a, ha⟩ := splits_kind (env := env) (Roomy.mono hr (by omega)) (Roomy.mono hr' (by omega)) hk hne
  refine ⟨[a], by simp, fun h => ha ?_⟩
  simp only [callAll, List.cons.injEq, and_true] at h
  exact h

/-- **C210, what can be told apart.** Two stores that hold different things under some key can be told apart by one call or two, whatever the key, provided the
values there can be asked for at all: the engine can write a response with them that the client reads back, or they are empty. -/
theorem C210_told {env : Env} {db db' : Db} (hr : Roomy 2 db.ctrs) (hr' : Roomy 2 db'.ctrs) (hf : ClientReached db.keys) (hf' : ClientReached db'.keys)
    {k : Bytes} (hl : ∀ v, db.keys k = some v ∨ db'.keys k = some v → Legible env.mode v)
    (hne : ¬ SameEntry (db.keys k) (db'.keys k)) :
    ∃ l : List Api, l.length ≤ 2 ∧ (callAll env l db).1 ≠ (callAll env l db').1 := by
  have hk : k ≠ [] := by
    rintro rfl
    rw [hf.keys, hf'.keys] at hne
    exact hne trivial
  by_cases hkind : (db.keys k).map Value.kind = (db'.keys k).map Value.kind
  · cases h1 : db.keys k with
    | none =>
      cases h2 : db'.keys k with
      | none => rw [h1, h2] at hne; exact absurd trivial hne
      | some w => rw [h1, h2] at hkind; cases hkind
    | some v =>
      cases h2 : db'.keys k with
      | none => rw [h1, h2] at hkind; cases hkind
      | some w =>
        rw [h1, h2] at hkind hne
        obtain ⟨d, d', j, hj0, hju, e1, e2, r1, r2, h⟩ := brought (env := env) hr hr' hf hf' h1 h2
        exact h (splits_value r1 r2 hj0 hju e1 e2 (by simpa using hkind) (hl v (.inl h1)) (hl w (.inr h2)) hne)
  · exact told_kind hr hr' hk hkind

/-- A value calls can ask for, or a map or a set that takes up less than 4 GiB. -/
def Spec.Askable (m : Mode) : Value → Prop
  | .map e => 3 + (e.map fun e => 5 + e.1.length + e.2.length).sum < 2 ^ 32
  | .set s => 3 + (s.map fun i => 2 + i.length).sum < 2 ^ 32
  | v => Legible m v

private theorem askable_deliverable {m : Mode} {v : Value} (h : Askable m v) (hk : v.kind = .map ∨ v.kind = .set) : Deliverable m (.value v) := by
  cases v <;> simp only [Value.kind, reduceCtorEq, or_self, or_true, true_or] at hk
  · refine ⟨?_, nofun⟩
    simp only [Askable] at h
    simp only [body, payload, List.length_cons, List.length_append, sum_mapItem, beBytes_length]
    omega
  · refine ⟨?_, nofun⟩
    simp only [Askable] at h
    simp only [body, payload, List.length_cons, List.length_append, sum_setItem, beBytes_length]
    omega

/-- What `get` makes of a value decides what the call resolves to, and is decided by it. -/
private theorem splits_get {env : Env} {db db' : Db} (hr : Roomy 1 db.ctrs) (hr' : Roomy 1 db'.ctrs) {k : Bytes} (hk : k ≠ [])
    (hu : ¬ unusable env.mode k) {v w : Value} (h1 : db.keys k = some v) (h2 : db'.keys k = some w)
    (hv : Deliverable env.mode (.value v)) (hw : Deliverable env.mode (.value w)) (hne : readOff env v ≠ readOff env w) : ∃ a, Splits env db db' a := by
  refine ⟨.get k, fun e => hne ?_⟩
  obtain ⟨b, hb1, hb2⟩ := one_arg env.mode .get none k rfl hk
  have hs : (Api.get k).start env = (dispatch env b.intoRequest []).andThen (readOutcome env fun v => .done (.ok (.ok (.value v)))) := by
    rw [← bind_send]
    simp only [Api.start, Client.get, Builder.new_eq, built_ok hb1]
    rfl
  have ask : ∀ {d : Db} {x : Value}, Roomy 1 d.ctrs → d.keys k = some x → Deliverable env.mode (.value x) →
      (((Api.get k).start env).run d).1 = ((readOutcome env (fun v => .done (.ok (.ok (.value v)))) (.ok (frame (ordered env (.value x))))).run d).1 := by
    intro d x hd hx hfx
    have hp : (perform env ⟨.get, none, [k]⟩ d).1 = .value x := by simp [perform, execute, if_neg hu, hx]
    rw [hs, run_andThen, C48_dispatch (c := ⟨.get, none, [k]⟩) hb2.views [] d hd (by rw [hp]; exact hfx), hp]
    simp only [delivered, List.nil_append, readOutcome]
    split <;> rfl
  rw [ask hr h1 hv, ask hr' h2 hw] at e
  have hv' := writeValue_deliverable hv []
  have hw' := writeValue_deliverable hw []
  rw [List.nil_append] at hv' hw'
  unfold readOff
  rw [hv', hw', Option.map_some, Option.map_some]
  congr 1
  simp only [readOutcome] at e
  generalize (RespParser.feed env.mode .new (frame (ordered env (.value v)))).1 = x at e ⊢
  generalize (RespParser.feed env.mode .new (frame (ordered env (.value w)))).1 = y at e ⊢
  rcases x with (_ | _ | _) | _ | _ | _ | _ <;> rcases y with (_ | _ | _) | _ | _ | _ | _ <;>
    simp_all [Prog.run, Client.throw, Client.panic]

/-- The keys of a map. -/
private theorem splits_keys {env : Env} {db db' : Db} (hr : Roomy 1 db.ctrs) (hr' : Roomy 1 db'.ctrs) {k : Bytes} (hk : k ≠ [])
    (hu : ¬ unusable env.mode k) {m m' : BMap} (h1 : db.keys k = some (.map m)) (h2 : db'.keys k = some (.map m'))
    (hc : ClientStorable (.map m)) (hc' : ClientStorable (.map m')) (hv : Askable env.mode (.map m)) (hw : Askable env.mode (.map m'))
    (hne : (env.mapOrd m).map Prod.fst ≠ (env.mapOrd m').map Prod.fst) : ∃ a, Splits env db db' a := by
  refine ⟨.keys k, ?_⟩
  have sums : ∀ l : BMap, ((l.map Prod.fst).flatMap listItem).length ≤ (l.flatMap mapItem).length := by
    intro l
    induction l with
    | nil => simp
    | cons x l ih => simp [listItem, mapItem] at ih ⊢; omega
  have ask : ∀ {d : Db} {x : BMap}, Roomy 1 d.ctrs → d.keys k = some (.map x) → ClientStorable (.map x) → Askable env.mode (.map x) →
      (((Api.keys k).start env).run d).1 = .ok (.ok (.list ((env.mapOrd x).map Prod.fst))) := by
    intro d x hd hx hcx hax
    have hp := env.mapOrd_perm x
    rw [resolved (v := .list ((env.mapOrd x).map Prod.fst)) (by simp [Api.call]) (by simp [Api.refusal, hk]) hd
      (by simp [Api.call, execute, if_neg hu, hx, effectiveType, Value.kind]) ?_]
    · rfl
    · refine ⟨?_, ?_, ?_⟩
      · intro h
        have := congrArg List.length h
        simp only [List.length_map, hp.length_eq, List.length_nil] at this
        exact hcx.1 (List.length_eq_zero_iff.mp this)
      · have := hcx.2.2
        simp only [List.length_map, hp.length_eq]
        omega
      · have h3 := sums (env.mapOrd x)
        rw [(List.Perm.flatMap_right mapItem hp).length_eq, sum_mapItem] at h3
        simp only [Askable] at hax
        omega
  unfold Splits
  rw [ask hr h1 hc hv, ask hr' h2 hc' hw]
  intro e
  simp only [Outcome.ok.injEq, Except.ok.injEq, Got.list.injEq] at e
  exact hne e

/-- How many members a set has. -/
private theorem splits_length {env : Env} {db db' : Db} (hr : Roomy 1 db.ctrs) (hr' : Roomy 1 db'.ctrs) {k : Bytes} (hk : k ≠ [])
    (hu : ¬ unusable env.mode k) {s s' : BSet} (h1 : db.keys k = some (.set s)) (h2 : db'.keys k = some (.set s'))
    (hc : ClientStorable (.set s)) (hc' : ClientStorable (.set s')) (hne : s.length ≠ s'.length) : ∃ a, Splits env db db' a := by
  have ask : ∀ {d : Db} {x : BSet}, Roomy 1 d.ctrs → d.keys k = some (.set x) →
      (((Api.length k none).start env).run d).1 = .ok (.ok (.int (Int64.ofNat x.length))) := by
    intro d x hd hx
    rw [resolved (v := .integer (Int64.ofNat x.length)) (by simp [Api.call]) (by simp [Api.refusal, hk]) hd ?_ trivial]
    · rfl
    · simp only [Api.call, execute, effectiveType, hx, if_neg hu]
      simp [sized, Value.kind, size]
  refine ⟨.length k none, ?_⟩
  unfold Splits
  rw [ask hr h1, ask hr' h2]
  intro e
  simp only [Outcome.ok.injEq, Except.ok.injEq, Got.int.injEq] at e
  have h3 := hc.2.2
  have h4 := hc'.2.2
  have := congrArg Int64.toInt e
  rw [Int64.toInt_ofNat_of_lt (by omega), Int64.toInt_ofNat_of_lt (by omega)] at this
  omega

/-- **C210.** What calls through an in-memory client find out about a store, exactly. Of two stores that calls can bring about, with the same statistics, whose
maps and sets take up less than 4 GiB and whose other values can be asked for, there is a sequence of calls that comes to different things if and only if it is not
so that under each key the stores hold the same, or two maps with the same keys or two sets with as many members of which `get` makes the same. Two calls are
enough. -/
theorem C210_exact {env : Env} {db db' : Db} (hr : Roomy 2 db.ctrs) (hc : db'.ctrs = db.ctrs) (hf : ClientReached db.keys) (hf' : ClientReached db'.keys)
    (ha : ∀ k v, db.keys k = some v ∨ db'.keys k = some v → Askable env.mode v) :
    ((∃ l : List Api, (callAll env l db).1 ≠ (callAll env l db').1) ↔ ¬ ∀ k, HiddenEntry env (db.keys k) (db'.keys k)) ∧
    ((∃ l : List Api, (callAll env l db).1 ≠ (callAll env l db').1) → ∃ l : List Api, l.length ≤ 2 ∧ (callAll env l db).1 ≠ (callAll env l db').1) := by
  have hr' : Roomy 2 db'.ctrs := hc ▸ hr
  have told : (¬ ∀ k, HiddenEntry env (db.keys k) (db'.keys k)) → ∃ l : List Api, l.length ≤ 2 ∧ (callAll env l db).1 ≠ (callAll env l db').1 := by
    intro h
    obtain ⟨k, h⟩ := Classical.not_forall.mp h
    have hk : k ≠ [] := by
      rintro rfl
      rw [hf.keys, hf'.keys] at h
      exact h trivial
    by_cases hkind : (db.keys k).map Value.kind = (db'.keys k).map Value.kind
    · cases h1 : db.keys k with
      | none =>
        cases h2 : db'.keys k with
        | none => rw [h1, h2] at h; exact absurd trivial h
        | some w => rw [h1, h2] at hkind; cases hkind
      | some v =>
        cases h2 : db'.keys k with
        | none => rw [h1, h2] at hkind; cases hkind
        | some w =>
          rw [h1, h2] at hkind h
          have hkd : v.kind = w.kind := by simpa using hkind
          have h : ¬ Hidden env v w := h
          have av := ha k v (.inl h1)
          have aw := ha k w (.inr h2)
          have cv := hf.values k v h1
          have cw := hf'.values k w h2
          obtain ⟨d, d', j, hj0, hju, e1, e2, r1, r2, go⟩ := brought (env := env) hr hr' hf hf' h1 h2
          apply go
          by_cases hg : readOff env v = readOff env w
          · cases v <;> cases w <;> simp only [Value.kind, reduceCtorEq] at hkd
            case map m m' =>
              exact splits_keys r1 r2 hj0 hju e1 e2 cv cw av aw fun e => h (.inr ⟨hg, .inl ⟨_, _, rfl, rfl, e⟩⟩)
            case set s s' =>
              exact splits_length r1 r2 hj0 hju e1 e2 cv cw fun e => h (.inr ⟨hg, .inr ⟨_, _, rfl, rfl, e⟩⟩)
            all_goals exact splits_value r1 r2 hj0 hju e1 e2 rfl av aw fun e => h (.inl e)
          · by_cases hm : v.kind = .map ∨ v.kind = .set
            · exact splits_get r1 r2 hj0 hju e1 e2 (askable_deliverable av hm) (askable_deliverable aw (hkd ▸ hm)) hg
            · cases v <;> cases w <;> simp only [Value.kind, reduceCtorEq, or_self, or_true, true_or, not_true_eq_false, not_false_eq_true] at hkd hm
              all_goals exact splits_value r1 r2 hj0 hju e1 e2 rfl av aw fun e => h (.inl e)
    · exact told_kind hr hr' hk hkind
  have only : (∃ l : List Api, (callAll env l db).1 ≠ (callAll env l db').1) → ¬ ∀ k, HiddenEntry env (db.keys k) (db'.keys k) :=
    fun ⟨l, hl⟩ h => hl (C210_calls env l h hc)
  exact ⟨⟨only, fun h => let ⟨l, _, hl⟩ := told h; ⟨l, hl⟩⟩, fun h => told (only h)⟩

/-- The same, and the same keys, for two maps with one key of 256 bytes, each of which is 255. -/
private theorem veiled : ∀ big : Bytes, big = List.replicate 256 255 →
    Hidden (sampleEnv .release) (.map [(big, [1])]) (.map [(big, [2])]) := by
  rintro big rfl
  refine .inr ⟨?_, .inl ⟨_, _, rfl, rfl, rfl⟩⟩
  unfold readOff
  decide +kernel

private theorem veiled_reached {v : Value} (hv : ClientStorable v) : ClientReached (sampleDb [([107], v)]).keys := by
  refine ⟨⟨[[107]], fun x hx => ?_⟩, rfl, fun x w hw => ?_⟩
  · simp only [sampleDb, List.lookup]
    rw [beq_false_of_ne (by simpa using hx)]
  · simp only [sampleDb, List.lookup] at hw
    split at hw
    · cases hw; exact hv
    · cases hw

private theorem veiled_entries {env : Env} {v w : Value} (h : Hidden env v w) (k : Bytes) :
    HiddenEntry env ((sampleDb [([107], v)]).keys k) ((sampleDb [([107], w)]).keys k) := by
  simp only [sampleDb, List.lookup]
  split
  · exact h
  · trivial

/-- **C210, what can differ unnoticed.** In release builds, of a map with one key, 256 bytes 255, no calls tell what is under that key. -/
theorem C210_unnoticed : ∃ db db' : Db, ClientReached db.keys ∧ ClientReached db'.keys ∧ db'.ctrs = db.ctrs ∧ ¬ SameStore db.keys db'.keys ∧
    ∀ l : List Api, (callAll (sampleEnv .release) l db).1 = (callAll (sampleEnv .release) l db').1 := by
  obtain ⟨big, hb⟩ : ∃ big : Bytes, big = List.replicate 256 255 := ⟨_, rfl⟩
  have hv := veiled big hb
  refine ⟨sampleDb [([107], .map [(big, [1])])], sampleDb [([107], .map [(big, [2])])], veiled_reached ⟨by simp, by simp, by simp⟩,
    veiled_reached ⟨by simp, by simp, by simp⟩, rfl, fun hs => ?_, fun l => C210_calls _ l (veiled_entries hv) rfl⟩
  have := hs [107]
  rw [show (sampleDb [([107], .map [(big, [1])])]).keys [107] = some (.map [(big, [1])]) from rfl,
    show (sampleDb [([107], .map [(big, [2])])]).keys [107] = some (.map [(big, [2])]) from rfl] at this
  simp [SameEntry, Same] at this

/-! ## Concrete cases -/

/-- Two lists, of which one item differs. -/
example : ∃ l : List Api, l.length ≤ 2 ∧ (callAll (sampleEnv .debug) l (sampleDb [([107], .list [[1]])])).1 ≠
    (callAll (sampleEnv .debug) l (sampleDb [([107], .list [[2]])])).1 := by
  refine C210_told (k := [107]) (sampleDb_roomy _ _ (by decide)) (sampleDb_roomy _ _ (by decide))
    (veiled_reached fun x hx => by simp_all) (veiled_reached fun x hx => by simp_all) ?_ ?_
  · rintro v (h | h)
    · cases h
      exact .inl ⟨by simp, by decide, by decide⟩
    · cases h
      exact .inl ⟨by simp, by decide, by decide⟩
  · intro h
    cases h

/-- Two tasks, of which one gets the map and the other overwrites it, find out nothing about what is under the long key. -/
example (sched : List Nat) (i : Nat) (x : Outcome DispatchError (List Resolved)) :
    let cs : List (Caller × Nat) := [(fun _ => some (.get [107]), 2), (fun _ => some (.set [107] (.integer 5)), 1)]
    ((Callers.pool (sampleEnv .release) cs (sampleDb [([107], .map [(List.replicate 256 255, [1])])])).exec sched).threads[i]? = some (.done x) ↔
    ((Callers.pool (sampleEnv .release) cs (sampleDb [([107], .map [(List.replicate 256 255, [2])])])).exec sched).threads[i]? = some (.done x) :=
  (C210_hidden _ _ (veiled_entries (veiled _ rfl)) rfl sched).1 i x

/-- Of two maps that differ under the long key, with the same statistics, the keys are what calls can find out, and they do not differ. -/
example (big : Bytes) (hb : big = List.replicate 256 255) :
    ¬ ∃ l : List Api, (callAll (sampleEnv .release) l (sampleDb [([107], .map [(big, [1])])])).1 ≠
      (callAll (sampleEnv .release) l (sampleDb [([107], .map [(big, [2])])])).1 := by
  have hl : big.length = 256 := by rw [hb, List.length_replicate]
  have hx := C210_exact (env := sampleEnv .release) (db := sampleDb [([107], .map [(big, [1])])]) (db' := sampleDb [([107], .map [(big, [2])])])
    (sampleDb_roomy _ _ (by decide)) rfl (veiled_reached ⟨by simp, by simp, by simp⟩) (veiled_reached ⟨by simp, by simp, by simp⟩) fun k v hv => by
      simp only [sampleDb, List.lookup] at hv
      rcases hv with hv | hv <;> split at hv <;> cases hv <;> simp [Askable, hl]
  exact fun h => hx.1.mp h (veiled_entries (veiled big hb))

end Hop
