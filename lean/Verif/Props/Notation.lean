import Verif.Lemmas.Footprint
import Verif.Props.Store

/-!
# What commands declare about their keys and arguments (C187, C188, C189)
-/

namespace Hop

open Prog Spec

/-- The arguments that a notation of keys says are keys. -/
def Spec.declaredKeys : KeyNotation → List Bytes → List Bytes
  | .none, _ => []
  | .one, args => args.take 1
  | .two, args => args.take 2
  | .multiple, args => args

/-- The arguments that the notations of keys and of further arguments allow for together. -/
def Spec.declaredPart : KeyNotation → ArgumentNotation → List Bytes → List Bytes
  | .multiple, _, args | _, .multiple, args => args
  | .none, .none, _ => []
  | .none, .one, args | .one, .none, args => args.take 1
  | .one, .one, args | .two, .none, args => args.take 2
  | .two, .one, args => args.take 3

/-- The part of the arguments that a command has a use for: none for Stats, the key for the counters without amount, Delete,
Get, Keys, Length and Type, two arguments for the counters with amount and Rename, all of them for the others. -/
def Spec.usedPart : CommandId → List Bytes → List Bytes
  | .stats, _ => []
  | .increment, args | .decrement, args | .delete, args | .get, args | .keys, args | .length, args | .type, args => args.take 1
  | .incrementBy, args | .decrementBy, args | .rename, args => args.take 2
  | .append, args | .set, args | .echo, args | .exists, args | .is, args => args

theorem Touches.run_agree {α} {K : Bytes → Prop} {p : Prog α} (hp : Touches K p) {db db' : Db} (hk : ∀ k, K k → db.keys k = db'.keys k)
    (hc : db.ctrs = db'.ctrs) : (p.run db).1 = (p.run db').1 ∧ (p.run db).2.ctrs = (p.run db').2.ctrs ∧
      (∀ k, K k → (p.run db).2.keys k = (p.run db').2.keys k) ∧ ∀ k, ¬ K k → (p.run db).2.keys k = db.keys k := by
  induction p generalizing db db' with
  | done r => exact ⟨rfl, hc, hk, fun _ _ => rfl⟩
  | onKey k upd next ih =>
    simp only [Prog.run]
    rw [← hk k hp.1]
    obtain ⟨h1, h2, h3, h4⟩ := ih (db.keys k) (hp.2 _) (db := db.setKey k (upd (db.keys k))) (db' := db'.setKey k (upd (db.keys k)))
      (by
        intro k' hk'
        by_cases he : k' = k
        · subst he; simp [Db.setKey_keys_self]
        · simp only [Db.setKey, if_neg he]; exact hk k' hk') hc
    refine ⟨h1, h2, h3, fun k' hk' => ?_⟩
    rw [h4 k' hk']
    simp only [Db.setKey]
    rw [if_neg]
    rintro rfl
    exact hk' hp.1
  | onCtr m upd next ih =>
    simp only [Prog.run]
    rw [← hc]
    exact ih _ (hp _) hk (by simp only [Db.setCtr, hc])

/-- C187. A command looks at no keys but those that its notation says it has. Of two stores that agree on these keys (and on
the counters) a command makes the same: it gives the same answer, leaves the same in these keys and in the counters, and it
changes no other key. -/
theorem C187_keys {env : Env} {r : Request} {c : CommandId} {kt : Option KeyType} {args : List Bytes} (hv : Views r c kt args) (resp : Bytes)
    (db db' : Db) (hk : ∀ k ∈ declaredKeys c.keyNotation args, db.keys k = db'.keys k) (hc : db.ctrs = db'.ctrs) :
    ((dispatch env r resp).run db).1 = ((dispatch env r resp).run db').1 ∧
    ((dispatch env r resp).run db).2.ctrs = ((dispatch env r resp).run db').2.ctrs ∧
    (∀ k ∈ declaredKeys c.keyNotation args, ((dispatch env r resp).run db).2.keys k = ((dispatch env r resp).run db').2.keys k) ∧
    ∀ k, k ∉ declaredKeys c.keyNotation args → ((dispatch env r resp).run db).2.keys k = db.keys k := by
  refine Touches.run_agree (K := fun k => k ∈ declaredKeys c.keyNotation args) ?_ hk hc
  unfold dispatch
  refine Touches.andThen ?_ fun r => Touches.countOutcome r
  by_cases he : c = .echo
  · subst he
    unfold command
    rw [hv.command]
    dsimp only [dispatchEcho]
    split <;> trivial
  by_cases hs : c = .stats
  · subst hs
    unfold command
    rw [hv.command]
    dsimp only [dispatchStats]
    split
    · trivial
    · exact Touches.statsLoop (fun _ => by trivial) _ _
  refine touches_command (fun k h => ?_) (fun hr k h => ?_) (fun hr l h k hkl => ?_)
  · rw [hv.arg] at h
    have : k ∈ args.take 1 := by
      cases args with
      | nil => cases h
      | cons a as => cases h; simp
    cases c <;> first | exact absurd rfl he | exact absurd rfl hs | exact this | exact List.mem_of_mem_take this | skip
    exact List.mem_of_mem_take (i := 1) (l := args.take 2) (by simpa [List.take_take] using this)
  · rw [hv.command] at hr; subst hr
    rw [hv.arg] at h
    match args, h with
    | a :: b :: as, h => cases h; simp [declaredKeys, CommandId.keyNotation]
  · rw [argsFrom_eq hv] at h
    have : k ∈ args := by
      split at h
      · cases h
      · cases h; simpa using hkl
    rw [hv.command] at hr
    rcases hr with rfl | rfl <;> exact this

/-- The arguments that a command has no use for make no difference to the program it runs, and so to nothing it does alone or
among others. -/
theorem C189_used {env : Env} {r r' : Request} {c : CommandId} {kt : Option KeyType} {args args' : List Bytes} (hv : Views r c kt args)
    (hv' : Views r' c kt args') (h : usedPart c args = usedPart c args') (resp : Bytes) : dispatch env r resp = dispatch env r' resp := by
  suffices hs : command env r resp = command env r' resp by unfold dispatch; rw [hs]
  have h1 : args.take 1 = args'.take 1 → args[0]? = args'[0]? := fun h => by
    have := congrArg (fun l => l[0]?) h
    simpa using this
  have h2 : args.take 2 = args'.take 2 → args[0]? = args'[0]? ∧ args[1]? = args'[1]? := fun h => by
    have h3 := congrArg (fun l => l[0]?) h
    have h4 := congrArg (fun l => l[1]?) h
    simp only [List.getElem?_take] at h3 h4
    exact ⟨by simpa using h3, by simpa using h4⟩
  unfold command
  rw [hv.command, hv'.command]
  cases c <;> simp only [usedPart] at h <;> first
    | (subst h
       simp only [dispatchAppend, dispatchSet, dispatchEcho, dispatchExists, dispatchIs, setBoolean, setBytes, setFloat, setInteger, setList, setMap,
         setSet, setString, Request.key, hv.command, hv'.command, hv.keyType, hv'.keyType, hv.arg, hv'.arg, argsFrom_eq hv, argsFrom_eq hv',
         resolveKeyType])
    | (simp only [dispatchIncrement, dispatchDecrement, dispatchDelete, dispatchGet, dispatchKeys, dispatchLength, dispatchType, Request.key,
         hv.command, hv'.command, hv.keyType, hv'.keyType, hv.arg, hv'.arg, resolveKeyType, h1 h])
    | (simp only [dispatchIncrementBy, dispatchDecrementBy, dispatchRename, Request.key, hv.command, hv'.command, hv.keyType, hv'.keyType, hv.arg,
         hv'.arg, (h2 h).1, (h2 h).2])
    | (simp only [dispatchStats, hv.keyType, hv'.keyType])

/-- C188: what a command does depends on the arguments that its notations allow for only. -/
def Spec.C188_Statement : Prop :=
  ∀ (env : Env) (r r' : Request) (c : CommandId) (kt : Option KeyType) (args args' : List Bytes) (resp : Bytes) (db : Db), Views r c kt args →
    Views r' c kt args' → declaredPart c.keyNotation c.argumentNotation args = declaredPart c.keyNotation c.argumentNotation args' →
    ((dispatch env r resp).run db).2.keys = ((dispatch env r' resp).run db).2.keys

/-- C188 is false: an Append appends more than the one argument it declares. -/
theorem C188_false : ¬ C188_Statement := by
  intro h
  have := congrFun (h (sampleEnv .debug) _ _ .append none [[1], [2]] [[1], [2], [3]] [] (sampleDb [])
    (call_views _ _ _ (by decide) (by decide) (by decide)) (call_views _ _ _ (by decide) (by decide) (by decide)) rfl) [1]
  revert this
  decide +kernel

/-- C188 for all commands but Append and Set: the same program runs. -/
theorem C188_partial {env : Env} {r r' : Request} {c : CommandId} {kt : Option KeyType} {args args' : List Bytes} (hc : c ∉ [.append, .set])
    (hv : Views r c kt args) (hv' : Views r' c kt args')
    (h : declaredPart c.keyNotation c.argumentNotation args = declaredPart c.keyNotation c.argumentNotation args') (resp : Bytes) :
    dispatch env r resp = dispatch env r' resp := by
  refine C189_used hv hv' ?_ resp
  cases c <;> first | exact absurd (by decide) hc | exact h | skip
  all_goals
    have := congrArg (List.take 1) h
    simpa [declaredPart, CommandId.keyNotation, CommandId.argumentNotation, List.take_take, usedPart] using this

/-- Twelve of the sixteen commands declare what they use. Append and Set use more arguments than they declare, and Delete and
Length declare an argument they have no use for. -/
theorem C189_declared (c : CommandId) :
    (∀ args, declaredPart c.keyNotation c.argumentNotation args = usedPart c args) ↔ c ∉ [.append, .set, .delete, .length] := by
  constructor
  · intro h hc
    have := h [[1], [2], [3]]
    revert this hc
    revert c
    intro c _
    cases c <;> decide
  · intro hc args
    cases c <;> first | rfl | exact absurd (by decide) hc

private theorem ones_set (n j : Nat) : ∀ a ∈ (List.replicate n ([1] : Bytes)).set j [2], a.length = 1 := by
  intro a ha
  rcases List.mem_or_eq_of_mem_set ha with h | rfl
  · rw [(List.mem_replicate.1 h).2]; rfl
  · rfl

private theorem ones_same (n : Nat) : ∀ a ∈ List.replicate n ([1] : Bytes), a.length = 1 := by
  intro a ha
  rw [(List.mem_replicate.1 ha).2]; rfl

private theorem items_length (l : List Bytes) (h : ∀ a ∈ l, a.length = 1) : (l.flatMap listItem).length = 5 * l.length := by
  induction l with
  | nil => rfl
  | cons a l ih =>
    rw [List.flatMap_cons, List.length_append, ih fun x hx => h x (by simp [hx])]
    simp only [listItem, List.length_append, beBytes_length, h a (by simp), List.length_cons]
    omega

private theorem ones_fit (m : Mode) (l : List Bytes) (h : ∀ a ∈ l, a.length = 1) (hl : l.length ≤ 255) : Deliverable m (.value (.list l)) := by
  refine ⟨?_, fun _ l' hl' => by cases hl'; omega⟩
  simp only [body, payload, List.length_cons, List.length_append, beBytes_length, items_length l h]
  omega

private theorem ones_differ {n j : Nat} (hj : j < n) : List.replicate n ([1] : Bytes) ≠ (List.replicate n [1]).set j [2] := by
  intro h
  have h1 := congrArg (fun l => l[j]?) h
  rw [List.getElem?_set_self (by rw [List.length_replicate]; exact hj), List.getElem?_replicate_of_lt hj] at h1
  cases h1

private theorem ones_frame {m : Mode} {l l' : List Bytes} (h : ∀ a ∈ l, a.length = 1) (hl : l.length ≤ 255) (h' : ∀ a ∈ l', a.length = 1)
    (hl' : l'.length ≤ 255) (h0 : l ≠ []) (h0' : l' ≠ []) (he : frame (.value (.list l)) = frame (.value (.list l'))) : l = l' := by
  have f : ∀ l : List Bytes, l ≠ [] → (∀ a ∈ l, a.length = 1) → l.length ≤ 255 → Fits m (.value (.list l)) := fun l h0 h hl =>
    ⟨h0, by omega, by rw [items_length l h]; omega⟩
  have h1 := RespParser.feed_frame m (.value (.list l)) [] (f l h0 h hl)
  rw [he, RespParser.feed_frame m _ [] (f l' h0' h' hl')] at h1
  injection h1 with h1
  injection h1 with h1
  injection h1 with h1
  injection h1 with h1
  exact h1.symm

private theorem bool_fits (m : Mode) (b : Bool) : Deliverable m (.value (.boolean b)) := ⟨by cases b <;> decide, by intro _ l h; cases h⟩

private theorem bools_differ (m : Mode) :
    delivered (sampleEnv m) [] (.value (.boolean true)) ≠ delivered (sampleEnv m) [] (.value (.boolean false)) := by
  cases m <;> decide +kernel

/-- If a list is stored under the first argument, then it matters what each argument is. -/
private theorem stored_differ {n j : Nat} (hj : j < n) (hn : 2 ≤ n) {after : List Bytes → Store}
    (h : ∀ k items, k = [1] ∨ k = [2] → items ≠ [] → after (k :: items) = Store.put (fun _ => none) k (some (.list items))) :
    after (List.replicate n [1]) ≠ after ((List.replicate n [1]).set j [2]) := by
  obtain ⟨n, rfl⟩ : ∃ n', n = n' + 2 := ⟨n - 2, by omega⟩
  rw [List.replicate_succ]
  intro he
  rw [h _ _ (.inl rfl) (by simp)] at he
  match j with
  | 0 =>
    rw [List.set_cons_zero, h _ _ (.inr rfl) (by simp)] at he
    have := congrFun he [1]
    simp [Store.put] at this
  | j + 1 =>
    rw [List.set_cons_succ, h _ _ (.inl rfl) (by simp)] at he
    have := congrFun he [1]
    simp only [Store.put, if_true, Option.some.injEq, Value.list.injEq] at this
    exact ones_differ (by omega) this

/-- No part of what a command is said to use can be left out: for each place in it there are two requests that differ in that
argument only and have different outcomes. (For the commands that use all arguments, up to the 255 that a request can hold.) -/
theorem C189_needed (m : Mode) (c : CommandId) (n j : Nat) (hn : 2 ≤ n) (hn' : n ≤ 255) (hj : j < (usedPart c (List.replicate n [1])).length) :
    ∃ (kt : Option KeyType) (args : List Bytes) (b : Bytes) (db : Db), Views (call c kt args) c kt args ∧
      Views (call c kt (args.set j b)) c kt (args.set j b) ∧
      (((dispatch (sampleEnv m) (call c kt args) []).run db).1 ≠ ((dispatch (sampleEnv m) (call c kt (args.set j b)) []).run db).1 ∨
        ((dispatch (sampleEnv m) (call c kt args) []).run db).2.keys ≠
          ((dispatch (sampleEnv m) (call c kt (args.set j b)) []).run db).2.keys) := by
  have views : ∀ (args : List Bytes) (b : Bytes) (kt : Option KeyType), c ≠ .stats → args.length ≤ 255 → (∀ a ∈ args, a ≠ []) → b ≠ [] →
      Views (call c kt args) c kt args ∧ Views (call c kt (args.set j b)) c kt (args.set j b) := by
    intro args b kt hs hn he hb
    refine ⟨call_views _ _ _ (.inl hs) hn he, call_views _ _ _ (.inl hs) (by simpa using hn) ?_⟩
    intro a ha
    rcases List.mem_or_eq_of_mem_set ha with h | rfl
    · exact he a h
    · exact hb
  have one : ∀ (a b : Bytes) (kt : Option KeyType) (db : Db), c ≠ .stats → j = 0 → a ≠ [] → b ≠ [] →
      ((dispatch (sampleEnv m) (call c kt [a]) []).run db).1 ≠ ((dispatch (sampleEnv m) (call c kt [b]) []).run db).1 →
      ∃ (kt : Option KeyType) (args : List Bytes) (b : Bytes) (db : Db), Views (call c kt args) c kt args ∧
        Views (call c kt (args.set j b)) c kt (args.set j b) ∧
        (((dispatch (sampleEnv m) (call c kt args) []).run db).1 ≠ ((dispatch (sampleEnv m) (call c kt (args.set j b)) []).run db).1 ∨
          ((dispatch (sampleEnv m) (call c kt args) []).run db).2.keys ≠
            ((dispatch (sampleEnv m) (call c kt (args.set j b)) []).run db).2.keys) := by
    rintro a b kt db hs rfl ha hb h
    obtain ⟨h1, h2⟩ := views [a] b kt hs (by simp) (by simpa using ha) hb
    exact ⟨kt, [a], b, db, h1, h2, .inl h⟩
  have two : ∀ (a b a' b' : Bytes) (kt : Option KeyType) (db : Db), c ≠ .stats → j < 2 → a ≠ [] → b ≠ [] → a' ≠ [] → b' ≠ [] →
      ((dispatch (sampleEnv m) (call c kt [a, b]) []).run db).1 ≠ ((dispatch (sampleEnv m) (call c kt [a', b]) []).run db).1 →
      ((dispatch (sampleEnv m) (call c kt [a, b]) []).run db).1 ≠ ((dispatch (sampleEnv m) (call c kt [a, b']) []).run db).1 →
      ∃ (kt : Option KeyType) (args : List Bytes) (b : Bytes) (db : Db), Views (call c kt args) c kt args ∧
        Views (call c kt (args.set j b)) c kt (args.set j b) ∧
        (((dispatch (sampleEnv m) (call c kt args) []).run db).1 ≠ ((dispatch (sampleEnv m) (call c kt (args.set j b)) []).run db).1 ∨
          ((dispatch (sampleEnv m) (call c kt args) []).run db).2.keys ≠
            ((dispatch (sampleEnv m) (call c kt (args.set j b)) []).run db).2.keys) := by
    intro a b a' b' kt db hs hj ha hb ha' hb' h h'
    match j, hj with
    | 0, _ =>
      obtain ⟨h1, h2⟩ := views [a, b] a' kt hs (by simp) (by simp [ha, hb]) ha'
      exact ⟨kt, [a, b], a', db, h1, h2, .inl h⟩
    | 1, _ =>
      obtain ⟨h1, h2⟩ := views [a, b] b' kt hs (by simp) (by simp [ha, hb]) hb'
      exact ⟨kt, [a, b], b', db, h1, h2, .inl h'⟩
  have sample : Roomy 1 (sampleDb [([1], .integer 5)]).ctrs := sampleDb_roomy _ _ (by decide)
  have hmany : c ≠ .stats → ∀ kt, Views (call c kt (List.replicate n [1])) c kt (List.replicate n [1]) ∧
      Views (call c kt ((List.replicate n [1]).set j [2])) c kt ((List.replicate n [1]).set j [2]) := fun hs kt =>
    views (List.replicate n [1]) [2] kt hs (by simpa using hn') (by intro a ha; rw [(List.mem_replicate.1 ha).2]; simp) (by simp)
  have take1 : j < ((List.replicate n ([1] : Bytes)).take 1).length → j = 0 := by
    rw [List.length_take, List.length_replicate]; omega
  have take2 : j < ((List.replicate n ([1] : Bytes)).take 2).length → j < 2 := by
    rw [List.length_take, List.length_replicate]; omega
  have all : j < (List.replicate n ([1] : Bytes)).length → j < n := by
    rw [List.length_replicate]; exact id
  have hnil : ∀ x : List Bytes, x.length = n → x ≠ [] := by rintro x hx rfl; simp at hx; omega
  have hset : ((List.replicate n ([1] : Bytes)).set j [2]).length = n := by simp
  cases c with
  | stats => simp [usedPart] at hj
  | increment => exact one [1] [2] none (sampleDb [([1], .integer 5)]) (by decide) (take1 hj) (by decide) (by decide) (by cases m <;> decide +kernel)
  | decrement => exact one [1] [2] none (sampleDb [([1], .integer 5)]) (by decide) (take1 hj) (by decide) (by decide) (by cases m <;> decide +kernel)
  | delete => exact one [1] [2] none (sampleDb [([1], .integer 5)]) (by decide) (take1 hj) (by decide) (by decide) (by cases m <;> decide +kernel)
  | get => exact one [1] [2] none (sampleDb [([1], .integer 5)]) (by decide) (take1 hj) (by decide) (by decide) (by cases m <;> decide +kernel)
  | keys => exact one [1] [2] none (sampleDb [([1], .map [])]) (by decide) (take1 hj) (by decide) (by decide) (by cases m <;> decide +kernel)
  | length => exact one [1] [2] none (sampleDb [([1], .bytes [5])]) (by decide) (take1 hj) (by decide) (by decide) (by cases m <;> decide +kernel)
  | type => exact one [1] [2] none (sampleDb [([1], .bytes [5])]) (by decide) (take1 hj) (by decide) (by decide) (by cases m <;> decide +kernel)
  | incrementBy =>
    exact two [1] [0, 0, 0, 0, 0, 0, 0, 1] [2] [0, 0, 0, 0, 0, 0, 0, 2] none (sampleDb [([1], .integer 5)]) (by decide) (take2 hj) (by decide)
      (by decide) (by decide) (by decide) (by cases m <;> decide +kernel) (by cases m <;> decide +kernel)
  | decrementBy =>
    exact two [1] [0, 0, 0, 0, 0, 0, 0, 1] [2] [0, 0, 0, 0, 0, 0, 0, 2] none (sampleDb [([1], .integer 5)]) (by decide) (take2 hj) (by decide)
      (by decide) (by decide) (by decide) (by cases m <;> decide +kernel) (by cases m <;> decide +kernel)
  | rename =>
    exact two [1] [2] [2] [3] none (sampleDb [([1], .integer 5)]) (by decide) (take2 hj) (by decide)
      (by decide) (by decide) (by decide) (by cases m <;> decide +kernel) (by cases m <;> decide +kernel)
  | echo =>
    obtain ⟨h1, h2⟩ := hmany (by decide) none
    refine ⟨none, _, [2], sampleDb [([1], .integer 5)], h1, h2, .inl fun h => ?_⟩
    rw [C48_dispatch (c := ⟨.echo, none, _⟩) h1 [] _ sample (ones_fit _ _ (ones_same n) (by rw [List.length_replicate]; exact hn')),
      C48_dispatch (c := ⟨.echo, none, _⟩) h2 [] _ sample (ones_fit _ _ (ones_set n j) (by rw [hset]; exact hn'))] at h
    simp only [perform, execute, delivered, List.nil_append, ordered, orderedValue, Outcome.ok.injEq] at h
    exact ones_differ (all hj) (ones_frame (m := m) (ones_same n) (by rw [List.length_replicate]; exact hn') (ones_set n j) (by rw [hset]; exact hn')
      (hnil _ (by simp)) (hnil _ hset) h)
  | «exists» =>
    obtain ⟨h1, h2⟩ := hmany (by decide) none
    refine ⟨none, _, [2], sampleDb [([1], .integer 5)], h1, h2, .inl fun h => ?_⟩
    have e1 : (perform (sampleEnv m) ⟨.exists, none, List.replicate n [1]⟩ (sampleDb [([1], .integer 5)])).1 = .value (.boolean true) := by
      simp only [perform, execute, Option.isSome_none, Bool.false_eq_true, if_false, if_neg (hnil (List.replicate n [1]) (by simp))]
      rw [List.all_eq_true.2]
      intro a ha
      rw [(List.mem_replicate.1 ha).2]; rfl
    have e2 : (perform (sampleEnv m) ⟨.exists, none, (List.replicate n [1]).set j [2]⟩ (sampleDb [([1], .integer 5)])).1 = .value (.boolean false) := by
      simp only [perform, execute, Option.isSome_none, Bool.false_eq_true, if_false, if_neg (hnil ((List.replicate n [1]).set j [2]) hset)]
      rw [List.all_eq_false.2 ⟨[2], List.mem_set (by rw [List.length_replicate]; exact all hj) _, by decide⟩]
    rw [C48_dispatch (c := ⟨.exists, none, _⟩) h1 [] _ sample (by rw [e1]; exact bool_fits m true),
      C48_dispatch (c := ⟨.exists, none, _⟩) h2 [] _ sample (by rw [e2]; exact bool_fits m false), e1, e2] at h
    exact bools_differ m h
  | is =>
    obtain ⟨h1, h2⟩ := hmany (by decide) (some .integer)
    refine ⟨some .integer, _, [2], sampleDb [([1], .integer 5)], h1, h2, .inl fun h => ?_⟩
    have e1 : (perform (sampleEnv m) ⟨.is, some .integer, List.replicate n [1]⟩ (sampleDb [([1], .integer 5)])).1 = .value (.boolean true) := by
      simp only [perform, execute, if_neg (hnil (List.replicate n [1]) (by simp))]
      rw [List.all_eq_true.2]
      intro a ha
      rw [(List.mem_replicate.1 ha).2]; rfl
    have e2 : (perform (sampleEnv m) ⟨.is, some .integer, (List.replicate n [1]).set j [2]⟩ (sampleDb [([1], .integer 5)])).1 =
        .value (.boolean false) := by
      simp only [perform, execute, if_neg (hnil ((List.replicate n [1]).set j [2]) hset)]
      rw [List.all_eq_false.2 ⟨[2], List.mem_set (by rw [List.length_replicate]; exact all hj) _, by decide⟩]
    rw [C48_dispatch (c := ⟨.is, some .integer, _⟩) h1 [] _ sample (by rw [e1]; exact bool_fits m true),
      C48_dispatch (c := ⟨.is, some .integer, _⟩) h2 [] _ sample (by rw [e2]; exact bool_fits m false), e1, e2] at h
    exact bools_differ m h
  | append =>
    obtain ⟨h1, h2⟩ := hmany (by decide) (some .list)
    refine ⟨some .list, _, [2], sampleDb [], h1, h2, .inr fun h => ?_⟩
    rw [C48_keys (c := ⟨.append, some .list, _⟩) h1 [] _ (sampleDb_roomy _ _ (by decide)) (.inr (.inl nofun)),
      C48_keys (c := ⟨.append, some .list, _⟩) h2 [] _ (sampleDb_roomy _ _ (by decide)) (.inr (.inl nofun))] at h
    exact absurd h (stored_differ (after := fun l => (perform (sampleEnv m) ⟨.append, some .list, l⟩ (sampleDb [])).2.keys) (all hj) hn
      fun k items hk hi => by
      have hu : ¬ unusable (sampleEnv m).mode k := by rcases hk with rfl | rfl <;> cases m <;> decide
      simp [perform, execute, effectiveType, hu, sampleDb, appended, Value.default, Value.kind])
  | set =>
    obtain ⟨h1, h2⟩ := hmany (by decide) (some .list)
    refine ⟨some .list, _, [2], sampleDb [], h1, h2, .inr fun h => ?_⟩
    have fits : ∀ l : List Bytes, l.length = n → (∀ a ∈ l, a.length = 1) → (l.head? = some [1] ∨ l.head? = some [2]) →
        Deliverable (sampleEnv m).mode (perform (sampleEnv m) ⟨.set, some .list, l⟩ (sampleDb [])).1 := by
      intro l hl hs h0
      match l, hl, hs, h0 with
      | k :: a :: items, hl, hs, h0 =>
        simp only [List.head?_cons, Option.some.injEq] at h0
        have hu : ¬ unusable (sampleEnv m).mode k := by rcases h0 with rfl | rfl <;> cases m <;> decide
        simp only [perform, execute, effectiveType, parseValue, hu, if_false]
        exact ones_fit _ _ (fun x hx => hs x (by simp only [List.mem_cons] at hx ⊢; exact .inr hx)) (by
          simp only [List.length_cons] at hl ⊢; omega)
      | [_], hl, _, _ => simp at hl; omega
      | [], hl, _, _ => simp at hl; omega
    rw [C48_keys (c := ⟨.set, some .list, _⟩) h1 [] _ (sampleDb_roomy _ _ (by decide)) (.inr (.inr (fits _ (by simp) (ones_same n) (.inl (by
        obtain ⟨n, rfl⟩ : ∃ n', n = n' + 1 := ⟨n - 1, by omega⟩
        rfl))))),
      C48_keys (c := ⟨.set, some .list, _⟩) h2 [] _ (sampleDb_roomy _ _ (by decide)) (.inr (.inr (fits _ hset (ones_set n j) (by
        obtain ⟨n, rfl⟩ : ∃ n', n = n' + 1 := ⟨n - 1, by omega⟩
        cases j
        · exact .inr rfl
        · exact .inl rfl))))] at h
    exact absurd h (stored_differ (after := fun l => (perform (sampleEnv m) ⟨.set, some .list, l⟩ (sampleDb [])).2.keys) (all hj) hn
      fun k items hk hi => by
      have hu : ¬ unusable (sampleEnv m).mode k := by rcases hk with rfl | rfl <;> cases m <;> decide
      match items, hi with
      | a :: items, _ =>
        simp only [perform, execute, effectiveType, parseValue, hu, if_false]
        rfl)

/-- No key that a command declares is declared in vain: for each there are two stores that differ in that key only and give
different answers. (For Exists and Is, up to the 255 keys that a request can hold.) -/
theorem C187_each (m : Mode) (c : CommandId) (n j : Nat) (hn : 2 ≤ n) (hn' : n ≤ 255)
    (hj : j < (declaredKeys c.keyNotation (List.replicate n [1])).length) :
    ∃ (kt : Option KeyType) (args : List Bytes) (k : Bytes) (db db' : Db), Views (call c kt args) c kt args ∧
      (declaredKeys c.keyNotation args)[j]? = some k ∧ db.ctrs = db'.ctrs ∧ (∀ k', k' ≠ k → db.keys k' = db'.keys k') ∧
      ((dispatch (sampleEnv m) (call c kt args) []).run db).1 ≠ ((dispatch (sampleEnv m) (call c kt args) []).run db').1 := by
  have only : ∀ (k : Bytes) (l : List (Bytes × Value)) (v : Value) (k' : Bytes), k' ≠ k → (sampleDb ((k, v) :: l)).keys k' = (sampleDb l).keys k' := by
    intro k l v k' h
    simp only [sampleDb, List.lookup_cons]
    rw [beq_false_of_ne h]
  have take1 : j < ((List.replicate n ([1] : Bytes)).take 1).length → j = 0 := by
    rw [List.length_take, List.length_replicate]; omega
  have take2 : j < ((List.replicate n ([1] : Bytes)).take 2).length → j < 2 := by
    rw [List.length_take, List.length_replicate]; omega
  have all : j < (List.replicate n ([1] : Bytes)).length → j < n := by
    rw [List.length_replicate]; exact id
  have hlen : ((List.replicate n ([1] : Bytes)).set j [2]).length = n := by simp
  have hnil : (List.replicate n ([1] : Bytes)).set j [2] ≠ [] := by
    intro h; rw [h] at hlen; simp at hlen; omega
  have hin : ∀ a ∈ (List.replicate n ([1] : Bytes)).set j [2], a = [1] ∨ a = [2] := by
    intro a ha
    rcases List.mem_or_eq_of_mem_set ha with h | rfl
    · exact .inl (List.mem_replicate.1 h).2
    · exact .inr rfl
  have hv : ∀ kt, c ≠ .stats → Views (call c kt ((List.replicate n [1]).set j [2])) c kt ((List.replicate n [1]).set j [2]) := fun kt hs =>
    call_views _ _ _ (.inl hs) (by rw [hlen]; exact hn') (by intro a ha; rcases hin a ha with rfl | rfl <;> simp)
  have one : ∀ (a : Bytes) (l : List Bytes) (kt : Option KeyType) (rest : List (Bytes × Value)) (v : Value), c.keyNotation = .one → c ≠ .stats →
      (a :: l).length ≤ 255 → (∀ x ∈ a :: l, x ≠ []) → j = 0 →
      ((dispatch (sampleEnv m) (call c kt (a :: l)) []).run (sampleDb ((a, v) :: rest))).1 ≠
        ((dispatch (sampleEnv m) (call c kt (a :: l)) []).run (sampleDb rest)).1 →
      ∃ (kt : Option KeyType) (args : List Bytes) (k : Bytes) (db db' : Db), Views (call c kt args) c kt args ∧
      (declaredKeys c.keyNotation args)[j]? = some k ∧ db.ctrs = db'.ctrs ∧ (∀ k', k' ≠ k → db.keys k' = db'.keys k') ∧
      ((dispatch (sampleEnv m) (call c kt args) []).run db).1 ≠ ((dispatch (sampleEnv m) (call c kt args) []).run db').1 := by
    rintro a l kt rest v hc hs h1 h2 rfl h
    exact ⟨kt, a :: l, a, sampleDb ((a, v) :: rest), sampleDb rest, call_views _ _ _ (.inl hs) h1 h2, by rw [hc]; rfl, rfl, only a rest v, h⟩
  cases c with
  | stats => simp [declaredKeys, CommandId.keyNotation] at hj
  | echo => simp [declaredKeys, CommandId.keyNotation] at hj
  | increment => exact one [1] [] none [] (.integer 5) rfl (by decide) (by decide) (by decide) (take1 hj) (by cases m <;> decide +kernel)
  | decrement => exact one [1] [] none [] (.integer 5) rfl (by decide) (by decide) (by decide) (take1 hj) (by cases m <;> decide +kernel)
  | incrementBy =>
    exact one [1] [[0, 0, 0, 0, 0, 0, 0, 1]] none [] (.integer 5) rfl (by decide) (by decide) (by decide) (take1 hj) (by cases m <;> decide +kernel)
  | decrementBy =>
    exact one [1] [[0, 0, 0, 0, 0, 0, 0, 1]] none [] (.integer 5) rfl (by decide) (by decide) (by decide) (take1 hj) (by cases m <;> decide +kernel)
  | delete => exact one [1] [] none [] (.integer 5) rfl (by decide) (by decide) (by decide) (take1 hj) (by cases m <;> decide +kernel)
  | get => exact one [1] [] none [] (.integer 5) rfl (by decide) (by decide) (by decide) (take1 hj) (by cases m <;> decide +kernel)
  | keys => exact one [1] [] none [] (.map []) rfl (by decide) (by decide) (by decide) (take1 hj) (by cases m <;> decide +kernel)
  | length => exact one [1] [] none [] (.bytes [5]) rfl (by decide) (by decide) (by decide) (take1 hj) (by cases m <;> decide +kernel)
  | type => exact one [1] [] none [] (.bytes [5]) rfl (by decide) (by decide) (by decide) (take1 hj) (by cases m <;> decide +kernel)
  | append => exact one [1] [[2]] none [] (.bytes [5]) rfl (by decide) (by decide) (by decide) (take1 hj) (by cases m <;> decide +kernel)
  | set => exact one [1] [[2]] none [] (.integer 5) rfl (by decide) (by decide) (by decide) (take1 hj) (by cases m <;> decide +kernel)
  | rename =>
    match j, take2 hj with
    | 0, _ =>
      exact ⟨none, [[1], [2]], [1], sampleDb [([1], .integer 5)], sampleDb [], call_views _ _ _ (by decide) (by decide) (by decide), rfl, rfl,
        only _ _ _, by cases m <;> decide +kernel⟩
    | 1, _ =>
      exact ⟨none, [[1], [2]], [2], sampleDb [([2], .integer 6), ([1], .integer 5)], sampleDb [([1], .integer 5)],
        call_views _ _ _ (by decide) (by decide) (by decide), rfl, rfl, only _ _ _, by cases m <;> decide +kernel⟩
  | «exists» =>
    refine ⟨none, _, [2], sampleDb [([2], .integer 6), ([1], .integer 5)], sampleDb [([1], .integer 5)], hv none (by decide),
      List.getElem?_set_self hj, rfl, only _ _ _, fun h => ?_⟩
    have e1 : (perform (sampleEnv m) ⟨.exists, none, (List.replicate n [1]).set j [2]⟩ (sampleDb [([2], .integer 6), ([1], .integer 5)])).1 =
        .value (.boolean true) := by
      simp only [perform, execute, Option.isSome_none, Bool.false_eq_true, if_false, if_neg hnil]
      rw [List.all_eq_true.2]
      intro a ha
      rcases hin a ha with rfl | rfl <;> rfl
    have e2 : (perform (sampleEnv m) ⟨.exists, none, (List.replicate n [1]).set j [2]⟩ (sampleDb [([1], .integer 5)])).1 = .value (.boolean false) := by
      simp only [perform, execute, Option.isSome_none, Bool.false_eq_true, if_false, if_neg hnil]
      rw [List.all_eq_false.2 ⟨[2], List.mem_set (by rw [List.length_replicate]; exact all hj) _, by decide⟩]
    rw [C48_dispatch (c := ⟨.exists, none, _⟩) (hv none (by decide)) [] _ (sampleDb_roomy _ _ (by decide)) (by rw [e1]; exact bool_fits m true),
      C48_dispatch (c := ⟨.exists, none, _⟩) (hv none (by decide)) [] _ (sampleDb_roomy _ _ (by decide)) (by rw [e2]; exact bool_fits m false),
      e1, e2] at h
    exact bools_differ m h
  | is =>
    refine ⟨some .integer, _, [2], sampleDb [([2], .integer 6), ([1], .integer 5)], sampleDb [([1], .integer 5)], hv _ (by decide),
      List.getElem?_set_self hj, rfl, only _ _ _, fun h => ?_⟩
    have e1 : (perform (sampleEnv m) ⟨.is, some .integer, (List.replicate n [1]).set j [2]⟩ (sampleDb [([2], .integer 6), ([1], .integer 5)])).1 =
        .value (.boolean true) := by
      simp only [perform, execute, if_neg hnil]
      rw [List.all_eq_true.2]
      intro a ha
      rcases hin a ha with rfl | rfl <;> rfl
    have e2 : (perform (sampleEnv m) ⟨.is, some .integer, (List.replicate n [1]).set j [2]⟩ (sampleDb [([1], .integer 5)])).1 =
        .value (.boolean false) := by
      simp only [perform, execute, if_neg hnil]
      rw [List.all_eq_false.2 ⟨[2], List.mem_set (by rw [List.length_replicate]; exact all hj) _, by decide⟩]
    rw [C48_dispatch (c := ⟨.is, some .integer, _⟩) (hv _ (by decide)) [] _ (sampleDb_roomy _ _ (by decide)) (by rw [e1]; exact bool_fits m true),
      C48_dispatch (c := ⟨.is, some .integer, _⟩) (hv _ (by decide)) [] _ (sampleDb_roomy _ _ (by decide)) (by rw [e2]; exact bool_fits m false),
      e1, e2] at h
    exact bools_differ m h

/-- Beside C187: a Rename of key 1 to 2 in two stores that differ in key 3. -/
example (resp : Bytes) :
    ((dispatch (sampleEnv .debug) (call .rename none [[1], [2], [3]]) resp).run (sampleDb [([1], .integer 5), ([3], .bytes [7])])).1 =
    ((dispatch (sampleEnv .debug) (call .rename none [[1], [2], [3]]) resp).run (sampleDb [([1], .integer 5)])).1 :=
  (C187_keys (call_views _ _ _ (by decide) (by decide) (by decide)) resp _ _ (by
    intro k hk
    simp only [declaredKeys, CommandId.keyNotation, List.take_succ_cons, List.take_zero, List.mem_cons, List.not_mem_nil, or_false] at hk
    rcases hk with rfl | rfl <;> rfl) rfl).1

example : ∃ (kt : Option KeyType) (args : List Bytes) (k : Bytes) (db db' : Db), (declaredKeys CommandId.rename.keyNotation args)[1]? = some k ∧
    (∀ k', k' ≠ k → db.keys k' = db'.keys k') ∧
    ((dispatch (sampleEnv .debug) (call .rename kt args) []).run db).1 ≠ ((dispatch (sampleEnv .debug) (call .rename kt args) []).run db').1 := by
  obtain ⟨kt, args, k, db, db', -, h1, -, h2, h3⟩ := C187_each .debug .rename 2 1 (by decide) (by decide) (by decide)
  exact ⟨kt, args, k, db, db', h1, h2, h3⟩

/-- Beside C188: a Get with further arguments. -/
example (env : Env) (resp : Bytes) : dispatch env (call .get none [[1]]) resp = dispatch env (call .get none [[1], [2], [3]]) resp :=
  C188_partial (by decide) (call_views _ _ _ (by decide) (by decide) (by decide)) (call_views _ _ _ (by decide) (by decide) (by decide)) rfl resp

/-- Beside C189: a Delete has no use for its second argument, though it declares one. -/
example (env : Env) (resp : Bytes) : dispatch env (call .delete none [[1]]) resp = dispatch env (call .delete none [[1], [2]]) resp ∧
    declaredPart CommandId.delete.keyNotation CommandId.delete.argumentNotation [[1], [2]] = [[1], [2]] :=
  ⟨C189_used (call_views _ _ _ (by decide) (by decide) (by decide)) (call_views _ _ _ (by decide) (by decide) (by decide)) rfl resp, rfl⟩

example : ∃ kt args b db, Views (call .echo kt (args.set 200 b)) .echo kt (args.set 200 b) ∧
    (((dispatch (sampleEnv .debug) (call .echo kt args) []).run db).1 ≠ ((dispatch (sampleEnv .debug) (call .echo kt (args.set 200 b)) []).run db).1 ∨
      ((dispatch (sampleEnv .debug) (call .echo kt args) []).run db).2.keys ≠
        ((dispatch (sampleEnv .debug) (call .echo kt (args.set 200 b)) []).run db).2.keys) := by
  obtain ⟨kt, args, b, db, -, h1, h2⟩ := C189_needed .debug .echo 255 200 (by decide) (by decide) (by decide +kernel)
  exact ⟨kt, args, b, db, h1, h2⟩

end Hop
