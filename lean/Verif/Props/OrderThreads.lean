import Verif.Props.Order

/-!
# The order in sets and maps, in any interleaving (C197)
-/

namespace Hop

open Prog Spec

/-- Two outcomes of a command that differ in an order at most: both have written a value behind what was there, each in its own order, or both
are the same error or panic. -/
def Spec.AlikeOutcome (env env' : Env) (c : CommandId) (resp : Bytes) : Outcome DispatchError Bytes → Outcome DispatchError Bytes → Prop
  | .ok b, .ok b' => b.length = b'.length ∧ ∃ v w, Resembles c (.value v) (.value w) ∧ Response.writeValue env resp v = some b ∧
      Response.writeValue env' resp w = some b'
  | o, o' => o = o'

/-! ## Lengths do not depend on the order -/

private theorem addU_comm (m : Mode) (x a b : Nat) :
    ((addU m 32 x a).bind fun y => addU m 32 y b) = (addU m 32 x b).bind fun y => addU m 32 y a := by
  cases m
  · simp only [addU]
    by_cases h1 : x + a < 2 ^ 32 <;> by_cases h2 : x + b < 2 ^ 32 <;>
      simp only [h1, h2, if_true, if_false, Option.bind_some, Option.bind_none]
    · by_cases h3 : x + a + b < 2 ^ 32
      · rw [if_pos h3, if_pos (by omega)]; congr 1; omega
      · rw [if_neg h3, if_neg (by omega)]
    · rw [if_neg (by omega)]
    · rw [if_neg (by omega)]
  · simp only [addU_release, Option.bind_some]
    congr 1
    omega

private theorem fold_perm {α : Type} (m : Mode) (f : α → Option Nat) {l l' : List α} (h : l.Perm l') :
    ∀ acc, (l.foldlM (fun x a => (f a).bind fun y => addU m 32 x y) acc : Option Nat) =
      l'.foldlM (fun x a => (f a).bind fun y => addU m 32 x y) acc := by
  induction h with
  | nil => intro _; rfl
  | cons a _ ih =>
    intro acc
    simp only [List.foldlM_cons]
    exact bind_congr fun x => ih x
  | swap a b l =>
    intro acc
    simp only [List.foldlM_cons]
    cases ha : f a with
    | none => cases f b <;> simp
    | some x =>
      cases hb : f b with
      | none => simp
      | some y =>
        simp only [Option.bind_some, Option.bind_eq_bind]
        rw [← Option.bind_assoc, ← Option.bind_assoc, addU_comm]
  | trans _ _ ih1 ih2 => intro acc; rw [ih1, ih2]

private theorem mapLen_fold (m : Mode) (mp : BMap) : ∀ acc, Response.mapLen m acc mp =
    mp.foldlM (fun x a => ((addU m 32 1 (a.1.length % 2 ^ 32)).bind fun y => (addU m 32 y 4).bind fun y =>
      addU m 32 y (a.2.length % 2 ^ 32)).bind fun y => addU m 32 x y) acc := by
  induction mp with
  | nil => intro _; rfl
  | cons e mp ih =>
    intro acc
    simp only [Response.mapLen, List.foldlM_cons, Option.bind_eq_bind, Option.bind_assoc, ih]

private theorem setLen_fold (m : Mode) (s : BSet) : ∀ acc, Response.setLen m acc s =
    s.foldlM (fun x a => (addU m 32 2 (a.length % 2 ^ 32)).bind fun y => addU m 32 x y) acc := by
  induction s with
  | nil => intro _; rfl
  | cons e s ih =>
    intro acc
    simp only [Response.setLen, List.foldlM_cons, Option.bind_eq_bind, Option.bind_assoc, ih]

/-- The lengths `write_list` counts, without the bytes. -/
private def listLens (m : Mode) : Nat → Nat → List Bytes → Option (Nat × Nat)
  | n, c, [] => some (n, c)
  | n, c, i :: is =>
    (addU m 16 c 1).bind fun c => (addU m 32 4 (i.length % 2 ^ 32)).bind fun k => (addU m 32 n k).bind fun n => listLens m n c is

private theorem listLoop_lens (m : Mode) (l : List Bytes) : ∀ to n c, Response.writeListLoop m to n c l =
    (listLens m n c l).map fun x => (to ++ l.flatMap fun i => beBytes 4 (i.length % 2 ^ 32) ++ i, x.1, x.2) := by
  induction l with
  | nil => intro to n c; simp [Response.writeListLoop, listLens]
  | cons i l ih =>
    intro to n c
    simp only [Response.writeListLoop, listLens, Option.bind_eq_bind, ih, List.flatMap_cons, List.append_assoc]
    cases addU m 16 c 1 with
    | none => rfl
    | some c =>
      cases addU m 32 4 (i.length % 2 ^ 32) with
      | none => rfl
      | some k => cases h : addU m 32 n k <;> simp only [Option.bind_some, h] <;> rfl

private theorem listLens_perm (m : Mode) {l l' : List Bytes} (h : l.Perm l') : ∀ n c, listLens m n c l = listLens m n c l' := by
  induction h with
  | nil => intro _ _; rfl
  | cons a _ ih => intro n c; simp only [listLens, ih]
  | swap a b l =>
    intro n c
    simp only [listLens]
    cases addU m 16 c 1 with
    | none => simp
    | some c1 =>
      cases ha : addU m 32 4 (a.length % 2 ^ 32) with
      | none =>
        simp only [Option.bind_some, Option.bind_none]
        cases addU m 32 4 (b.length % 2 ^ 32) with
        | none => rfl
        | some y => simp
      | some x =>
        cases hb : addU m 32 4 (b.length % 2 ^ 32) with
        | none => simp
        | some y =>
          simp only [Option.bind_some]
          cases addU m 16 c1 1 with
          | none => simp
          | some c2 =>
            simp only [Option.bind_some]
            rw [← Option.bind_assoc, ← Option.bind_assoc, addU_comm]
  | trans _ _ ih1 ih2 => intro n c; rw [ih1, ih2]

private theorem writeMap_perm {env env' : Env} (hm : env'.mode = env.mode) (resp : Bytes) {a b : BMap} (h : a.Perm b) :
    (Response.writeMap env resp a).map List.length = (Response.writeMap env' resp b).map List.length := by
  have hp := ((env.mapOrd_perm a).trans h).trans (env'.mapOrd_perm b).symm
  simp only [Response.writeMap, Response.writeMapIter, hm, mapLen_fold, Option.bind_eq_bind]
  rw [fold_perm _ _ hp]
  simp only [Option.map_bind]
  congr 1
  funext n
  simp [hp.length_eq, (hp.flatMap_right Response.mapEntry).length_eq]

private theorem writeSet_perm {env env' : Env} (hm : env'.mode = env.mode) (resp : Bytes) {a b : BSet} (h : a.Perm b) :
    (Response.writeSet env resp a).map List.length = (Response.writeSet env' resp b).map List.length := by
  have hp := ((env.setOrd_perm a).trans h).trans (env'.setOrd_perm b).symm
  simp only [Response.writeSet, Response.writeSetIter, hm, setLen_fold, Option.bind_eq_bind]
  rw [fold_perm _ _ hp]
  simp only [Option.map_bind]
  congr 1
  funext n
  simp [hp.length_eq, (hp.flatMap_right Response.setEntry).length_eq]

private theorem writeList_perm (m : Mode) (resp : Bytes) {a b : List Bytes} (h : a.Perm b) :
    (Response.writeList m resp a).map List.length = (Response.writeList m resp b).map List.length := by
  simp only [Response.writeList, listLoop_lens, listLens_perm m h, Option.bind_eq_bind, Option.bind_map, Option.map_bind]
  congr 1
  funext n
  have e : ∀ {x y : Bytes} (i : Nat) (bs : Bytes), x.length = y.length → (patch x i bs).length = (patch y i bs).length := by
    intro x y i bs h
    simp [patch, h]
  refine congrArg some (e _ _ (e _ _ ?_))
  simp only [List.length_append, (h.flatMap_right (fun i : Bytes => beBytes 4 (i.length % 2 ^ 32) ++ i)).length_eq]

/-! ## Commands -/

private theorem alike_of {env env' : Env} {c : CommandId} {resp : Bytes} {v w : Value} (h : Resembles c (.value v) (.value w))
    (hl : (Response.writeValue env resp v).map List.length = (Response.writeValue env' resp w).map List.length) :
    AlikeOutcome env env' c resp (.ofOption (Response.writeValue env resp v)) (.ofOption (Response.writeValue env' resp w)) := by
  cases h1 : Response.writeValue env resp v with
  | none =>
    rw [h1] at hl
    cases h2 : Response.writeValue env' resp w with
    | none => rfl
    | some b => rw [h2] at hl; cases hl
  | some a =>
    rw [h1] at hl
    cases h2 : Response.writeValue env' resp w with
    | none => rw [h2] at hl; cases hl
    | some b =>
      rw [h2] at hl
      exact ⟨Option.some.inj hl, v, w, h, h1, h2⟩

private theorem same_cases {v w : Value} (h : Same v w) :
    v = w ∨ (∃ m m' : BMap, m.Perm m' ∧ v = .map m ∧ w = .map m') ∨ ∃ m m' : BSet, m.Perm m' ∧ v = .set m ∧ w = .set m' := by
  rcases entry_cases (o := some v) (o' := some w) h with e | ⟨m, m', hp, e, e'⟩ | ⟨m, m', hp, e, e'⟩
  · exact .inl (Option.some.inj e)
  · exact .inr (.inl ⟨m, m', hp, Option.some.inj e, Option.some.inj e'⟩)
  · exact .inr (.inr ⟨m, m', hp, Option.some.inj e, Option.some.inj e'⟩)

/-- Any value is written alike. -/
private theorem alike_value {env env' : Env} (hm : env'.mode = env.mode) (c : CommandId) (resp : Bytes) {v w : Value} (h : Same v w) :
    AlikeOutcome env env' c resp (.ofOption (Response.writeValue env resp v)) (.ofOption (Response.writeValue env' resp w)) := by
  refine alike_of (.inl h) ?_
  rcases same_cases h with rfl | ⟨a, b, hp, rfl, rfl⟩ | ⟨a, b, hp, rfl, rfl⟩
  · cases v with
    | map a => exact writeMap_perm hm resp (.refl a)
    | set a => exact writeSet_perm hm resp (.refl a)
    | _ => simp only [Response.writeValue, hm]
  · exact writeMap_perm hm resp hp
  · exact writeSet_perm hm resp hp

/-- The programs of two threads that do the same, as far as entries and outcomes can be the same. -/
private inductive Twin (R : Outcome DispatchError Bytes → Outcome DispatchError Bytes → Prop) : Prog Bytes → Prog Bytes → Prop
  | done {o o'} : R o o' → Twin R (.done o) (.done o')
  | onKey {k u u' f f'} : (∀ o o', SameEntry o o' → SameEntry (u o) (u' o')) → (∀ o o', SameEntry o o' → Twin R (f o) (f' o')) →
      Twin R (.onKey k u f) (.onKey k u' f')
  | onCtr {m u f f'} : (∀ o, Twin R (f o) (f' o)) → Twin R (.onCtr m u f) (.onCtr m u f')

private theorem twin_mono {R R' : Outcome DispatchError Bytes → Outcome DispatchError Bytes → Prop} (hR : ∀ o o', R o o' → R' o o')
    {t u : Prog Bytes} (h : Twin R t u) : Twin R' t u := by
  induction h with
  | done h => exact .done (hR _ _ h)
  | onKey h _ ih => exact .onKey h ih
  | onCtr _ ih => exact .onCtr ih

section
variable {env env' : Env} {c : CommandId} {resp : Bytes}

private abbrev Pair (env env' : Env) (c : CommandId) (resp : Bytes) : Prog Bytes → Prog Bytes → Prop := Twin (AlikeOutcome env env' c resp)

private theorem pair_fail (e : DispatchError) : Pair env env' c resp (.fail e) (.fail e) := .done rfl

private theorem pair_panic : Pair env env' c resp (.done .panic) (.done .panic) := .done rfl

private theorem pair_value (hm : env'.mode = env.mode) (v : Value) :
    Pair env env' c resp (.done (.ofOption (Response.writeValue env resp v))) (.done (.ofOption (Response.writeValue env' resp v))) :=
  .done (alike_value hm c resp (same_self v))

private theorem pair_orErr {β : Type} {o : Option β} {e : DispatchError} {f f' : β → Prog Bytes} (h : ∀ a, Pair env env' c resp (f a) (f' a)) :
    Pair env env' c resp (orErr o e f) (orErr o e f') := by
  cases o with
  | none => exact pair_fail e
  | some a => exact h a

private theorem pair_read {k : Bytes} {f f' : Option Value → Prog Bytes} (h : ∀ o o', SameEntry o o' → Pair env env' c resp (f o) (f' o')) :
    Pair env env' c resp (readKey k f) (readKey k f') := .onKey (fun _ _ h => h) h

private theorem pair_contains {k : Bytes} {f f' : Bool → Prog Bytes} (h : ∀ b, Pair env env' c resp (f b) (f' b)) :
    Pair env env' c resp (containsKey k f) (containsKey k f') :=
  pair_read fun o o' ho => by rw [entry_isSome ho]; exact h _

private theorem pair_type {k : Bytes} {f f' : Option KeyType → Prog Bytes} (h : ∀ t, Pair env env' c resp (f t) (f' t)) :
    Pair env env' c resp (keyTypeOf k f) (keyTypeOf k f') :=
  pair_read fun o o' ho => by rw [entry_kind ho]; exact h _

private theorem pair_resolve {r : Request} {k : Bytes} {d : KeyType} {f f' : KeyType → Prog Bytes} (h : ∀ t, Pair env env' c resp (f t) (f' t)) :
    Pair env env' c resp (resolveKeyType r k d f) (resolveKeyType r k d f') := by
  simp only [resolveKeyType]
  cases r.keyType with
  | some t => exact h t
  | none => exact pair_type fun t => h _

private theorem pair_remove {k : Bytes} {f f' : Option Value → Prog Bytes} (h : ∀ o o', SameEntry o o' → Pair env env' c resp (f o) (f' o')) :
    Pair env env' c resp (removeKey k f) (removeKey k f') := .onKey (fun _ _ _ => trivial) h

private theorem pair_insert {k : Bytes} {v w : Value} (hv : Same v w) {f f' : Prog Bytes} (h : Pair env env' c resp f f') :
    Pair env env' c resp (insertKey k v f) (insertKey k w f') := .onKey (fun _ _ _ => hv) fun _ _ _ => h

private theorem pair_ref (hm : env'.mode = env.mode) {k : Bytes} {f f' : Option Value → Prog Bytes}
    (h : ∀ o o', SameEntry o o' → Pair env env' c resp (f o) (f' o')) : Pair env env' c resp (keyRef env k f) (keyRef env' k f') := by
  simp only [keyRef, hm]
  split
  · exact pair_panic
  · split
    · exact pair_panic
    · exact pair_read h

private theorem pair_loop {k : Bytes} {mk : Value} {b b' : Value → Value × Outcome DispatchError Bytes}
    (h : ∀ v w, Same v w → Same (b v).1 (b' w).1 ∧ AlikeOutcome env env' c resp (b v).2 (b' w).2) :
    ∀ n, Pair env env' c resp (keyOrInsertLoop k mk b n) (keyOrInsertLoop k mk b' n)
  | 0 => .done rfl
  | n + 1 => by
    refine .onKey ?_ ?_
    · intro o o' ho
      cases o <;> cases o' <;> first | trivial | cases ho | exact (h _ _ ho).1
    · intro o o' ho
      cases o <;> cases o'
      · exact pair_insert (same_self _) (pair_loop h n)
      · cases ho
      · cases ho
      · exact .done (h _ _ ho).2

private theorem pair_insertWith (hm : env'.mode = env.mode) (hs : env'.spins = env.spins) {k : Bytes} {mk : Value}
    {b b' : Value → Value × Outcome DispatchError Bytes}
    (h : ∀ v w, Same v w → Same (b v).1 (b' w).1 ∧ AlikeOutcome env env' c resp (b v).2 (b' w).2) :
    Pair env env' c resp (keyOrInsertWith env k mk b) (keyOrInsertWith env' k mk b') := by
  simp only [keyOrInsertWith, hm, hs]
  split
  · exact pair_panic
  · split
    · exact pair_panic
    · exact pair_loop h _

/-- What is done through the guard of an entry that is neither a map nor a set. -/
private theorem plain_body {b b' : Value → Value × Outcome DispatchError Bytes}
    (h : ∀ v, Same (b v).1 (b' v).1 ∧ AlikeOutcome env env' c resp (b v).2 (b' v).2)
    (hmap : ∀ m, b (.map m) = (.map m, .err .keyTypeDifferent) ∧ b' (.map m) = (.map m, .err .keyTypeDifferent))
    (hset : ∀ m, b (.set m) = (.set m, .err .keyTypeDifferent) ∧ b' (.set m) = (.set m, .err .keyTypeDifferent)) :
    ∀ v w, Same v w → Same (b v).1 (b' w).1 ∧ AlikeOutcome env env' c resp (b v).2 (b' w).2 := by
  intro v w hvw
  rcases same_cases hvw with rfl | ⟨x, y, hp, rfl, rfl⟩ | ⟨x, y, hp, rfl, rfl⟩
  · exact h v
  · rw [(hmap x).1, (hmap y).2]; exact ⟨hp, rfl⟩
  · rw [(hset x).1, (hset y).2]; exact ⟨hp, rfl⟩

private theorem alike_self (hm : env'.mode = env.mode) (v : Value) :
    AlikeOutcome env env' c resp (.ofOption (Response.writeValue env resp v)) (.ofOption (Response.writeValue env' resp v)) :=
  alike_value hm c resp (same_self v)

private theorem pair_append (hm : env'.mode = env.mode) (hs : env'.spins = env.spins) (r : Request) :
    Pair env env' c resp (dispatchAppend env r resp) (dispatchAppend env' r resp) := by
  refine pair_orErr fun k => pair_orErr fun args => pair_resolve fun t => ?_
  cases t <;> first
    | exact pair_fail _
    | (refine pair_insertWith hm hs (plain_body ?_ (fun _ => ⟨rfl, rfl⟩) (fun _ => ⟨rfl, rfl⟩))
       intro v
       cases v <;> first
         | exact ⟨same_self _, rfl⟩
         | exact ⟨same_self _, alike_self hm (.bytes _)⟩
         | exact ⟨same_self _, alike_self hm (.list _)⟩
         | exact ⟨same_self _, alike_self hm (.string _)⟩)

private theorem pair_float (hm : env'.mode = env.mode) (hs : env'.spins = env.spins) (hf : env'.fadd = env.fadd) (k : Bytes) (x : F64) :
    Pair env env' c resp (incrementFloatBy env k x resp) (incrementFloatBy env' k x resp) := by
  refine pair_insertWith hm hs (plain_body ?_ (fun _ => ⟨rfl, rfl⟩) (fun _ => ⟨rfl, rfl⟩))
  intro v
  cases v <;> first
    | exact ⟨same_self _, rfl⟩
    | (simp only [hf]; exact ⟨same_self _, alike_self hm (.float _)⟩)

private theorem pair_int (hm : env'.mode = env.mode) (hs : env'.spins = env.spins) (k : Bytes) (x : Int64) :
    Pair env env' c resp (incrementIntBy env k x resp) (incrementIntBy env' k x resp) := by
  refine pair_insertWith hm hs (plain_body ?_ (fun _ => ⟨rfl, rfl⟩) (fun _ => ⟨rfl, rfl⟩))
  intro v
  cases v with
  | integer i =>
    simp only [hm]
    cases addI64 env.mode i x with
    | none => exact ⟨same_self _, rfl⟩
    | some j => exact ⟨same_self _, alike_self hm (.integer j)⟩
  | _ => exact ⟨same_self _, rfl⟩

private theorem pair_get (hm : env'.mode = env.mode) (r : Request) :
    Pair env env' c resp (dispatchGet env r resp) (dispatchGet env' r resp) := by
  refine pair_orErr fun k => pair_ref hm fun o o' ho => ?_
  cases o <;> cases o' <;> first | exact pair_fail _ | cases ho | skip
  rename_i v w
  have hk : w.kind = v.kind := by
    rcases same_cases ho with rfl | ⟨_, _, _, rfl, rfl⟩ | ⟨_, _, _, rfl, rfl⟩ <;> rfl
  cases ht : r.keyType with
  | none => exact .done (alike_value hm c resp ho)
  | some t =>
    simp only [hk]
    split
    · exact pair_fail _
    · exact .done (alike_value hm c resp ho)

private theorem pair_allExist {f f' : Bool → Prog Bytes} (h : ∀ b, Pair env env' c resp (f b) (f' b)) :
    ∀ ks, Pair env env' c resp (allExist f ks) (allExist f' ks)
  | [] => h true
  | k :: ks => pair_contains fun b => by
    cases b
    · exact h false
    · exact pair_allExist h ks

private theorem pair_allAre (t : KeyType) {f f' : Bool → Prog Bytes} (h : ∀ b, Pair env env' c resp (f b) (f' b)) :
    ∀ ks, Pair env env' c resp (allAre t f ks) (allAre t f' ks)
  | [] => h true
  | k :: ks => pair_type fun o => by
    split
    · exact pair_allAre t h ks
    · exact h false

private theorem pair_keys (hm : env'.mode = env.mode) (r : Request) :
    Pair env env' .keys resp (dispatchKeys env r resp) (dispatchKeys env' r resp) := by
  refine pair_orErr fun k => pair_resolve fun t => ?_
  cases t <;> first | exact pair_fail _ | skip
  refine pair_ref hm fun o o' ho => ?_
  have list : ∀ a b : BMap, a.Perm b → Pair env env' .keys resp
      (.done (.ofOption (Response.writeList env.mode resp ((env.mapOrd a).map Prod.fst))))
      (.done (.ofOption (Response.writeList env'.mode resp ((env'.mapOrd b).map Prod.fst)))) := by
    intro a b hp
    have hl := (((env.mapOrd_perm a).trans hp).trans (env'.mapOrd_perm b).symm).map Prod.fst
    exact .done (alike_of (v := .list _) (w := .list _) (.inr ⟨rfl, _, _, rfl, rfl, hl⟩)
      (by simp only [Response.writeValue, hm]; exact writeList_perm _ _ hl))
  rcases entry_cases ho with rfl | ⟨a, b, hp, rfl, rfl⟩ | ⟨a, b, hp, rfl, rfl⟩
  · cases o with
    | none => exact pair_fail _
    | some v => cases v <;> first | exact list _ _ (.refl _) | exact pair_fail _
  · exact list _ _ hp
  · exact pair_fail _

private theorem pair_length (hm : env'.mode = env.mode) (r : Request) :
    Pair env env' c resp (dispatchLength env r resp) (dispatchLength env' r resp) := by
  have as : ∀ t k, Pair env env' c resp (lengthAs env t k resp) (lengthAs env' t k resp) := by
    intro t k
    refine pair_ref hm fun o o' ho => ?_
    have e : ∀ v w, Same v w → lengthOf t w = lengthOf t v := by
      intro v w h
      rcases same_cases h with rfl | ⟨_, _, hp, rfl, rfl⟩ | ⟨_, _, hp, rfl, rfl⟩
      · rfl
      · cases t <;> simp only [lengthOf, hp.length_eq]
      · cases t <;> simp only [lengthOf, hp.length_eq]
    cases o <;> cases o' <;> first | exact pair_fail _ | cases ho | skip
    simp only [e _ _ ho]
    split
    · exact pair_fail _
    · exact pair_value hm (.integer _)
  refine pair_orErr fun k => pair_resolve fun t => ?_
  cases t <;> first | exact pair_fail _ | exact as _ _

private theorem pair_rename (hm : env'.mode = env.mode) (r : Request) :
    Pair env env' c resp (dispatchRename env r resp) (dispatchRename env' r resp) := by
  simp only [dispatchRename]
  split
  · exact pair_fail _
  · refine pair_orErr fun a => pair_orErr fun b => pair_contains fun x => ?_
    split
    · exact pair_fail _
    · refine pair_contains fun y => ?_
      split
      · exact pair_fail _
      · refine pair_remove fun o o' ho => ?_
        cases o <;> cases o' <;> first
          | exact pair_fail _
          | cases ho
          | exact pair_insert ho (pair_value hm (.bytes b))

private theorem pair_set (hm : env'.mode = env.mode) (hs : env'.spins = env.spins) (r : Request) :
    Pair env env' c resp (dispatchSet env r resp) (dispatchSet env' r resp) := by
  refine pair_orErr fun k => ?_
  split
  · exact pair_fail _
  · refine pair_resolve fun t => ?_
    cases t with
    | map =>
      refine pair_orErr fun m => pair_remove fun _ _ _ => pair_insertWith hm hs ?_
      have hw := alike_value hm c resp (same_self (.map m))
      have hl := writeMap_perm hm resp (.refl m)
      intro v w h
      rcases same_cases h with rfl | ⟨x, y, hp, rfl, rfl⟩ | ⟨x, y, hp, rfl, rfl⟩
      · cases v with
        | map x =>
          simp only [Response.writeValue] at hw
          cases h1 : Response.writeMap env resp m <;> cases h2 : Response.writeMap env' resp m <;> simp only [h1, h2] at hw hl ⊢ <;>
            first | cases hl; done | exact ⟨same_self _, hw⟩
        | _ => exact ⟨same_self _, rfl⟩
      · simp only [Response.writeValue] at hw
        cases h1 : Response.writeMap env resp m <;> cases h2 : Response.writeMap env' resp m <;> simp only [h1, h2] at hw hl ⊢ <;>
          first | cases hl; done | exact ⟨hp, hw⟩ | exact ⟨same_self _, hw⟩
      · exact ⟨hp, rfl⟩
    | set =>
      refine pair_orErr fun m => pair_remove fun _ _ _ => pair_insertWith hm hs ?_
      have hw := alike_value hm c resp (same_self (.set m))
      have hl := writeSet_perm hm resp (.refl m)
      intro v w h
      rcases same_cases h with rfl | ⟨x, y, hp, rfl, rfl⟩ | ⟨x, y, hp, rfl, rfl⟩
      · cases v with
        | set x =>
          simp only [Response.writeValue] at hw
          cases h1 : Response.writeSet env resp m <;> cases h2 : Response.writeSet env' resp m <;> simp only [h1, h2] at hw hl ⊢ <;>
            first | cases hl; done | exact ⟨same_self _, hw⟩
        | _ => exact ⟨same_self _, rfl⟩
      · exact ⟨hp, rfl⟩
      · simp only [Response.writeValue] at hw
        cases h1 : Response.writeSet env resp m <;> cases h2 : Response.writeSet env' resp m <;> simp only [h1, h2] at hw hl ⊢ <;>
          first | cases hl; done | exact ⟨hp, hw⟩ | exact ⟨same_self _, hw⟩
    | _ =>
      refine pair_orErr fun x => pair_remove fun _ _ _ => pair_insertWith hm hs (plain_body ?_ (fun _ => ⟨rfl, rfl⟩) (fun _ => ⟨rfl, rfl⟩))
      intro v
      cases v <;> first
        | exact ⟨same_self _, rfl⟩
        | exact ⟨same_self _, alike_self hm (.bytes _)⟩
        | exact ⟨same_self _, alike_self hm (.boolean _)⟩
        | exact ⟨same_self _, alike_self hm (.float _)⟩
        | exact ⟨same_self _, alike_self hm (.integer _)⟩
        | exact ⟨same_self _, alike_self hm (.list _)⟩
        | exact ⟨same_self _, alike_self hm (.string _)⟩

private theorem pair_stats (hm : env'.mode = env.mode) : ∀ (cs : List Metric) (m : BMap),
    Pair env env' c resp (statsLoop (fun m => done (.ofOption (Response.writeMap env resp m))) cs m)
      (statsLoop (fun m => done (.ofOption (Response.writeMap env' resp m))) cs m)
  | [], m => pair_value hm (.map m)
  | x :: cs, m => .onCtr fun o => by
    cases o with
    | none => exact pair_stats hm cs m
    | some n =>
      dsimp only
      split
      · exact pair_stats hm cs _
      · exact pair_stats hm cs m

private theorem pair_command (hm : env'.mode = env.mode) (hs : env'.spins = env.spins) (hf : env'.fadd = env.fadd) (hg : env'.fsub = env.fsub)
    (r : Request) : Pair env env' r.commandId resp (command env r resp) (command env' r resp) := by
  unfold command
  cases hc : r.commandId with
  | append => exact pair_append hm hs r
  | decrementBy =>
    refine pair_orErr fun k => ?_
    simp only [hm, hg]
    split
    · split
      · exact pair_int hm hs _ _
      · exact pair_panic
    · split
      · exact pair_float hm hs hf _ _
      · exact pair_fail _
  | decrement =>
    refine pair_orErr fun k => ?_
    split
    · exact pair_float hm hs hf _ _
    · exact pair_int hm hs _ _
  | delete =>
    simp only [dispatchDelete]
    split
    · exact pair_fail _
    · refine pair_orErr fun k => pair_remove fun o o' ho => ?_
      cases o <;> cases o' <;> first | exact pair_fail _ | cases ho | exact pair_value hm (.bytes k)
  | echo =>
    simp only [dispatchEcho]
    cases r.argsFrom 0 with
    | none => exact pair_value hm (.list [])
    | some l => exact pair_value hm (.list l)
  | «exists» =>
    simp only [dispatchExists]
    split
    · exact pair_fail _
    · exact pair_orErr fun ks => pair_allExist (fun b => pair_value hm (.boolean b)) ks
  | get => exact pair_get hm r
  | increment =>
    refine pair_orErr fun k => ?_
    split
    · exact pair_float hm hs hf _ _
    · exact pair_int hm hs _ _
  | incrementBy =>
    refine pair_orErr fun k => ?_
    split
    · exact pair_int hm hs _ _
    · split
      · exact pair_float hm hs hf _ _
      · exact pair_fail _
  | is => exact pair_orErr fun t => pair_orErr fun ks => pair_allAre t (fun b => pair_value hm (.boolean b)) ks
  | keys => exact pair_keys hm r
  | rename => exact pair_rename hm r
  | set => exact pair_set hm hs r
  | stats =>
    simp only [dispatchStats]
    split
    · exact pair_fail _
    · exact pair_stats hm _ _
  | type =>
    refine pair_orErr fun k => ?_
    split
    · exact pair_fail _
    · refine pair_type fun t => ?_
      cases t with
      | none => exact pair_fail _
      | some t => exact pair_value hm (.integer _)
  | length => exact pair_length hm r

private theorem pair_count (hm : env'.mode = env.mode) {o o' : Outcome DispatchError Bytes} (h : AlikeOutcome env env' c resp o o') :
    Pair env env' c resp (countOutcome env o) (countOutcome env' o') := by
  have inc : ∀ m, Pair env env' c resp (incrementMetric env m (.done o)) (incrementMetric env' m (.done o')) := by
    intro m
    simp only [incrementMetric, hm]
    refine .onCtr fun x => ?_
    split
    · exact .done h
    · exact pair_panic
  cases o <;> cases o' <;> first | exact inc _ | exact .done rfl | cases h

private theorem pair_dispatch (hm : env'.mode = env.mode) (hs : env'.spins = env.spins) (hf : env'.fadd = env.fadd) (hg : env'.fsub = env.fsub)
    (r : Request) : Pair env env' r.commandId resp (dispatch env r resp) (dispatch env' r resp) := by
  have : ∀ p p', Pair env env' r.commandId resp p p' →
      Pair env env' r.commandId resp (p.andThen (countOutcome env)) (p'.andThen (countOutcome env')) := by
    intro p p' h
    induction h with
    | done h => exact pair_count hm h
    | onKey h _ ih => exact .onKey h ih
    | onCtr _ ih => exact .onCtr ih
  exact this _ _ (pair_command hm hs hf hg r)

end

private theorem twin_step {R : Outcome DispatchError Bytes → Outcome DispatchError Bytes → Prop} {t u : Prog Bytes} (h : Twin R t u) {a b : Db}
    (hk : SameStore a.keys b.keys) (hc : b.ctrs = a.ctrs) :
    Twin R (t.step a).1 (u.step b).1 ∧ SameStore (t.step a).2.keys (u.step b).2.keys ∧ (u.step b).2.ctrs = (t.step a).2.ctrs := by
  cases h with
  | done h => exact ⟨.done h, hk, hc⟩
  | onKey h1 h2 => exact ⟨h2 _ _ (hk _), sameStore_put hk _ (h1 _ _ (hk _)), hc⟩
  | onCtr h => exact ⟨by simp only [Prog.step, hc]; exact h _, hk, by simp only [Prog.step, Db.setCtr, hc]⟩

private theorem twin_run {R : Outcome DispatchError Bytes → Outcome DispatchError Bytes → Prop} {t u : Prog Bytes} (h : Twin R t u) {a b : Db}
    (hk : SameStore a.keys b.keys) (hc : b.ctrs = a.ctrs) :
    R (t.run a).1 (u.run b).1 ∧ SameStore (t.run a).2.keys (u.run b).2.keys ∧ (u.run b).2.ctrs = (t.run a).2.ctrs := by
  induction h generalizing a b with
  | done h => exact ⟨h, hk, hc⟩
  | onKey h1 _ ih => exact ih _ _ (hk _) (sameStore_put hk _ (h1 _ _ (hk _))) hc
  | onCtr _ ih =>
    simp only [Prog.run, hc]
    exact ih _ hk (by simp only [Db.setCtr, hc])

/-- How two executions compare. -/
private structure OrderStep (R : Nat → Outcome DispatchError Bytes → Outcome DispatchError Bytes → Prop) (p q : Pool Bytes) : Prop where
  keys : SameStore p.db.keys q.db.keys
  ctrs : q.db.ctrs = p.db.ctrs
  length : p.threads.length = q.threads.length
  twins : ∀ (i : Nat) (t u : Prog Bytes), p.threads[i]? = some t → q.threads[i]? = some u → Twin (R i) t u

private theorem OrderStep.step {R : Nat → Outcome DispatchError Bytes → Outcome DispatchError Bytes → Prop} {p q : Pool Bytes} (h : OrderStep R p q)
    (i : Nat) : OrderStep R (p.stepAt i) (q.stepAt i) := by
  unfold Pool.stepAt
  cases hp : p.threads[i]? with
  | none =>
    have hq : q.threads[i]? = none := by
      rw [List.getElem?_eq_none_iff] at hp ⊢
      rw [← h.length]
      exact hp
    rw [hq]
    exact h
  | some t =>
    have hlt : i < p.threads.length := (List.getElem?_eq_some_iff.1 hp).1
    obtain ⟨u, hq⟩ : ∃ u, q.threads[i]? = some u := ⟨_, List.getElem?_eq_getElem (h.length ▸ hlt)⟩
    rw [hq]
    have hs := twin_step (h.twins i t u hp hq) h.keys h.ctrs
    refine ⟨hs.2.1, hs.2.2, by simp [h.length], ?_⟩
    intro j t' u' ht' hu'
    simp only [List.getElem?_set] at ht' hu'
    by_cases hij : i = j
    · subst hij
      rw [if_pos rfl, if_pos hlt] at ht'
      rw [if_pos rfl, if_pos (h.length ▸ hlt)] at hu'
      simp only [Option.some.injEq] at ht' hu'
      subst ht' hu'
      exact hs.1
    · rw [if_neg hij] at ht' hu'
      exact h.twins j t' u' ht' hu'

private theorem OrderStep.exec {R : Nat → Outcome DispatchError Bytes → Outcome DispatchError Bytes → Prop} {p q : Pool Bytes} (h : OrderStep R p q)
    (sched : List Nat) : OrderStep R (p.exec sched) (q.exec sched) := by
  induction sched generalizing p q with
  | nil => exact h
  | cons i s ih => exact ih (h.step i)

/-- **C197.** Two databases hold the same up to the order in sets and maps, and execute the same requests at once, by programs that list sets and
maps each in its own order. At every moment of every interleaving they hold the same up to order again and have counted the same; the same
requests have been answered, with answers of the same length that are the same up to order, or the same error or panic. There is no condition:
counters may overflow and answers may be too long. -/
theorem C197_interleaved {env env' : Env} (hm : env'.mode = env.mode) (hs : env'.spins = env.spins) (hf : env'.fadd = env.fadd)
    (hg : env'.fsub = env.fsub) (rs : List (Request × Bytes)) {db db' : Db} (hk : SameStore db.keys db'.keys) (hc : db'.ctrs = db.ctrs)
    (sched : List Nat) :
    SameStore ((Pool.start env rs db).exec sched).db.keys ((Pool.start env' rs db').exec sched).db.keys ∧
    ((Pool.start env' rs db').exec sched).db.ctrs = ((Pool.start env rs db).exec sched).db.ctrs ∧
    ∀ (i : Nat) (r : Request × Bytes), rs[i]? = some r →
      (∀ o, ((Pool.start env rs db).exec sched).threads[i]? = some (.done o) →
        ∃ o', ((Pool.start env' rs db').exec sched).threads[i]? = some (.done o') ∧ AlikeOutcome env env' r.1.commandId r.2 o o') ∧
      (∀ o', ((Pool.start env' rs db').exec sched).threads[i]? = some (.done o') →
        ∃ o, ((Pool.start env rs db).exec sched).threads[i]? = some (.done o) ∧ AlikeOutcome env env' r.1.commandId r.2 o o') := by
  have h : OrderStep (fun i o o' => ∀ r : Request × Bytes, rs[i]? = some r → AlikeOutcome env env' r.1.commandId r.2 o o')
      (Pool.start env rs db) (Pool.start env' rs db') := by
    refine ⟨hk, hc, by simp [Pool.start], ?_⟩
    intro i t u ht hu
    simp only [Pool.start, List.getElem?_map, Option.map_eq_some_iff] at ht hu
    obtain ⟨r, hr, rfl⟩ := ht
    obtain ⟨r', hr', rfl⟩ := hu
    rw [hr] at hr'
    cases hr'
    have := pair_dispatch (resp := r.2) hm hs hf hg r.1
    refine twin_mono (fun o o' h r' hr' => ?_) this
    rw [hr] at hr'
    cases hr'
    exact h
  have he := h.exec sched
  refine ⟨he.keys, he.ctrs, fun i r hr => ⟨fun o ho => ?_, fun o' ho' => ?_⟩⟩
  · have hlt := (List.getElem?_eq_some_iff.1 ho).1
    obtain ⟨u, hu⟩ : ∃ u, ((Pool.start env' rs db').exec sched).threads[i]? = some u :=
      ⟨_, List.getElem?_eq_getElem (he.length ▸ hlt)⟩
    have := he.twins i _ u ho hu
    cases this with
    | done h => exact ⟨_, hu, h r hr⟩
  · have hlt := (List.getElem?_eq_some_iff.1 ho').1
    obtain ⟨t, ht⟩ : ∃ t, ((Pool.start env rs db).exec sched).threads[i]? = some t :=
      ⟨_, List.getElem?_eq_getElem (he.length.symm ▸ hlt)⟩
    have := he.twins i t _ ht ho'
    cases this with
    | done h => exact ⟨_, ht, h r hr⟩

/-- **C197, one after the other.** The same for requests served one after the other, again without any condition. -/
theorem C197_history {env env' : Env} (hm : env'.mode = env.mode) (hs : env'.spins = env.spins) (hf : env'.fadd = env.fadd)
    (hg : env'.fsub = env.fsub) (h : List (Request × Bytes)) {db db' : Db} (hk : SameStore db.keys db'.keys) (hc : db'.ctrs = db.ctrs) :
    SameStore (serveAll env h db).2.keys (serveAll env' h db').2.keys ∧ (serveAll env' h db').2.ctrs = (serveAll env h db).2.ctrs ∧
    ∀ (i : Nat) (r : Request × Bytes), h[i]? = some r → ∃ o o', (serveAll env h db).1[i]? = some o ∧ (serveAll env' h db').1[i]? = some o' ∧
      AlikeOutcome env env' r.1.commandId r.2 o o' := by
  induction h generalizing db db' with
  | nil => exact ⟨hk, hc, fun i r hr => by simp at hr⟩
  | cons x h ih =>
    obtain ⟨h1, h2, h3⟩ := twin_run (pair_dispatch (resp := x.2) hm hs hf hg x.1) hk hc
    obtain ⟨h4, h5, h6⟩ := ih h2 h3
    refine ⟨h4, h5, fun i r hr => ?_⟩
    cases i with
    | zero =>
      simp only [List.getElem?_cons_zero, Option.some.injEq] at hr
      subst hr
      exact ⟨_, _, rfl, rfl, h1⟩
    | succ i => exact h6 i r hr

/-! ## Concrete cases -/

/-- A program that lists sets and maps as they are kept. -/
private def unturned : Env :=
  { sampleEnv .debug with mapOrd := id, mapOrd_perm := fun _ => .refl _, setOrd := id, setOrd_perm := fun _ => .refl _ }

private def pairOf (v : Value) : Db := sampleDb [([115], v)]

private theorem pairOf_same : SameStore (pairOf (.set [[1], [2]])).keys (pairOf (.set [[2], [1]])).keys := by
  intro k
  by_cases h : k = [115]
  · subst h
    exact (List.Perm.swap [2] [1] [] : ([[1], [2]] : List Bytes).Perm [[2], [1]])
  · have : ∀ v, (pairOf v).keys k = none := fun v => by simp only [pairOf, sampleDb, List.lookup, beq_false_of_ne h]
    rw [this, this]; trivial

/-- A Get of a set and a Rename of it, one between the steps of the other. -/
private def twoAtOnce : List (Request × Bytes) := [(call .rename none [[115], [116]], []), (call .get none [[115]], [])]

/-- The Get comes before the entry is removed: both have the set, one program lists it one way and the other the other way. -/
example : ((Pool.start (sampleEnv .debug) twoAtOnce (pairOf (.set [[1], [2]]))).exec [0, 0, 1, 0, 1, 0, 0]).threads =
      [.done (.ok [0, 0, 0, 6, 1, 0, 0, 0, 1, 116]), .done (.ok [0, 0, 0, 9, 6, 0, 2, 0, 1, 2, 0, 1, 1])] ∧
    ((Pool.start unturned twoAtOnce (pairOf (.set [[1], [2]]))).exec [0, 0, 1, 0, 1, 0, 0]).threads =
      [.done (.ok [0, 0, 0, 6, 1, 0, 0, 0, 1, 116]), .done (.ok [0, 0, 0, 9, 6, 0, 2, 0, 1, 1, 0, 1, 2])] := ⟨rfl, rfl⟩

/-- Every interleaving of the two ends alike, also if the set was kept the other way round. -/
example (sched : List Nat) (i : Nat) (r : Request × Bytes) (hr : twoAtOnce[i]? = some r) (o : Outcome DispatchError Bytes)
    (ho : ((Pool.start (sampleEnv .debug) twoAtOnce (pairOf (.set [[1], [2]]))).exec sched).threads[i]? = some (.done o)) :
    ∃ o', ((Pool.start unturned twoAtOnce (pairOf (.set [[2], [1]]))).exec sched).threads[i]? = some (.done o') ∧
      AlikeOutcome (sampleEnv .debug) unturned r.1.commandId r.2 o o' :=
  ((C197_interleaved (env := sampleEnv .debug) (env' := unturned) rfl rfl rfl rfl twoAtOnce pairOf_same rfl sched).2.2 i r hr).1 o ho

/-- Responses that list the same set differently are alike; an error is alike to no response. -/
example : AlikeOutcome (sampleEnv .debug) unturned .get [] (.ok [0, 0, 0, 9, 6, 0, 2, 0, 1, 2, 0, 1, 1]) (.ok [0, 0, 0, 9, 6, 0, 2, 0, 1, 1, 0, 1, 2]) ∧
    ¬ AlikeOutcome (sampleEnv .debug) unturned .get [] (.ok [0, 0, 0, 9, 6, 0, 2, 0, 1, 2, 0, 1, 1]) (.err .keyNonexistent) :=
  ⟨⟨rfl, .set [[1], [2]], .set [[1], [2]], .inl (.refl _), rfl, rfl⟩, fun h => by cases h⟩

/-- One after the other. -/
example : ∃ o o', (serveAll (sampleEnv .debug) twoAtOnce (pairOf (.set [[1], [2]]))).1[1]? = some o ∧
    (serveAll unturned twoAtOnce (pairOf (.set [[2], [1]]))).1[1]? = some o' ∧ AlikeOutcome (sampleEnv .debug) unturned .get [] o o' :=
  (C197_history (env := sampleEnv .debug) (env' := unturned) rfl rfl rfl rfl twoAtOnce pairOf_same rfl).2.2 1 (call .get none [[115]], []) rfl

end Hop
