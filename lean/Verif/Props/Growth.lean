import Verif.Props.Store

/-!
# How much there can come to be stored (C198), and how long answers can be (C199)
-/

namespace Hop

open Prog Spec

/-- How many bytes a value takes up on the wire, without the length and type in front. -/
def Spec.valueSize : Value → Nat
  | .boolean _ => 1
  | .bytes b => 4 + b.length
  | .float _ => 8
  | .integer _ => 8
  | .list l => 2 + (l.map fun x => 4 + x.length).sum
  | .map m => 2 + (m.map fun e => 5 + e.1.length + e.2.length).sum
  | .set s => 2 + (s.map fun x => 2 + x.length).sum
  | .string s => 4 + (strBytes s).length

/-- What is stored under these keys, in bytes: the keys, and their values as on the wire. A value of fewer than 8 bytes is taken for
one of 8. -/
def Spec.stored (ks : List Bytes) (s : Store) : Nat :=
  (ks.map fun k => match s k with
    | none => 0
    | some v => k.length + max 8 (valueSize v)).sum

/-! ## What a program may add -/

private def mass : Option Value → Nat
  | none => 8
  | some v => max 8 (valueSize v)

/-- Whatever else happens to the store meanwhile, the program adds at most `n` bytes to values, a missing one being taken for one of 8, and
creates only keys of which `P` holds. -/
private inductive Grows {α} (P : Bytes → Prop) : Prog α → Nat → Prop
  | done (r : Outcome DispatchError α) (n : Nat) : Grows P (.done r) n
  | onKey {k : Bytes} {upd : Option Value → Option Value} {next : Option Value → Prog α} {n : Nat} (n' : Option Value → Nat) :
    (P k ∨ upd none = none) → (∀ o, Grows P (next o) (n' o)) → (∀ o, mass (upd o) + n' o ≤ mass o + n) → Grows P (.onKey k upd next) n
  | onCtr {m : Metric} {upd : Option Nat → Option Nat} {next : Option Nat → Prog α} {n : Nat} :
    (∀ o, Grows P (next o) n) → Grows P (.onCtr m upd next) n

private theorem Grows.mono {α} {P Q : Bytes → Prop} {p : Prog α} {n : Nat} (h : Grows P p n) (hq : ∀ k, P k → Q k) : ∀ {n'}, n ≤ n' → Grows Q p n' := by
  induction h with
  | done r n => intro n' _; exact .done r n'
  | onKey f hc _ hm ih =>
    intro n' hn
    exact .onKey f (hc.imp (hq _) id) (fun o => ih o (Nat.le_refl _)) (fun o => by have := hm o; omega)
  | onCtr _ ih => intro n' hn; exact .onCtr fun o => ih o hn

private theorem Grows.more {α} {P : Bytes → Prop} {p : Prog α} {n n' : Nat} (h : Grows P p n) (hn : n ≤ n') : Grows P p n' :=
  h.mono (fun _ => id) hn

private theorem Grows.andThen {α β} {P : Bytes → Prop} {p : Prog α} {n : Nat} (h : Grows P p n) {f : Outcome DispatchError α → Prog β}
    (hf : ∀ o, Grows P (f o) 0) : Grows P (p.andThen f) n := by
  induction h with
  | done r n => exact (hf r).more (Nat.zero_le _)
  | onKey g hc _ hm ih => exact .onKey g hc ih hm
  | onCtr _ ih => exact .onCtr ih

private theorem Grows.read {α} {P : Bytes → Prop} {k : Bytes} {next : Option Value → Prog α} {n : Nat} (h : ∀ o, Grows P (next o) n) :
    Grows P (readKey k next) n :=
  .onKey (fun _ => n) (.inr rfl) h (fun _ => Nat.le_refl _)

private theorem Grows.orErr {α β} {P : Bytes → Prop} {o : Option α} {e : DispatchError} {f : α → Prog β} {n : Nat}
    (h : ∀ a, o = some a → Grows P (f a) n) : Grows P (orErr o e f) n := by
  cases o with
  | none => exact .done _ _
  | some a => exact h a rfl

private theorem Grows.remove {α} {P : Bytes → Prop} {k : Bytes} {next : Option Value → Prog α} {n : Nat} (h : ∀ o, Grows P (next o) n) :
    Grows P (removeKey k next) n :=
  .onKey (fun _ => n) (.inr rfl) h (fun o => by cases o <;> simp only [mass] <;> omega)

private theorem Grows.loop {α} {P : Bytes → Prop} {k : Bytes} (hk : P k) {mk : Value} (hmk : valueSize mk ≤ 8)
    {body : Value → Value × Outcome DispatchError α} {n : Nat} (hb : ∀ v, mass (some (body v).1) ≤ mass (some v) + n) (i : Nat) :
    Grows P (keyOrInsertLoop k mk body i) n := by
  induction i with
  | zero => exact .done _ _
  | succ i ih =>
    refine .onKey (fun o => if o.isSome then 0 else n) (.inl hk) ?_ ?_
    · intro o
      cases o with
      | some v => exact .done _ _
      | none =>
        refine .onKey (fun _ => n) (.inl hk) (fun _ => ih) ?_
        intro o
        have : mass (some mk) = 8 := by simp only [mass]; omega
        rw [this]
        cases o <;> simp only [mass, Option.isSome_none, Bool.false_eq_true, if_false] <;> omega
    · intro o
      cases o with
      | some v => simpa using hb v
      | none => simp

private theorem Grows.orInsert {α} {P : Bytes → Prop} {env : Env} {k : Bytes} (hk : P k) {mk : Value} (hmk : valueSize mk ≤ 8)
    {body : Value → Value × Outcome DispatchError α} {n : Nat} (hb : ∀ v, mass (some (body v).1) ≤ mass (some v) + n) :
    Grows P (keyOrInsertWith env k mk body) n := by
  simp only [keyOrInsertWith]
  split
  · exact .done _ _
  · split
    · exact .done _ _
    · exact .loop hk hmk hb _

private theorem Grows.keyRef {α} {P : Bytes → Prop} {env : Env} {k : Bytes} {next : Option Value → Prog α} {n : Nat}
    (h : ∀ o, Grows P (next o) n) : Grows P (keyRef env k next) n := by
  simp only [Hop.keyRef]
  split
  · exact .done _ _
  · split
    · exact .done _ _
    · exact .read h

private theorem Grows.resolve {α} {P : Bytes → Prop} {r : Request} {k : Bytes} {t : KeyType} {next : KeyType → Prog α} {n : Nat}
    (h : ∀ t, Grows P (next t) n) : Grows P (resolveKeyType r k t next) n := by
  simp only [resolveKeyType]
  split
  · exact h _
  · exact .read fun _ => h _

private theorem default_payload (t : KeyType) : valueSize (Value.default t) ≤ 8 := by cases t <;> decide

/-! ## The arguments are within the request -/

private def argBytes (l : List Bytes) : Nat := (l.map fun x => 4 + x.length).sum

private theorem slice_fits {buf x : Bytes} {a b : Nat} (h : slice buf a b = some x) : a + x.length = b ∧ b ≤ buf.length := by
  simp only [slice] at h
  split at h
  · cases h
    simp only [List.length_take, List.length_drop]
    omega
  · cases h

private theorem arg_zero {r : Request} {k : Bytes} (h : r.arg 0 = some k) :
    ∃ p, r.positions[0]? = some p ∧ 6 + k.length ≤ p + 1 ∧ p + 1 ≤ r.buf.length := by
  simp only [Request.arg] at h
  split at h
  · cases h
  · rename_i p hp
    simp only [if_true] at h
    have := slice_fits h
    exact ⟨p, hp, by split at this <;> omega, this.2⟩

private theorem arg_succ {r : Request} {i p : Nat} {x : Bytes} (hp : r.positions[i]? = some p) (h : r.arg (i + 1) = some x) :
    ∃ q, r.positions[i + 1]? = some q ∧ p + 1 + (4 + x.length) = q + 1 ∧ q + 1 ≤ r.buf.length := by
  simp only [Request.arg] at h
  split at h
  · cases h
  · rename_i q hq
    simp only [Nat.add_one_ne_zero, if_false, Nat.add_sub_cancel, hp] at h
    have := slice_fits h
    exact ⟨q, hq, by omega, this.2⟩

private theorem collect_length {r : Request} (n : Nat) : ∀ {i p : Nat}, r.positions[i]? = some p → p + 1 ≤ r.buf.length →
    p + 1 + argBytes (r.collect (i + 1) n) ≤ r.buf.length := by
  induction n with
  | zero => intro i p _ hb; simpa [Request.collect, argBytes] using hb
  | succ n ih =>
    intro i p hp hb
    simp only [Request.collect]
    cases ha : r.arg (i + 1) with
    | none => simpa [argBytes] using hb
    | some x =>
      obtain ⟨q, hq, he, hl⟩ := arg_succ hp ha
      have := ih hq hl
      simp only [argBytes, List.map_cons, List.sum_cons] at this ⊢
      omega

private theorem args_length {r : Request} {k : Bytes} {l : List Bytes} (hk : r.arg 0 = some k) (hl : r.argsFrom 1 = some l) :
    6 + k.length + argBytes l ≤ r.buf.length := by
  obtain ⟨p, hp, he, hb⟩ := arg_zero hk
  simp only [Request.argsFrom] at hl
  split at hl
  · cases hl
  · cases hl
    have := collect_length (r.argCount - 1) hp hb
    simp only [Nat.zero_add] at this
    omega

private theorem arg_one_length {r : Request} {k x : Bytes} (hk : r.arg 0 = some k) (hx : r.arg 1 = some x) :
    10 + k.length + x.length ≤ r.buf.length := by
  obtain ⟨p, hp, he, hb⟩ := arg_zero hk
  obtain ⟨q, -, h1, h2⟩ := arg_succ hp hx
  omega

private theorem key_arg {r : Request} {k : Bytes} (h : r.key = some k) : r.arg 0 = some k := by
  simp only [Request.key] at h
  split at h
  · cases h
  · exact h

/-! ## What the conversions make of the arguments -/

private theorem mapInsert_payload (m : BMap) (k v : Bytes) :
    ((BMap.insert m k v).map fun e => 5 + e.1.length + e.2.length).sum ≤ (m.map fun e => 5 + e.1.length + e.2.length).sum + (5 + k.length + v.length) := by
  induction m with
  | nil => simp [BMap.insert]
  | cons e m ih =>
    simp only [BMap.insert]
    split <;> simp only [List.map_cons, List.sum_cons] <;> omega

private theorem convMapAux_payload (m : BMap) (items : List Bytes) :
    ((convMapAux m items).map fun e => 5 + e.1.length + e.2.length).sum ≤ (m.map fun e => 5 + e.1.length + e.2.length).sum + argBytes items := by
  induction m, items using convMapAux.induct with
  | case1 m k v rest ih =>
    rw [convMapAux]
    have := mapInsert_payload m k v
    simp only [argBytes, List.map_cons, List.sum_cons] at ih ⊢
    omega
  | case2 m args hn => rw [convMapAux]; exact Nat.le_add_right _ _; exact hn

private theorem convSet_payload (items : List Bytes) (s : BSet) :
    ((items.foldl BSet.insert s).map fun x => 2 + x.length).sum ≤ (s.map fun x => 2 + x.length).sum + argBytes items := by
  induction items generalizing s with
  | nil => simp [argBytes]
  | cons x items ih =>
    have := ih (BSet.insert s x)
    have h : ((BSet.insert s x).map fun x => 2 + x.length).sum ≤ (s.map fun x => 2 + x.length).sum + (2 + x.length) := by
      simp only [BSet.insert]
      split <;> simp
    simp only [List.foldl_cons, argBytes, List.map_cons, List.sum_cons] at this ⊢
    omega

private theorem foldl_append_length (l : List Bytes) (b : Bytes) : (l.foldl (fun acc a => acc ++ a) b).length ≤ b.length + argBytes l := by
  induction l generalizing b with
  | nil => simp [argBytes]
  | cons x l ih =>
    have := ih (b ++ x)
    simp only [List.foldl_cons, argBytes, List.map_cons, List.sum_cons, List.length_append] at this ⊢
    omega

private theorem pushStrs_length (l : List Bytes) (s : List Char) : (strBytes (pushStrs s l)).length ≤ (strBytes s).length + argBytes l := by
  induction l generalizing s with
  | nil => simp [argBytes, pushStrs]
  | cons x l ih =>
    simp only [pushStrs, List.foldl_cons] at ih ⊢
    cases hx : fromUtf8 x with
    | none =>
      have := ih s
      simp only [argBytes, List.map_cons, List.sum_cons] at this ⊢
      omega
    | some t =>
      have := ih (s ++ t)
      have hl : (strBytes (s ++ t)).length = (strBytes s).length + x.length := by
        rw [← strBytes_fromUtf8 hx]; simp [strBytes]
      simp only [argBytes, List.map_cons, List.sum_cons] at this ⊢
      omega

/-! ## What each command may add -/

/-- The key a request may create. -/
private def creates (r : Request) : Option Bytes :=
  match r.commandId with
  | .append | .decrementBy | .decrement | .increment | .incrementBy | .set => r.arg 0
  | .rename => (r.arg 0).bind fun _ => r.arg 1
  | _ => none

private theorem Grows.float {P : Bytes → Prop} {env : Env} {k : Bytes} (hk : P k) (f : F64) (resp : Bytes) :
    Grows P (incrementFloatBy env k f resp) 0 :=
  .orInsert hk (default_payload _) fun v => by cases v <;> simp [mass, valueSize]

private theorem Grows.int {P : Bytes → Prop} {env : Env} {k : Bytes} (hk : P k) (i : Int64) (resp : Bytes) :
    Grows P (incrementIntBy env k i resp) 0 :=
  .orInsert hk (default_payload _) fun v => by
    cases v <;> simp only [] <;> first | exact Nat.le_refl _ | (split <;> exact Nat.le_refl _)

private theorem Grows.append {P : Bytes → Prop} {env : Env} {r : Request} {resp : Bytes} (hP : ∀ k, r.arg 0 = some k → P k) :
    Grows P (dispatchAppend env r resp) (r.buf.length - 6 - ((r.arg 0).getD []).length) := by
  refine .orErr fun k hk => .orErr fun l hl => .resolve fun t => ?_
  have hlen := args_length hk hl
  have hg : argBytes l ≤ r.buf.length - 6 - ((r.arg 0).getD []).length := by rw [hk]; simp only [Option.getD_some]; omega
  cases t with
  | bytes =>
    refine .orInsert (hP k hk) (default_payload _) fun v => ?_
    cases v with
    | bytes b => have := foldl_append_length l b; simp only [mass, valueSize]; omega
    | _ => exact Nat.le_add_right _ _
  | list =>
    refine .orInsert (hP k hk) (default_payload _) fun v => ?_
    cases v with
    | list b => simp only [mass, valueSize, List.map_append, List.sum_append]; simp only [argBytes] at hg; omega
    | _ => exact Nat.le_add_right _ _
  | string =>
    refine .orInsert (hP k hk) (default_payload _) fun v => ?_
    cases v with
    | string b => have := pushStrs_length l b; simp only [mass, valueSize]; omega
    | _ => exact Nat.le_add_right _ _
  | _ => exact .done _ _

private theorem Grows.set {P : Bytes → Prop} {env : Env} {r : Request} {resp : Bytes} (hP : ∀ k, r.arg 0 = some k → P k) :
    Grows P (dispatchSet env r resp) (r.buf.length - 6 - ((r.arg 0).getD []).length) := by
  refine .orErr fun k hk => ?_
  replace hk := key_arg hk
  split
  · exact .done _ _
  · have h1 : ∀ x, r.arg 1 = some x → 4 + x.length ≤ r.buf.length - 6 - ((r.arg 0).getD []).length := fun x hx => by
      have := arg_one_length hk hx
      rw [hk]; simp only [Option.getD_some]; omega
    have h2 : ∀ l, r.argsFrom 1 = some l → argBytes l ≤ r.buf.length - 6 - ((r.arg 0).getD []).length := fun l hl => by
      have := args_length hk hl
      rw [hk]; simp only [Option.getD_some]; omega
    have hd := fun t => default_payload t
    refine .resolve fun t => ?_
    cases t with
    | bytes =>
      refine .orErr fun x hx => .remove fun _ => .orInsert (hP k hk) (hd _) fun v => ?_
      have := h1 x hx
      cases v <;> simp only [mass, valueSize] <;> omega
    | boolean =>
      refine .orErr fun x hx => .remove fun _ => .orInsert (hP k hk) (hd _) fun v => ?_
      cases v <;> simp only [mass, valueSize] <;> omega
    | float =>
      refine .orErr fun x hx => .remove fun _ => .orInsert (hP k hk) (hd _) fun v => ?_
      cases v <;> simp only [mass, valueSize] <;> omega
    | integer =>
      refine .orErr fun x hx => .remove fun _ => .orInsert (hP k hk) (hd _) fun v => ?_
      cases v <;> simp only [mass, valueSize] <;> omega
    | list =>
      refine .orErr fun x hx => .remove fun _ => .orInsert (hP k hk) (hd _) fun v => ?_
      have := h2 x hx
      cases v <;> simp only [mass, valueSize] <;> simp only [argBytes] at this <;> omega
    | map =>
      refine .orErr fun x hx => .remove fun _ => .orInsert (hP k hk) (hd _) fun v => ?_
      simp only [Option.map_eq_some_iff] at hx
      obtain ⟨l, hl, rfl⟩ := hx
      have := h2 l hl
      have hc := convMapAux_payload [] l
      simp only [List.map_nil, List.sum_nil] at hc
      cases v <;> simp only [] <;> first
        | exact Nat.le_add_right _ _
        | (split <;> simp only [mass, valueSize, convMap] <;> omega)
    | set =>
      refine .orErr fun x hx => .remove fun _ => .orInsert (hP k hk) (hd _) fun v => ?_
      simp only [Option.map_eq_some_iff] at hx
      obtain ⟨l, hl, rfl⟩ := hx
      have := h2 l hl
      have hc := convSet_payload l []
      simp only [List.map_nil, List.sum_nil] at hc
      cases v <;> simp only [] <;> first
        | exact Nat.le_add_right _ _
        | (split <;> simp only [mass, valueSize, convSet] <;> omega)
    | string =>
      refine .orErr fun x hx => .remove fun _ => .orInsert (hP k hk) (hd _) fun v => ?_
      simp only [Option.bind_eq_some_iff, convStr] at hx
      obtain ⟨b, hb, hx⟩ := hx
      have := h1 b hb
      rw [← strBytes_fromUtf8 hx] at this
      cases v <;> simp only [mass, valueSize] <;> omega

private theorem Grows.rename {P : Bytes → Prop} {env : Env} {r : Request} {resp : Bytes} (hP : ∀ k x, r.arg 0 = some k → r.arg 1 = some x → P x) :
    Grows P (dispatchRename env r resp) 0 := by
  simp only [dispatchRename]
  split
  · exact .done _ _
  · refine .orErr fun k hk => .orErr fun x hx => .read fun _ => ?_
    simp only []
    split
    · exact .done _ _
    · refine .read fun _ => ?_
      simp only []
      split
      · exact .done _ _
      · refine .onKey (fun o => mass o - 8) (.inr rfl) (fun o => ?_) (fun o => ?_)
        · cases o with
          | none => exact .done _ _
          | some v => 
            refine .onKey (fun _ => 0) (.inl (hP k x hk hx)) (fun _ => .done _ _) (fun o => ?_)
            cases o <;> simp only [mass] <;> omega
        · cases o <;> simp only [mass] <;> omega

private theorem Grows.allExist {α} {P : Bytes → Prop} {next : Bool → Prog α} (h : ∀ b, Grows P (next b) 0) (ks : List Bytes) :
    Grows P (allExist next ks) 0 := by
  induction ks with
  | nil => exact h _
  | cons k ks ih =>
    refine .read fun o => ?_
    simp only []
    split
    · exact ih
    · exact h _

private theorem Grows.allAre {α} {P : Bytes → Prop} {t : KeyType} {next : Bool → Prog α} (h : ∀ b, Grows P (next b) 0) (ks : List Bytes) :
    Grows P (allAre t next ks) 0 := by
  induction ks with
  | nil => exact h _
  | cons k ks ih =>
    refine .read fun o => ?_
    simp only []
    split
    · exact ih
    · exact h _

private theorem Grows.statsLoop {α} {P : Bytes → Prop} {next : BMap → Prog α} (h : ∀ b, Grows P (next b) 0) (cs : List Metric) (m : BMap) :
    Grows P (statsLoop next cs m) 0 := by
  induction cs generalizing m with
  | nil => exact h _
  | cons c cs ih =>
    refine .onCtr fun o => ?_
    cases o with
    | none => exact ih _
    | some n =>
      simp only []
      split
      · exact ih _
      · exact ih _

/-- What a request may add to values that are there already or taken for ones of 8 bytes. -/
private def growsBy (r : Request) : Nat :=
  match creates r with
  | none => 0
  | some k => r.buf.length + 2 - (k.length + 8)

private theorem grows_command {P : Bytes → Prop} (env : Env) (r : Request) (resp : Bytes) (hP : ∀ k, creates r = some k → P k) :
    Grows P (command env r resp) (growsBy r) := by
  have big : ∀ k, r.arg 0 = some k → r.buf.length - 6 - ((r.arg 0).getD []).length ≤ r.buf.length + 2 - (k.length + 8) := fun k hk => by
    rw [hk]; simp only [Option.getD_some]; omega
  have pay : ∀ {p : Prog Bytes}, creates r = r.arg 0 → (∀ k, r.arg 0 = some k → Grows P p (r.buf.length + 2 - (k.length + 8))) →
      (r.arg 0 = none → Grows P p 0) → Grows P p (growsBy r) := fun hc h h0 => by
    simp only [growsBy, hc]
    cases ha : r.arg 0 with
    | none => exact h0 ha
    | some k => exact h k ha
  have none0 : ∀ {a : Bytes} , r.arg 0 = none → r.key = some a → False := fun h hk => by
    rw [key_arg hk] at h; cases h
  simp only [command]
  cases hc : r.commandId with
  | append =>
    have he : creates r = r.arg 0 := by simp only [creates, hc]
    refine pay he (fun k hk => (Grows.append fun k hk => hP k (he.trans hk)).more (big k hk)) fun h => ?_
    simp only [dispatchAppend, h, Prog.orErr]; exact .done _ _
  | set =>
    have he : creates r = r.arg 0 := by simp only [creates, hc]
    refine pay he (fun k hk => (Grows.set fun k hk => hP k (he.trans hk)).more (big k hk)) fun h => ?_
    exact .orErr fun a ha => (none0 h ha).elim
  | decrementBy =>
    have he : creates r = r.arg 0 := by simp only [creates, hc]
    have : Grows P (dispatchDecrementBy env r resp) 0 := by
      refine .orErr fun k hk => ?_
      have hk' := hP k (he.trans (key_arg hk))
      split
      · split
        · exact .int hk' _ _
        · exact .done _ _
      · split
        · exact .float hk' _ _
        · exact .done _ _
    exact this.more (Nat.zero_le _)
  | incrementBy =>
    have he : creates r = r.arg 0 := by simp only [creates, hc]
    have : Grows P (dispatchIncrementBy env r resp) 0 := by
      refine .orErr fun k hk => ?_
      have hk' := hP k (he.trans (key_arg hk))
      split
      · exact .int hk' _ _
      · split
        · exact .float hk' _ _
        · exact .done _ _
    exact this.more (Nat.zero_le _)
  | decrement =>
    have he : creates r = r.arg 0 := by simp only [creates, hc]
    have : Grows P (dispatchDecrement env r resp) 0 := by
      refine .orErr fun k hk => ?_
      have hk' := hP k (he.trans (key_arg hk))
      split
      · exact .float hk' _ _
      · exact .int hk' _ _
    exact this.more (Nat.zero_le _)
  | increment =>
    have he : creates r = r.arg 0 := by simp only [creates, hc]
    have : Grows P (dispatchIncrement env r resp) 0 := by
      refine .orErr fun k hk => ?_
      have hk' := hP k (he.trans (key_arg hk))
      split
      · exact .float hk' _ _
      · exact .int hk' _ _
    exact this.more (Nat.zero_le _)
  | rename =>
    exact (Grows.rename fun k x hk hx => hP x (by simp only [creates, hc, hk, hx, Option.bind_some])).more (Nat.zero_le _)
  | delete =>
    simp only [dispatchDelete]
    split
    · exact .done _ _
    · refine Grows.more (n := 0) (.orErr fun k _ => .remove fun o => ?_) (Nat.zero_le _)
      cases o <;> exact .done _ _
  | echo =>
    simp only [dispatchEcho]
    split <;> exact .done _ _
  | «exists» =>
    simp only [dispatchExists]
    split
    · exact .done _ _
    · exact Grows.more (n := 0) (.orErr fun _ _ => .allExist (fun _ => .done _ _) _) (Nat.zero_le _)
  | get =>
    refine Grows.more (n := 0) (.orErr fun k _ => .keyRef fun o => ?_) (Nat.zero_le _)
    cases o with
    | none => exact .done _ _
    | some v =>
      simp only []
      split
      · split <;> exact .done _ _
      · exact .done _ _
  | is =>
    exact Grows.more (n := 0) (.orErr fun _ _ => .orErr fun _ _ => .allAre (fun _ => .done _ _) _) (Nat.zero_le _)
  | keys =>
    refine Grows.more (n := 0) (.orErr fun k _ => .resolve fun t => ?_) (Nat.zero_le _)
    cases t with
    | map =>
      refine .keyRef fun o => ?_
      split <;> exact .done _ _
    | _ => exact .done _ _
  | length =>
    have hl : ∀ t k, Grows P (lengthAs env t k resp) 0 := fun t k => .keyRef fun o => by
      cases o with
      | none => exact .done _ _
      | some v =>
        simp only []
        split <;> exact .done _ _
    refine Grows.more (n := 0) (.orErr fun k _ => .resolve fun t => ?_) (Nat.zero_le _)
    cases t <;> first | exact .done _ _ | exact hl _ _
  | stats =>
    simp only [dispatchStats]
    split
    · exact .done _ _
    · exact Grows.more (n := 0) (.statsLoop (fun _ => .done _ _) _ _) (Nat.zero_le _)
  | type =>
    refine Grows.more (n := 0) (.orErr fun k _ => ?_) (Nat.zero_le _)
    split
    · exact .done _ _
    · refine .read fun o => ?_
      cases o <;> exact .done _ _

private theorem grows_dispatch {P : Bytes → Prop} (env : Env) (r : Request) (resp : Bytes) (hP : ∀ k, creates r = some k → P k) :
    Grows P (dispatch env r resp) (growsBy r) := by
  refine (grows_command env r resp hP).andThen fun o => ?_
  have hi : ∀ m (q : Outcome DispatchError Bytes), Grows P (incrementMetric env m (.done q)) 0 := fun m q => .onCtr fun o => by
    split <;> exact .done _ _
  cases o <;> first | exact hi _ _ | exact .done _ _

/-! ## Pools of programs -/

private def weigh (ks : List Bytes) (s : Store) : Nat := (ks.map fun k => k.length + mass (s k)).sum

private theorem weigh_congr {ks : List Bytes} {s s' : Store} (h : ∀ k ∈ ks, s k = s' k) : weigh ks s = weigh ks s' := by
  simp only [weigh]
  congr 1
  exact List.map_congr_left fun k hk => by rw [h k hk]

private theorem weigh_set {ks : List Bytes} (hn : ks.Nodup) (db : Db) {k : Bytes} (hk : k ∈ ks) (o : Option Value) :
    weigh ks (db.setKey k o).keys + mass (db.keys k) = weigh ks db.keys + mass o := by
  induction ks with
  | nil => cases hk
  | cons a ks ih =>
    obtain ⟨ha, hn⟩ := List.nodup_cons.mp hn
    by_cases h : a = k
    · subst h
      have : weigh ks (db.setKey a o).keys = weigh ks db.keys := weigh_congr fun k' hk' => by
        have : k' ≠ a := fun h => ha (h ▸ hk')
        simp only [Db.setKey, this, if_false]
      have he : (db.setKey a o).keys a = o := by simp only [Db.setKey, if_true]
      simp only [weigh, List.map_cons, List.sum_cons, he] at this ⊢
      omega
    · have := ih hn ((List.mem_cons.mp hk).resolve_left fun e => h e.symm)
      have he : (db.setKey k o).keys a = db.keys a := by simp only [Db.setKey, h, if_false]
      simp only [weigh, List.map_cons, List.sum_cons, he] at this ⊢
      omega

theorem sum_put {ns : List Nat} {i n : Nat} (h : ns[i]? = some n) (n' : Nat) : (ns.set i n').sum + n = ns.sum + n' := by
  induction ns generalizing i with
  | nil => simp at h
  | cons a ns ih =>
    cases i with
    | zero => simp only [List.getElem?_cons_zero, Option.some.injEq] at h; subst h; simp only [List.set_cons_zero, List.sum_cons]; omega
    | succ i =>
      have := ih (by simpa using h)
      simp only [List.set_cons_succ, List.sum_cons]
      omega

/-- What the threads may still add, with what there is, is within `total`, and only the listed keys are there. -/
private def Contained {α} (ks : List Bytes) (total : Nat) (p : Pool α) : Prop :=
  (∀ k, k ∉ ks → p.db.keys k = none) ∧
  ∃ ns : List Nat, (∀ (i : Nat) (t : Prog α), p.threads[i]? = some t → ∃ n, ns[i]? = some n ∧ Grows (· ∈ ks) t n) ∧ weigh ks p.db.keys + ns.sum ≤ total

private theorem Contained.step {α} {ks : List Bytes} (hn : ks.Nodup) {total : Nat} {p : Pool α} (h : Contained ks total p) (i : Nat) : Contained ks total (p.stepAt i) := by
  obtain ⟨hout, ns, hg, ht⟩ := h
  simp only [Pool.stepAt]
  cases hi : p.threads[i]? with
  | none => exact ⟨hout, ns, hg, ht⟩
  | some t =>
    obtain ⟨n, hni, hgt⟩ := hg i t hi
    have hil : i < ns.length := (List.getElem?_eq_some_iff.mp hni).1
    have hpl : i < p.threads.length := (List.getElem?_eq_some_iff.mp hi).1
    have put : ∀ (t' : Prog α) (n' : Nat), Grows (· ∈ ks) t' n' →
        ∀ (j : Nat) (u : Prog α), (p.threads.set i t')[j]? = some u → ∃ n, (ns.set i n')[j]? = some n ∧ Grows (· ∈ ks) u n := fun t' n' hg' j u hj => by
      by_cases h : i = j
      · subst h
        rw [List.getElem?_set_self hpl, Option.some.injEq] at hj
        subst hj
        exact ⟨n', List.getElem?_set_self hil, hg'⟩
      · rw [List.getElem?_set_ne h] at hj ⊢
        exact hg j u hj
    cases hgt with
    | done r n => exact ⟨hout, _, put _ n (.done r n), by have := sum_put hni n; simp only [Prog.step]; omega⟩
    | @onCtr m upd next n h' => exact ⟨hout, _, put _ n (h' _), by have := sum_put hni n; simp only [Prog.step, Db.setCtr]; omega⟩
    | @onKey k upd next n f hc hx hm =>
      have hsum := sum_put hni (f (p.db.keys k))
      have hmk := hm (p.db.keys k)
      refine ⟨fun k' hk' => ?_, _, put _ _ (hx _), ?_⟩
      · simp only [Prog.step, Db.setKey]
        by_cases h : k' = k
        · subst h
          simp only [if_true, hout _ hk']
          exact hc.resolve_left hk'
        · simp only [h, if_false]; exact hout _ hk'
      · simp only [Prog.step]
        by_cases hk : k ∈ ks
        · have := weigh_set hn p.db hk (upd (p.db.keys k))
          omega
        · have hnone := hout k hk
          have : weigh ks (p.db.setKey k (upd (p.db.keys k))).keys = weigh ks p.db.keys := weigh_congr fun k' hk' => by
            have : k' ≠ k := fun h => hk (h ▸ hk')
            simp only [Db.setKey, this, if_false]
          rw [hnone, hc.resolve_left hk] at hmk
          rw [hnone] at this hsum ⊢
          omega

private theorem Contained.exec {α} {ks : List Bytes} (hn : ks.Nodup) {total : Nat} (sched : List Nat) : ∀ {p : Pool α}, Contained ks total p → Contained ks total (p.exec sched) := by
  induction sched with
  | nil => exact id
  | cons i sched ih => exact fun h => ih (h.step hn i)

/-! ## The keys there may be -/

private def joined (ks : List Bytes) : List Bytes → List Bytes
  | [] => ks
  | c :: cs => if c ∈ joined ks cs then joined ks cs else c :: joined ks cs

private theorem joined_nodup {ks : List Bytes} (h : ks.Nodup) (cs : List Bytes) : (joined ks cs).Nodup := by
  induction cs with
  | nil => exact h
  | cons c cs ih =>
    simp only [joined]
    split
    · exact ih
    · rename_i hc; exact List.nodup_cons.mpr ⟨hc, ih⟩

private theorem mem_joined {ks cs : List Bytes} {k : Bytes} : k ∈ joined ks cs ↔ k ∈ ks ∨ k ∈ cs := by
  induction cs with
  | nil => simp [joined]
  | cons c cs ih =>
    simp only [joined]
    split
    · rename_i hc
      rw [ih, List.mem_cons]
      constructor
      · exact fun h => h.imp id .inr
      · rintro (h | rfl | h)
        · exact .inl h
        · exact ih.mp hc
        · exact .inr h
    · rw [List.mem_cons, ih, List.mem_cons]
      constructor
      · rintro (h | h | h)
        · exact .inr (.inl h)
        · exact .inl h
        · exact .inr (.inr h)
      · rintro (h | h | h)
        · exact .inr (.inl h)
        · exact .inl h
        · exact .inr (.inr h)

private theorem joined_weigh {ks : List Bytes} {s : Store} (h : ∀ k, k ∉ ks → s k = none) (cs : List Bytes) :
    weigh (joined ks cs) s ≤ weigh ks s + (cs.map fun c => c.length + 8).sum := by
  induction cs with
  | nil => simp [joined]
  | cons c cs ih =>
    simp only [joined, List.map_cons, List.sum_cons]
    split
    · omega
    · rename_i hc
      have : s c = none := h c fun hk => hc (mem_joined.mpr (.inl hk))
      simp only [weigh, List.map_cons, List.sum_cons, this, mass] at ih ⊢
      omega

private theorem sum_le {ks js : List Bytes} (hn : ks.Nodup) {g h : Bytes → Nat} (hg : ∀ k ∈ ks, g k = 0 ∨ (k ∈ js ∧ g k ≤ h k)) :
    (ks.map g).sum ≤ (js.map h).sum := by
  induction ks generalizing js with
  | nil => simp
  | cons k ks ih =>
    obtain ⟨hk, hn⟩ := List.nodup_cons.mp hn
    simp only [List.map_cons, List.sum_cons]
    rcases hg k (List.mem_cons_self ..) with h0 | ⟨hj, hle⟩
    · have := ih (js := js) hn fun k' hk' => hg k' (List.mem_cons_of_mem _ hk')
      omega
    · have hp := (List.perm_cons_erase hj).map h
      have hs := hp.sum_nat
      have := ih (js := js.erase k) hn fun k' hk' => (hg k' (List.mem_cons_of_mem _ hk')).imp id fun ⟨a, b⟩ =>
        ⟨(List.mem_erase_of_ne (show k' ≠ k from fun e => hk (e ▸ hk'))).mpr a, b⟩
      simp only [List.map_cons, List.sum_cons] at hs
      omega

private theorem stored_filter {ks : List Bytes} {s : Store} : weigh (ks.filter fun k => (s k).isSome) s = stored ks s := by
  induction ks with
  | nil => rfl
  | cons k ks ih =>
    simp only [stored, List.map_cons, List.sum_cons] at ih ⊢
    cases hk : s k with
    | none => simp only [List.filter_cons, hk, Option.isSome_none, Bool.false_eq_true, if_false]; omega
    | some v =>
      simp only [List.filter_cons, hk, Option.isSome_some, if_true]
      simp only [weigh, List.map_cons, List.sum_cons, hk, mass] at ih ⊢
      omega

private theorem fits_stored {α} {ks js : List Bytes} (hn : ks.Nodup) {total : Nat} {p : Pool α} (h : Contained js total p) : stored ks p.db.keys ≤ total := by
  obtain ⟨hout, ns, -, ht⟩ := h
  refine Nat.le_trans (sum_le (js := js) (h := fun k => k.length + mass (p.db.keys k)) hn fun k _ => ?_) (Nat.le_trans (Nat.le_add_right _ _) ht)
  cases hk : p.db.keys k with
  | none => exact .inl rfl
  | some v =>
    refine .inr ⟨Classical.byContradiction fun hj => ?_, Nat.le_refl _⟩
    rw [hout k hj] at hk
    cases hk

private theorem creates_fits {r : Request} {k : Bytes} (h : creates r = some k) : k.length + 8 ≤ r.buf.length + 2 := by
  have zero : r.arg 0 = some k → k.length + 8 ≤ r.buf.length + 2 := fun h => by
    obtain ⟨p, -, h1, h2⟩ := arg_zero h; omega
  have one : ((r.arg 0).bind fun _ => r.arg 1) = some k → k.length + 8 ≤ r.buf.length + 2 := fun h => by
    obtain ⟨a, h0, h1⟩ := Option.bind_eq_some_iff.mp h
    have := arg_one_length h0 h1
    omega
  simp only [creates] at h
  split at h <;> first | exact zero h | exact one h | cases h

private theorem cost {rs : List Request} : ((rs.filterMap creates).map fun c => c.length + 8).sum + (rs.map growsBy).sum ≤ (rs.map fun r => r.buf.length + 2).sum := by
  induction rs with
  | nil => simp
  | cons r rs ih =>
    simp only [List.map_cons, List.sum_cons]
    cases hc : creates r with
    | none =>
      rw [List.filterMap_cons_none hc]
      have : growsBy r = 0 := by simp only [growsBy, hc]
      omega
    | some k =>
      have h1 := creates_fits hc
      have : growsBy r = r.buf.length + 2 - (k.length + 8) := by simp only [growsBy, hc]
      rw [List.filterMap_cons_some hc]
      simp only [List.map_cons, List.sum_cons]
      omega

/-! ## Programs on their own -/

private theorem Grows.run {α} {ks : List Bytes} (hn : ks.Nodup) {p : Prog α} {n : Nat} (h : Grows (· ∈ ks) p n) : ∀ {db : Db}, (∀ k, k ∉ ks → db.keys k = none) →
    (∀ k, k ∉ ks → (p.run db).2.keys k = none) ∧ weigh ks (p.run db).2.keys ≤ weigh ks db.keys + n := by
  induction h with
  | done r n => intro db hd; exact ⟨hd, Nat.le_add_right _ _⟩
  | onCtr _ ih => intro db hd; exact ih _ hd
  | @onKey k upd next n f hc _ hm ih =>
    intro db hd
    have hd' : ∀ k', k' ∉ ks → (db.setKey k (upd (db.keys k))).keys k' = none := fun k' hk' => by
      simp only [Db.setKey]
      by_cases h : k' = k
      · subst h
        simp only [if_true, hd _ hk']
        exact hc.resolve_left hk'
      · simp only [h, if_false]; exact hd _ hk'
    obtain ⟨h1, h2⟩ := ih (db.keys k) hd'
    refine ⟨h1, ?_⟩
    have hmk := hm (db.keys k)
    simp only [Prog.run]
    by_cases hk : k ∈ ks
    · have := weigh_set hn db hk (upd (db.keys k))
      omega
    · have hnone := hd k hk
      have : weigh ks (db.setKey k (upd (db.keys k))).keys = weigh ks db.keys := weigh_congr fun k' hk' => by
        have : k' ≠ k := fun h => hk (h ▸ hk')
        simp only [Db.setKey, this, if_false]
      rw [hnone, hc.resolve_left hk] at hmk
      rw [hnone] at this h2 ⊢
      omega

private theorem grows_serve {env : Env} {ks : List Bytes} (hn : ks.Nodup) (h : List (Request × Bytes)) : ∀ {db : Db},
    (∀ r ∈ h, ∀ k, creates r.1 = some k → k ∈ ks) → (∀ k, k ∉ ks → db.keys k = none) →
    (∀ k, k ∉ ks → (serveAll env h db).2.keys k = none) ∧ weigh ks (serveAll env h db).2.keys ≤ weigh ks db.keys + ((h.map Prod.fst).map growsBy).sum := by
  induction h with
  | nil => intro db _ hd; exact ⟨hd, Nat.le_refl _⟩
  | cons r h ih =>
    intro db hc hd
    obtain ⟨h1, h2⟩ := (grows_dispatch env r.1 r.2 (hc r (List.mem_cons_self ..))).run hn hd
    obtain ⟨h3, h4⟩ := ih (fun r' hr' => hc r' (List.mem_cons_of_mem _ hr')) h1
    refine ⟨h3, ?_⟩
    simp only [serveAll, List.map_cons, List.sum_cons]
    omega

/-! ## C198 -/

/-- **C198.** Any history of requests, built, parsed or malformed: in the end there is at most as much stored as at the beginning, and the bytes of the
requests, and two bytes for each. -/
theorem C198_history (env : Env) (h : List (Request × Bytes)) (db : Db) (ks : List Bytes) (hn : ks.Nodup)
    (hk : ∀ k v, db.keys k = some v → k ∈ ks) :
    stored ks (serveAll env h db).2.keys ≤ stored ks db.keys + (h.map fun r => r.1.buf.length + 2).sum := by
  let here := ks.filter fun k => (db.keys k).isSome
  let cs := (h.map Prod.fst).filterMap creates
  have hhere : ∀ k, k ∉ here → db.keys k = none := fun k h => by
    cases hv : db.keys k with
    | none => rfl
    | some v => exact (h (List.mem_filter.mpr ⟨hk k v hv, by rw [hv]; rfl⟩)).elim
  have hnd : (joined here cs).Nodup := joined_nodup (hn.filter _) cs
  have hw : weigh (joined here cs) db.keys ≤ stored ks db.keys + (cs.map fun c => c.length + 8).sum := by
    have := joined_weigh hhere cs
    rw [show weigh here db.keys = stored ks db.keys from stored_filter] at this
    exact this
  have hcost := cost (rs := h.map Prod.fst)
  obtain ⟨h1, h2⟩ := grows_serve (env := env) hnd h (db := db)
    (fun r hr k hk => mem_joined.mpr (.inr (List.mem_filterMap.mpr ⟨r.1, List.mem_map.mpr ⟨r, hr, rfl⟩, hk⟩)))
    (fun k h => hhere k fun h' => h (mem_joined.mpr (.inl h')))
  have hfit : Contained (joined here cs) (stored ks db.keys + (h.map fun r => r.1.buf.length + 2).sum) (⟨[], (serveAll env h db).2⟩ : Pool Bytes) := by
    refine ⟨h1, [], fun i t hi => by simp at hi, ?_⟩
    have h4 : (h.map fun r => r.1.buf.length + 2).sum = ((h.map Prod.fst).map fun r => r.buf.length + 2).sum := by rw [List.map_map]; rfl
    have h3 : (cs.map fun c => c.length + 8).sum = (((h.map Prod.fst).filterMap creates).map fun c => c.length + 8).sum := rfl
    show weigh (joined here cs) (serveAll env h db).2.keys + _ ≤ _
    rw [← h4, ← h3] at hcost
    simp only [List.sum_nil]
    omega
  exact fits_stored hn hfit

private theorem fits_requests (env : Env) (rs : List (Request × Bytes)) (db : Db) (ks : List Bytes) (hn : ks.Nodup)
    (hk : ∀ k v, db.keys k = some v → k ∈ ks) : ∃ js : List Bytes, js.Nodup ∧
    Contained js (stored ks db.keys + (rs.map fun r => r.1.buf.length + 2).sum) (⟨rs.map fun r => dispatch env r.1 r.2, db⟩ : Pool Bytes) := by
  let here := ks.filter fun k => (db.keys k).isSome
  let cs := (rs.map Prod.fst).filterMap creates
  have hhere : ∀ k, k ∉ here → db.keys k = none := fun k h => by
    cases hv : db.keys k with
    | none => rfl
    | some v => exact (h (List.mem_filter.mpr ⟨hk k v hv, by rw [hv]; rfl⟩)).elim
  have hnd : (joined here cs).Nodup := joined_nodup (hn.filter _) cs
  have hw : weigh (joined here cs) db.keys ≤ stored ks db.keys + (cs.map fun c => c.length + 8).sum := by
    have := joined_weigh hhere cs
    rw [show weigh here db.keys = stored ks db.keys from stored_filter] at this
    exact this
  have hcost := cost (rs := rs.map Prod.fst)
  refine ⟨joined here cs, hnd, ?_⟩
  refine ⟨fun k h => hhere k fun h' => h (mem_joined.mpr (.inl h')), rs.map fun r => growsBy r.1, fun i t hi => ?_, ?_⟩
  · simp only [List.getElem?_map, Option.map_eq_some_iff] at hi ⊢
    obtain ⟨r, hr, rfl⟩ := hi
    refine ⟨_, ⟨r, hr, rfl⟩, grows_dispatch env r.1 r.2 fun k hk => mem_joined.mpr (.inr ?_)⟩
    exact List.mem_filterMap.mpr ⟨r.1, List.mem_map.mpr ⟨r, List.mem_of_getElem? hr, rfl⟩, hk⟩
  · have h1 : (rs.map fun r => growsBy r.1).sum = ((rs.map Prod.fst).map growsBy).sum := by rw [List.map_map]; rfl
    have h2 : (rs.map fun r => r.1.buf.length + 2).sum = ((rs.map Prod.fst).map fun r => r.buf.length + 2).sum := by rw [List.map_map]; rfl
    have h3 : (cs.map fun c => c.length + 8).sum = (((rs.map Prod.fst).filterMap creates).map fun c => c.length + 8).sum := rfl
    show weigh (joined here cs) db.keys + _ ≤ _
    rw [← h2, ← h1, ← h3] at hcost
    omega

/-- **C198, at once.** Any requests, built, parsed or malformed, executed at once by as many threads, in any order of their steps, at any moment:
there is at most as much stored as at the beginning, and the bytes of the requests, and two bytes for each. -/
theorem C198_at_once (env : Env) (rs : List (Request × Bytes)) (db : Db) (sched : List Nat) (ks : List Bytes) (hn : ks.Nodup)
    (hk : ∀ k v, db.keys k = some v → k ∈ ks) :
    stored ks (Pool.exec ⟨rs.map fun r => dispatch env r.1 r.2, db⟩ sched).db.keys ≤
      stored ks db.keys + (rs.map fun r => r.1.buf.length + 2).sum := by
  obtain ⟨js, hnd, hfit⟩ := fits_requests env rs db ks hn hk
  exact fits_stored hn (hfit.exec hnd sched)

/-! ## Threads that are given one request after the other -/

/-- What the threads may still add, with what there is, is within `total`. -/
def HeldTo (total : Nat) (us : List (Prog Bytes)) (db : Db) : Prop :=
  ∃ js : List Bytes, js.Nodup ∧ Contained js total (⟨us, db⟩ : Pool Bytes)

theorem HeldTo.idle (n : Nat) (o : Outcome DispatchError Bytes) (db : Db) {ks : List Bytes} (hn : ks.Nodup) (hk : ∀ k v, db.keys k = some v → k ∈ ks) :
    HeldTo (stored ks db.keys) (List.replicate n (.done o)) db := by
  refine ⟨ks.filter fun k => (db.keys k).isSome, hn.filter _, fun k h => ?_, List.replicate n 0, fun i t hi => ?_, ?_⟩
  · cases hv : db.keys k with
    | none => rfl
    | some v => exact (h (List.mem_filter.mpr ⟨hk k v hv, by rw [hv]; rfl⟩)).elim
  · rw [List.getElem?_replicate] at hi
    split at hi
    · rename_i hin
      cases hi
      exact ⟨0, by rw [List.getElem?_replicate, if_pos hin], .done _ _⟩
    · cases hi
  · have : (List.replicate n 0).sum = 0 := by simp
    rw [this, Nat.add_zero, stored_filter]
    exact Nat.le_refl _

theorem HeldTo.step {total : Nat} {p : Pool Bytes} (h : HeldTo total p.threads p.db) (i : Nat) : HeldTo total (p.stepAt i).threads (p.stepAt i).db :=
  let ⟨js, hn, hc⟩ := h
  ⟨js, hn, hc.step hn i⟩

theorem HeldTo.mono {total total' : Nat} {us : List (Prog Bytes)} {db : Db} (h : HeldTo total us db) (ht : total ≤ total') : HeldTo total' us db :=
  let ⟨js, hn, h1, ns, h2, h3⟩ := h
  ⟨js, hn, h1, ns, h2, Nat.le_trans h3 ht⟩

theorem HeldTo.stored {total : Nat} {us : List (Prog Bytes)} {db : Db} (h : HeldTo total us db) {ks : List Bytes} (hn : ks.Nodup) :
    Spec.stored ks db.keys ≤ total :=
  let ⟨_, _, hc⟩ := h
  fits_stored hn hc

/-- A thread that has come to an end is given another request. -/
theorem HeldTo.next {total : Nat} {us : List (Prog Bytes)} {db : Db} (h : HeldTo total us db) (env : Env) (r : Request) (resp : Bytes) {i : Nat}
    {o : Outcome DispatchError Bytes} (hi : us[i]? = some (.done o)) :
    HeldTo (total + if r.commandId ∈ [.echo, .exists, .get, .is, .keys, .length, .stats, .type] then 0 else r.buf.length + 2)
      (us.set i (dispatch env r resp)) db := by
  obtain ⟨js, hn, hout, ns, hg, ht⟩ := h
  have hil : i < us.length := (List.getElem?_eq_some_iff.mp hi).1
  obtain ⟨n, hni, -⟩ := hg i _ hi
  have hnl : i < ns.length := (List.getElem?_eq_some_iff.mp hni).1
  have hsum := sum_put hni (growsBy r)
  have put : ∀ (js' : List Bytes), (∀ k, k ∈ js → k ∈ js') → (∀ k, creates r = some k → k ∈ js') →
      ∀ (j : Nat) (u : Prog Bytes), (us.set i (dispatch env r resp))[j]? = some u → ∃ n, (ns.set i (growsBy r))[j]? = some n ∧ Grows (· ∈ js') u n := by
    intro js' hjs hcr j u hj
    by_cases h : i = j
    · subst h
      rw [List.getElem?_set_self hil, Option.some.injEq] at hj
      subst hj
      exact ⟨_, List.getElem?_set_self hnl, grows_dispatch env r resp hcr⟩
    · rw [List.getElem?_set_ne h] at hj ⊢
      obtain ⟨n, h1, h2⟩ := hg j u hj
      exact ⟨n, h1, h2.mono hjs (Nat.le_refl _)⟩
  cases hc : creates r with
  | none =>
    have hz : growsBy r = 0 := by simp only [growsBy, hc]
    refine ⟨js, hn, hout, _, put js (fun _ h => h) (by rw [hc]; nofun), ?_⟩
    dsimp only at ht ⊢
    omega
  | some k =>
    have h1 := creates_fits hc
    have hz : growsBy r = r.buf.length + 2 - (k.length + 8) := by simp only [growsBy, hc]
    have hr : ¬ r.commandId ∈ [.echo, .exists, .get, .is, .keys, .length, .stats, .type] := by
      intro h
      simp only [List.mem_cons, List.not_mem_nil, or_false] at h
      rcases h with h | h | h | h | h | h | h | h <;> simp [creates, h] at hc
    rw [if_neg hr]
    refine ⟨joined js [k], joined_nodup hn _, fun x hx => hout x fun h => hx (mem_joined.mpr (.inl h)), _,
      put _ (fun x hx => mem_joined.mpr (.inl hx)) (by rw [hc]; rintro x ⟨⟩; exact mem_joined.mpr (.inr (List.mem_singleton.mpr rfl))), ?_⟩
    have h2 := joined_weigh hout [k]
    simp only [List.map_cons, List.map_nil, List.sum_cons, List.sum_nil] at h2
    dsimp only at ht h2 ⊢
    omega

/-- The bound is met: an Increment of a key that was not there. -/
example (m : Mode) : (call .increment none [ascii "visits"]).buf.length + 2 = 14 ∧
    stored [ascii "visits"] (serveAll (sampleEnv m) [(call .increment none [ascii "visits"], [])] (sampleDb [])).2.keys = 14 := by
  cases m <;> decide +kernel

/-- A Rename of a long value to a longer key, and an Append. -/
example (m : Mode) :
    stored [ascii "k", ascii "longer"] (sampleDb [(ascii "k", .bytes (ascii "0123456789"))]).keys = 15 ∧
    stored [ascii "k", ascii "longer"] (serveAll (sampleEnv m) [(call .rename none [ascii "k", ascii "longer"], []), (call .append none [ascii "longer", ascii "!"], [])]
      (sampleDb [(ascii "k", .bytes (ascii "0123456789"))])).2.keys = 21 ∧
    ([(call .rename none [ascii "k", ascii "longer"], []), (call .append none [ascii "longer", ascii "!"], [])].map
      fun (r : Request × Bytes) => r.1.buf.length + 2).sum = 19 + 19 := by
  cases m <;> decide +kernel

/-- Two at once, stopped while one has taken the value away and the other has not begun: the keys are among those listed. -/
example (m : Mode) (sched : List Nat) :
    stored [ascii "k"] (Pool.exec ⟨[(call .rename none [ascii "k", ascii "l"], []), (call .increment none [ascii "k"], ([] : Bytes))].map
      fun r => dispatch (sampleEnv m) r.1 r.2, sampleDb [(ascii "k", .integer 5)]⟩ sched).db.keys ≤ 9 + (14 + 9) :=
  C198_at_once (sampleEnv m) [(call .rename none [ascii "k", ascii "l"], []), (call .increment none [ascii "k"], [])] (sampleDb [(ascii "k", .integer 5)]) sched
    [ascii "k"] (by decide) (fun k v h => by
      simp only [sampleDb, List.lookup] at h
      split at h
      · rename_i hk; simpa using hk
      · cases h)

/-! ## How long a written value is -/

private theorem patch_length' {buf bs : Bytes} {i : Nat} (h : i + bs.length ≤ buf.length) : (patch buf i bs).length = buf.length := by
  simp only [patch, List.length_append, List.length_take, List.length_drop]
  omega

private theorem writeListLoop_length {m : Mode} (l : List Bytes) : ∀ {to : Bytes} {a b : Nat} {x : Bytes × Nat × Nat},
    Response.writeListLoop m to a b l = some x → x.1.length = to.length + argBytes l := by
  induction l with
  | nil => intro to a b x h; simp only [Response.writeListLoop, Option.some.injEq] at h; subst h; rfl
  | cons y l ih =>
    intro to a b x h
    simp only [Response.writeListLoop, Option.bind_eq_bind, Option.bind_eq_some_iff] at h
    obtain ⟨_, -, _, -, _, -, h⟩ := h
    rw [ih h]
    simp only [argBytes, List.length_append, beBytes_length, List.map_cons, List.sum_cons]
    omega

private theorem writeBytes_length {m : Mode} {to b out : Bytes} (h : Response.writeBytes m to b = some out) : out.length = to.length + 9 + b.length := by
  simp only [Response.writeBytes, Option.bind_eq_bind, Option.bind_eq_some_iff] at h
  obtain ⟨_, -, h⟩ := h
  cases h
  simp only [List.length_append, beBytes_length, List.length_singleton]

private theorem writeStr_length {m : Mode} {to out : Bytes} {s : List Char} (h : Response.writeStr m to s = some out) : out.length = to.length + 9 + (strBytes s).length := by
  simp only [Response.writeStr, Option.bind_eq_bind, Option.bind_eq_some_iff] at h
  obtain ⟨_, -, h⟩ := h
  cases h
  simp only [List.length_append, beBytes_length, List.length_singleton]

private theorem writeList_length {m : Mode} {to out : Bytes} {l : List Bytes} (h : Response.writeList m to l = some out) :
    out.length = to.length + 7 + argBytes l := by
  simp only [Response.writeList, Option.bind_eq_bind, Option.bind_eq_some_iff] at h
  obtain ⟨⟨x, a, b⟩, hx, h⟩ := h
  have hl := writeListLoop_length l hx
  simp only [List.length_append, List.length_cons, List.length_nil] at hl
  cases h
  have h1 : (patch x to.length (beBytes 4 a)).length = x.length := patch_length' (by rw [beBytes_length]; omega)
  rw [patch_length' (by rw [beBytes_length, h1]; omega), h1]
  omega

private theorem flatMap_length {α} (l : List α) (f : α → Bytes) (g : α → Nat) (h : ∀ a, (f a).length = g a) : (l.flatMap f).length = (l.map g).sum := by
  induction l with
  | nil => rfl
  | cons a l ih => simp only [List.flatMap_cons, List.length_append, List.map_cons, List.sum_cons, h, ih]

private theorem writeMap_length {env : Env} {to out : Bytes} {l : BMap} (h : Response.writeMap env to l = some out) :
    out.length = to.length + 7 + (l.map fun e => 5 + e.1.length + e.2.length).sum := by
  simp only [Response.writeMap, Response.writeMapIter, Option.bind_eq_bind, Option.bind_eq_some_iff] at h
  obtain ⟨_, -, h⟩ := h
  cases h
  rw [← ((env.mapOrd_perm l).map fun e => 5 + e.1.length + e.2.length).sum_nat]
  rw [List.length_append, flatMap_length _ _ (fun e => 5 + e.1.length + e.2.length) (fun e => by
    simp only [Response.mapEntry, List.length_append, List.length_singleton, beBytes_length]; omega)]
  simp only [List.length_append, beBytes_length, List.length_singleton]

private theorem writeSet_length {env : Env} {to out : Bytes} {l : BSet} (h : Response.writeSet env to l = some out) :
    out.length = to.length + 7 + (l.map fun x => 2 + x.length).sum := by
  simp only [Response.writeSet, Response.writeSetIter, Option.bind_eq_bind, Option.bind_eq_some_iff] at h
  obtain ⟨_, -, h⟩ := h
  cases h
  rw [← ((env.setOrd_perm l).map fun x => 2 + x.length).sum_nat]
  rw [List.length_append, flatMap_length _ _ (fun x => 2 + x.length) (fun e => by
    simp only [Response.setEntry, List.length_append, beBytes_length])]
  simp only [List.length_append, beBytes_length, List.length_singleton]

private theorem writeInt_length (to : Bytes) (i : Int64) : (Response.writeInt to i).length = to.length + 13 := by
  simp only [Response.writeInt, i64Bytes, List.length_append, beBytes_length, List.length_singleton]

private theorem writeFloat_length (to : Bytes) (f : F64) : (Response.writeFloat to f).length = to.length + 13 := by
  simp only [Response.writeFloat, F64.toBytes, List.length_append, beBytes_length, List.length_singleton]

private theorem writeBool_length (to : Bytes) (b : Bool) : (Response.writeBool to b).length = to.length + 6 := by
  simp only [Response.writeBool, List.length_append, beBytes_length, List.length_singleton]

private theorem writeValue_length {env : Env} {to out : Bytes} {v : Value} (h : Response.writeValue env to v = some out) :
    out.length = to.length + 5 + valueSize v := by
  cases v with
  | boolean b => cases h; rw [writeBool_length]; simp only [valueSize]
  | integer b => cases h; rw [writeInt_length]; simp only [valueSize]
  | float b => cases h; rw [writeFloat_length]; simp only [valueSize]
  | bytes b => rw [writeBytes_length h]; simp only [valueSize]; omega
  | string b => rw [writeStr_length h]; simp only [valueSize]; omega
  | list l => rw [writeList_length h]; simp only [valueSize, argBytes]; omega
  | map l => rw [writeMap_length h]; simp only [valueSize]; omega
  | set l => rw [writeSet_length h]; simp only [valueSize]; omega

/-! ## How long an answer may be -/

private def Brief (n : Nat) (r : Outcome DispatchError Bytes) : Prop := ∀ out, r = .ok out → out.length ≤ n

private theorem Brief.some {n : Nat} {o : Option Bytes} (h : ∀ out, o = some out → out.length ≤ n) : Brief n (.ofOption o) := fun out ho => by
  cases o with
  | none => cases ho
  | some b => cases ho; exact h _ rfl

private theorem Brief.ok {n : Nat} {o : Bytes} (h : o.length ≤ n) : Brief n (.ok o) := fun out ho => by cases ho; exact h

private theorem Brief.err {n : Nat} {e : DispatchError} : Brief n (.err e) := fun _ ho => by cases ho

private theorem Brief.panic {n : Nat} : Brief n .panic := fun _ ho => by cases ho

/-- From here on the program does nothing to any key. -/
private inductive Resting {α} : Prog α → Prop
  | done (r : Outcome DispatchError α) : Resting (.done r)
  | onCtr {m : Metric} {upd : Option Nat → Option Nat} {next : Option Nat → Prog α} : (∀ o, Resting (next o)) → Resting (.onCtr m upd next)

/-- As long as what is under the key `k0` is of at most `M` bytes, what the program answers is of at most `n`; and it leaves there no more
than `M` bytes before it has chosen its answer. -/
private inductive Replies (M : Nat) (k0 : Option Bytes) (n : Nat) : Prog Bytes → Prop
  | done {r : Outcome DispatchError Bytes} : Brief n r → Replies M k0 n (.done r)
  | onKey {k : Bytes} {upd : Option Value → Option Value} {next : Option Value → Prog Bytes} :
    (∀ o, (k0 = some k → mass o ≤ M) → Replies M k0 n (next o)) →
    (∀ o, (k0 = some k → mass o ≤ M) → (k0 = some k → mass (upd o) ≤ M) ∨ Resting (next o)) → Replies M k0 n (.onKey k upd next)
  | onCtr {m : Metric} {upd : Option Nat → Option Nat} {next : Option Nat → Prog Bytes} :
    (∀ o, Replies M k0 n (next o)) → Replies M k0 n (.onCtr m upd next)

private theorem Resting.andThen {α β} {p : Prog α} (h : Resting p) {f : Outcome DispatchError α → Prog β} (hf : ∀ o, Resting (f o)) : Resting (p.andThen f) := by
  induction h with
  | done r => exact hf r
  | onCtr _ ih => exact .onCtr ih

private theorem Replies.andThen {M : Nat} {k0 : Option Bytes} {n : Nat} {p : Prog Bytes} (h : Replies M k0 n p) {f : Outcome DispatchError Bytes → Prog Bytes}
    (hq : ∀ o, Resting (f o)) (hf : ∀ o, Brief n o → Replies M k0 n (f o)) : Replies M k0 n (p.andThen f) := by
  induction h with
  | done h => exact hf _ h
  | onKey _ hu ih => exact .onKey ih fun o ho => (hu o ho).imp id (·.andThen hq)
  | onCtr _ ih => exact .onCtr ih

private theorem Replies.read {M : Nat} {k0 : Option Bytes} {n : Nat} {k : Bytes} {next : Option Value → Prog Bytes}
    (h : ∀ o, (k0 = some k → mass o ≤ M) → Replies M k0 n (next o)) : Replies M k0 n (readKey k next) :=
  .onKey h fun _ ho => .inl ho

private theorem Replies.orErr {M : Nat} {k0 : Option Bytes} {n : Nat} {α} {o : Option α} {e : DispatchError} {f : α → Prog Bytes}
    (h : ∀ a, o = some a → Replies M k0 n (f a)) : Replies M k0 n (orErr o e f) := by
  cases o with
  | none => exact .done .err
  | some a => exact h a rfl

private theorem Replies.remove {M : Nat} (hM : 8 ≤ M) {k0 : Option Bytes} {n : Nat} {k : Bytes} {next : Option Value → Prog Bytes}
    (h : ∀ o, (k0 = some k → mass o ≤ M) → Replies M k0 n (next o)) : Replies M k0 n (removeKey k next) :=
  .onKey h fun _ _ => .inl fun _ => hM

private theorem Replies.loop {M : Nat} (hM : 8 ≤ M) {k0 : Option Bytes} {n : Nat} {k : Bytes} {mk : Value} (hmk : valueSize mk ≤ 8)
    {body : Value → Value × Outcome DispatchError Bytes} (hb : ∀ v, (k0 = some k → mass (some v) ≤ M) → Brief n (body v).2) (i : Nat) :
    Replies M k0 n (keyOrInsertLoop k mk body i) := by
  induction i with
  | zero => exact .done fun _ h => by cases h
  | succ i ih =>
    refine .onKey (fun o ho => ?_) (fun o ho => ?_)
    · cases o with
      | some v => exact .done (hb v ho)
      | none => exact .onKey (fun _ _ => ih) fun _ _ => .inl fun _ => by simp only [mass]; omega
    · cases o with
      | some v => exact .inr (.done _)
      | none => exact .inl fun _ => hM

private theorem Replies.orInsert {M : Nat} (hM : 8 ≤ M) {k0 : Option Bytes} {n : Nat} {env : Env} {k : Bytes} {mk : Value} (hmk : valueSize mk ≤ 8)
    {body : Value → Value × Outcome DispatchError Bytes} (hb : ∀ v, (k0 = some k → mass (some v) ≤ M) → Brief n (body v).2) :
    Replies M k0 n (keyOrInsertWith env k mk body) := by
  simp only [keyOrInsertWith]
  split
  · exact .done .panic
  · split
    · exact .done .panic
    · exact .loop hM hmk hb _

private theorem Replies.keyRef {M : Nat} {k0 : Option Bytes} {n : Nat} {env : Env} {k : Bytes} {next : Option Value → Prog Bytes}
    (h : ∀ o, (k0 = some k → mass o ≤ M) → Replies M k0 n (next o)) : Replies M k0 n (Hop.keyRef env k next) := by
  simp only [Hop.keyRef]
  split
  · exact .done .panic
  · split
    · exact .done .panic
    · exact .read h

private theorem Replies.resolve {M : Nat} {k0 : Option Bytes} {n : Nat} {r : Request} {k : Bytes} {t : KeyType} {next : KeyType → Prog Bytes}
    (h : ∀ t, Replies M k0 n (next t)) : Replies M k0 n (resolveKeyType r k t next) := by
  simp only [resolveKeyType]
  split
  · exact h _
  · exact .read fun _ _ => h _

private theorem args_zero_length {r : Request} {l : List Bytes} (hl : r.argsFrom 0 = some l) : argBytes l ≤ r.buf.length := by
  simp only [Request.argsFrom] at hl
  split at hl
  · cases hl
  · rename_i hc
    cases hl
    obtain ⟨c, hc⟩ := Nat.exists_eq_succ_of_ne_zero hc
    simp only [Nat.sub_zero, hc, Request.collect]
    cases ha : r.arg 0 with
    | none => simp [argBytes]
    | some k =>
      obtain ⟨p, hp, he, hb⟩ := arg_zero ha
      have := collect_length c hp hb
      simp only [argBytes, List.map_cons, List.sum_cons, Nat.zero_add] at this ⊢
      omega

private theorem sum_keys (m : BMap) : argBytes (m.map Prod.fst) ≤ (m.map fun e => 5 + e.1.length + e.2.length).sum := by
  induction m with
  | nil => exact Nat.le_refl _
  | cons e m ih => simp only [argBytes, List.map_cons, List.sum_cons] at ih ⊢; omega

private theorem mass_some {v : Value} : mass (some v) = max 8 (valueSize v) := rfl

private theorem Replies.float {M n : Nat} (hM : 8 ≤ M) {k0 : Option Bytes} {env : Env} {k : Bytes} (f : F64) {resp : Bytes} (hn : resp.length + 13 ≤ n) :
    Replies M k0 n (incrementFloatBy env k f resp) :=
  .orInsert hM (default_payload _) fun v _ => by
    cases v <;> first | exact .err | exact .ok (by rw [writeFloat_length]; exact hn)

private theorem Replies.int {M n : Nat} (hM : 8 ≤ M) {k0 : Option Bytes} {env : Env} {k : Bytes} (i : Int64) {resp : Bytes} (hn : resp.length + 13 ≤ n) :
    Replies M k0 n (incrementIntBy env k i resp) :=
  .orInsert hM (default_payload _) fun v _ => by
    cases v <;> simp only [] <;> first
      | exact .err
      | (split <;> first | exact .panic | exact .ok (by rw [writeInt_length]; exact hn))

private theorem Replies.append {M n : Nat} (hM : 8 ≤ M) {env : Env} {r : Request} {resp : Bytes} (hn : resp.length + 5 + M + r.buf.length ≤ n) :
    Replies M (r.arg 0) n (dispatchAppend env r resp) := by
  refine .orErr fun k hk => .orErr fun l hl => .resolve fun t => ?_
  have hlen := args_length hk hl
  cases t with
  | bytes =>
    refine .orInsert hM (default_payload _) fun v hv => ?_
    cases v with
    | bytes b =>
      refine .some fun out ho => ?_
      have := hv hk
      have h2 := foldl_append_length l b
      simp only [mass, valueSize] at this
      rw [writeBytes_length ho]; omega
    | _ => exact .err
  | list =>
    refine .orInsert hM (default_payload _) fun v hv => ?_
    cases v with
    | list b =>
      refine .some fun out ho => ?_
      have := hv hk
      simp only [mass, valueSize] at this
      rw [writeList_length ho]
      simp only [argBytes, List.map_append, List.sum_append] at hlen ⊢
      omega
    | _ => exact .err
  | string =>
    refine .orInsert hM (default_payload _) fun v hv => ?_
    cases v with
    | string b =>
      refine .some fun out ho => ?_
      have := hv hk
      have h2 := pushStrs_length l b
      simp only [mass, valueSize] at this
      rw [writeStr_length ho]; omega
    | _ => exact .err
  | _ => exact .done .err

private theorem Replies.set {M n : Nat} (hM : 8 ≤ M) {env : Env} {r : Request} {resp : Bytes} (hn : resp.length + 5 + M + r.buf.length ≤ n) :
    Replies M (r.arg 0) n (dispatchSet env r resp) := by
  refine .orErr fun k hk => ?_
  replace hk := key_arg hk
  split
  · exact .done .err
  · have h1 : ∀ x, r.arg 1 = some x → 4 + x.length ≤ r.buf.length := fun x hx => by
      have := arg_one_length hk hx
      omega
    have h2 : ∀ l, r.argsFrom 1 = some l → argBytes l ≤ r.buf.length := fun l hl => by
      have := args_length hk hl
      omega
    have hd := fun t => default_payload t
    refine .resolve fun t => ?_
    cases t with
    | bytes =>
      refine .orErr fun x hx => .remove hM fun _ _ => .orInsert hM (hd _) fun v _ => ?_
      have := h1 x hx
      cases v <;> first | exact .err | exact .some fun out ho => by rw [writeBytes_length ho]; omega
    | boolean =>
      refine .orErr fun x hx => .remove hM fun _ _ => .orInsert hM (hd _) fun v _ => ?_
      cases v <;> first | exact .err | exact .ok (by rw [writeBool_length]; omega)
    | float =>
      refine .orErr fun x hx => .remove hM fun _ _ => .orInsert hM (hd _) fun v _ => ?_
      cases v <;> first | exact .err | exact .ok (by rw [writeFloat_length]; omega)
    | integer =>
      refine .orErr fun x hx => .remove hM fun _ _ => .orInsert hM (hd _) fun v _ => ?_
      cases v <;> first | exact .err | exact .ok (by rw [writeInt_length]; omega)
    | list =>
      refine .orErr fun x hx => .remove hM fun _ _ => .orInsert hM (hd _) fun v _ => ?_
      have := h2 x hx
      cases v <;> first | exact .err | exact .some fun out ho => by rw [writeList_length ho]; omega
    | map =>
      refine .orErr fun x hx => .remove hM fun _ _ => .orInsert hM (hd _) fun v _ => ?_
      simp only [Option.map_eq_some_iff] at hx
      obtain ⟨l, hl, rfl⟩ := hx
      have := h2 l hl
      have hc := convMapAux_payload [] l
      simp only [List.map_nil, List.sum_nil] at hc
      cases v <;> simp only [] <;> first
        | exact .err
        | (split
           · rename_i ho; exact .ok (by rw [writeMap_length ho]; simp only [convMap]; omega)
           · exact .panic)
    | set =>
      refine .orErr fun x hx => .remove hM fun _ _ => .orInsert hM (hd _) fun v _ => ?_
      simp only [Option.map_eq_some_iff] at hx
      obtain ⟨l, hl, rfl⟩ := hx
      have := h2 l hl
      have hc := convSet_payload l []
      simp only [List.map_nil, List.sum_nil] at hc
      cases v <;> simp only [] <;> first
        | exact .err
        | (split
           · rename_i ho; exact .ok (by rw [writeSet_length ho]; simp only [convSet]; omega)
           · exact .panic)
    | string =>
      refine .orErr fun x hx => .remove hM fun _ _ => .orInsert hM (hd _) fun v _ => ?_
      simp only [Option.bind_eq_some_iff, convStr] at hx
      obtain ⟨b, hb, hx⟩ := hx
      have := h1 b hb
      rw [← strBytes_fromUtf8 hx] at this
      cases v <;> first | exact .err | exact .some fun out ho => by rw [writeStr_length ho]; omega

private theorem Replies.rename {M n : Nat} (hM : 8 ≤ M) {k0 : Option Bytes} {env : Env} {r : Request} {resp : Bytes} (hn : resp.length + 5 + M + r.buf.length ≤ n) :
    Replies M k0 n (dispatchRename env r resp) := by
  simp only [dispatchRename]
  split
  · exact .done .err
  · refine .orErr fun k hk => .orErr fun x hx => .read fun _ _ => ?_
    have := arg_one_length hk hx
    simp only []
    split
    · exact .done .err
    · refine .read fun _ _ => ?_
      simp only []
      split
      · exact .done .err
      · refine .remove hM fun o _ => ?_
        cases o with
        | none => exact .done .err
        | some v => exact .onKey (fun _ _ => .done (.some fun out ho => by rw [writeBytes_length ho]; omega)) fun _ _ => .inr (.done _)

private theorem Replies.allExist {M n : Nat} {k0 : Option Bytes} {next : Bool → Prog Bytes} (h : ∀ b, Replies M k0 n (next b)) (ks : List Bytes) :
    Replies M k0 n (allExist next ks) := by
  induction ks with
  | nil => exact h _
  | cons k ks ih =>
    refine .read fun o _ => ?_
    simp only []
    split
    · exact ih
    · exact h _

private theorem Replies.allAre {M n : Nat} {k0 : Option Bytes} {t : KeyType} {next : Bool → Prog Bytes} (h : ∀ b, Replies M k0 n (next b)) (ks : List Bytes) :
    Replies M k0 n (allAre t next ks) := by
  induction ks with
  | nil => exact h _
  | cons k ks ih =>
    refine .read fun o _ => ?_
    simp only []
    split
    · exact ih
    · exact h _

private theorem Replies.statsLoop {M n : Nat} {k0 : Option Bytes} {next : BMap → Prog Bytes} (cs : List Metric) : ∀ (m : BMap) (b : Nat),
    (∀ m' : BMap, (m'.map fun e => 5 + e.1.length + e.2.length).sum ≤ b → Replies M k0 n (next m')) →
    (m.map fun e => 5 + e.1.length + e.2.length).sum + (cs.map fun c => 13 + (ascii c.name).length).sum ≤ b → Replies M k0 n (statsLoop next cs m) := by
  induction cs with
  | nil => exact fun m b h hb => h m hb
  | cons c cs ih =>
    intro m b h hb
    simp only [List.map_cons, List.sum_cons] at hb
    refine .onCtr fun o => ?_
    cases o with
    | none => exact ih _ b h (by omega)
    | some n =>
      simp only []
      split
      · have := mapInsert_payload m (ascii c.name) (i64Bytes (Int64.ofNat n))
        rw [i64Bytes_length] at this
        exact ih _ b h (by omega)
      · exact ih _ b h (by omega)

private theorem replies_command {M n : Nat} (hM : 8 ≤ M) (env : Env) (r : Request) (resp : Bytes)
    (hn : r.commandId ≠ .stats → resp.length + 5 + M + r.buf.length ≤ n) (hs : r.commandId = .stats → resp.length + 97 ≤ n) :
    Replies M (r.arg 0) n (command env r resp) := by
  simp only [command]
  cases hc : r.commandId with
  | append => exact .append hM (hn (by rw [hc]; decide))
  | set => exact .set hM (hn (by rw [hc]; decide))
  | rename => exact .rename hM (hn (by rw [hc]; decide))
  | decrementBy =>
    have hn := hn (by rw [hc]; decide)
    refine .orErr fun k hk => ?_
    split
    · split
      · exact .int hM _ (by omega)
      · exact .done .panic
    · split
      · exact .float hM _ (by omega)
      · exact .done .err
  | incrementBy =>
    have hn := hn (by rw [hc]; decide)
    refine .orErr fun k hk => ?_
    split
    · exact .int hM _ (by omega)
    · split
      · exact .float hM _ (by omega)
      · exact .done .err
  | decrement =>
    have hn := hn (by rw [hc]; decide)
    refine .orErr fun k hk => ?_
    split
    · exact .float hM _ (by omega)
    · exact .int hM _ (by omega)
  | increment =>
    have hn := hn (by rw [hc]; decide)
    refine .orErr fun k hk => ?_
    split
    · exact .float hM _ (by omega)
    · exact .int hM _ (by omega)
  | delete =>
    have hn := hn (by rw [hc]; decide)
    simp only [dispatchDelete]
    split
    · exact .done .err
    · refine .orErr fun k hk => .remove hM fun o _ => ?_
      obtain ⟨p, -, h1, h2⟩ := arg_zero (key_arg hk)
      cases o with
      | none => exact .done .err
      | some v => exact .done (.some fun out ho => by rw [writeBytes_length ho]; omega)
  | echo =>
    have hn := hn (by rw [hc]; decide)
    simp only [dispatchEcho]
    split
    · rename_i l hl
      have := args_zero_length hl
      exact .done (.some fun out ho => by rw [writeList_length ho]; omega)
    · exact .done (.some fun out ho => by rw [writeList_length ho]; simp only [argBytes, List.map_nil, List.sum_nil]; omega)
  | «exists» =>
    have hn := hn (by rw [hc]; decide)
    simp only [dispatchExists]
    split
    · exact .done .err
    · exact .orErr fun _ _ => .allExist (fun _ => .done (.ok (by rw [writeBool_length]; omega))) _
  | get =>
    have hn := hn (by rw [hc]; decide)
    refine .orErr fun k hk => .keyRef fun o ho => ?_
    cases o with
    | none => exact .done .err
    | some v =>
      have hv := ho (key_arg hk)
      rw [mass_some] at hv
      have ok : Replies M (r.arg 0) n (Prog.done (.ofOption (Response.writeValue env resp v))) :=
        .done (.some fun out ho => by rw [writeValue_length ho]; omega)
      simp only []
      split
      · split
        · exact .done .err
        · exact ok
      · exact ok
  | is =>
    have hn := hn (by rw [hc]; decide)
    exact .orErr fun _ _ => .orErr fun _ _ => .allAre (fun _ => .done (.ok (by rw [writeBool_length]; omega))) _
  | keys =>
    have hn := hn (by rw [hc]; decide)
    refine .orErr fun k hk => .resolve fun t => ?_
    cases t with
    | map =>
      refine .keyRef fun o ho => ?_
      have hv := ho (key_arg hk)
      split
      · exact .done .err
      · rename_i m
        refine .done (.some fun out ho => ?_)
        have h1 := sum_keys (env.mapOrd m)
        rw [((env.mapOrd_perm m).map fun e => 5 + e.1.length + e.2.length).sum_nat] at h1
        simp only [mass, valueSize] at hv
        rw [writeList_length ho]
        omega
      · exact .done .err
    | _ => exact .done .err
  | length =>
    have hn := hn (by rw [hc]; decide)
    have hl : ∀ t k, Replies M (r.arg 0) n (lengthAs env t k resp) := fun t k => .keyRef fun o _ => by
      cases o with
      | none => exact .done .err
      | some v =>
        simp only []
        split
        · exact .done .err
        · exact .done (.ok (by rw [writeInt_length]; omega))
    refine .orErr fun k _ => .resolve fun t => ?_
    cases t <;> first | exact .done .err | exact hl _ _
  | stats =>
    have hs := hs hc
    simp only [dispatchStats]
    split
    · exact .done .err
    · exact .statsLoop _ _ 90 (fun m hm => .done (.some fun out ho => by rw [writeMap_length ho]; omega)) (by decide)
  | type =>
    have hn := hn (by rw [hc]; decide)
    refine .orErr fun k _ => ?_
    split
    · exact .done .err
    · refine .read fun o _ => ?_
      cases o with
      | none => exact .done .err
      | some v => exact .done (.ok (by rw [writeInt_length]; omega))

private theorem replies_dispatch {M n : Nat} (hM : 8 ≤ M) (env : Env) (r : Request) (resp : Bytes)
    (hn : r.commandId ≠ .stats → resp.length + 5 + M + r.buf.length ≤ n) (hs : r.commandId = .stats → resp.length + 97 ≤ n) :
    Replies M (r.arg 0) n (dispatch env r resp) := by
  refine (replies_command hM env r resp hn hs).andThen (fun o => ?_) (fun o ho => ?_)
  · have hi : ∀ m (q : Outcome DispatchError Bytes), Resting (incrementMetric env m (.done q)) := fun m q => .onCtr fun o => by
      split <;> exact .done _
    cases o <;> first | exact hi _ _ | exact .done _
  · have hi : ∀ m (q : Outcome DispatchError Bytes), Brief n q → Replies M (r.arg 0) n (incrementMetric env m (.done q)) := fun m q hq => .onCtr fun o => by
      split
      · exact .done hq
      · exact .done .panic
    cases o <;> first | exact hi _ _ ho | exact .done ho

/-! ## C199 -/

private theorem Replies.quiet {M n : Nat} {k0 : Option Bytes} {p : Prog Bytes} (h : Replies M k0 n p) (hq : Resting p) : ∀ {db : Db}, Brief n (p.run db).1 := by
  induction h with
  | done h => exact h
  | onKey => cases hq
  | onCtr _ ih => cases hq with | onCtr hq => exact ih _ (hq _)

private theorem Replies.run {M n : Nat} {k0 : Option Bytes} {p : Prog Bytes} (h : Replies M k0 n p) : ∀ {db : Db}, (∀ k, k0 = some k → mass (db.keys k) ≤ M) →
    Brief n (p.run db).1 := by
  induction h with
  | done h => exact fun _ => h
  | onCtr _ ih => exact fun h => ih _ h
  | @onKey k upd next hr hu ih =>
    intro db hd
    cases hu (db.keys k) (hd k) with
    | inr hq => exact (hr (db.keys k) (hd k)).quiet hq
    | inl hm =>
      refine ih (db.keys k) (hd k) fun k' hk' => ?_
      simp only [Db.setKey]
      by_cases h : k' = k
      · subst h; simp only [if_true]; exact hm hk'
      · simp only [h, if_false]; exact hd k' hk'

/-- What there is under a key, in bytes on the wire; a missing value and one of fewer than 8 bytes are taken for one of 8. -/
def Spec.sizeAt (s : Store) (k : Option Bytes) : Nat :=
  match k.bind s with
  | none => 8
  | some v => max 8 (valueSize v)

/-- **C199.** Any request, built, parsed or malformed, that succeeds: its response is at most 5 bytes longer than the request and what was stored under
its first argument. A response to Stats is of at most 97 bytes. -/
theorem C199_reply (env : Env) (r : Request) (resp : Bytes) (db : Db) (out : Bytes) (h : ((dispatch env r resp).run db).1 = .ok out) :
    out.length ≤ resp.length + if r.commandId = .stats then 97 else 5 + sizeAt db.keys (r.arg 0) + r.buf.length := by
  have hM : 8 ≤ sizeAt db.keys (r.arg 0) := by simp only [sizeAt]; split <;> omega
  refine (replies_dispatch hM env r resp (n := resp.length + if r.commandId = .stats then 97 else 5 + sizeAt db.keys (r.arg 0) + r.buf.length)
    (fun hc => ?_) (fun hc => ?_)).run (fun k hk => ?_) out h
  · simp only [hc, if_false]; omega
  · simp only [hc, if_true]; omega
  · simp only [hk, sizeAt, Option.bind_some]
    cases hv : db.keys k <;> simp only [mass] <;> exact Nat.le_refl _

private theorem Replies.still {M n : Nat} {k0 : Option Bytes} {p : Prog Bytes} (h : Replies M k0 n p) {db : Db} (hd : ∀ k, mass (db.keys k) ≤ M) :
    Replies M k0 n (p.step db).1 := by
  cases h with
  | done h => exact .done h
  | onKey hr _ => exact hr _ fun _ => hd _
  | onCtr h => exact h _

private theorem Contained.mass {α} {ks : List Bytes} {total : Nat} {p : Pool α} (h : Contained ks total p) (k : Bytes) : mass (p.db.keys k) ≤ 8 + total := by
  obtain ⟨hout, ns, -, ht⟩ := h
  have hsum : ∀ l : List Bytes, k ∈ l → Hop.mass (p.db.keys k) ≤ weigh l p.db.keys := fun l hl => by
    induction l with
    | nil => cases hl
    | cons a l ih =>
      simp only [weigh, List.map_cons, List.sum_cons] at ih ⊢
      cases List.mem_cons.mp hl with
      | inl h => subst h; omega
      | inr h => have := ih h; omega
  by_cases hk : k ∈ ks
  · have := hsum ks hk; omega
  · rw [hout k hk]; simp only [Hop.mass]; omega

private theorem replies_exec {ks : List Bytes} (hn : ks.Nodup) {total : Nat} (k0 : Nat → Option Bytes) (n : Nat → Nat) (sched : List Nat) :
    ∀ {p : Pool Bytes}, Contained ks total p → (∀ i t, p.threads[i]? = some t → Replies (8 + total) (k0 i) (n i) t) →
    ∀ i t, (p.exec sched).threads[i]? = some t → Replies (8 + total) (k0 i) (n i) t := by
  induction sched with
  | nil => exact fun _ h => h
  | cons j sched ih =>
    intro p hf h
    refine ih (hf.step hn j) fun i t hi => ?_
    simp only [Pool.stepAt] at hi
    cases hj : p.threads[j]? with
    | none => simp only [hj] at hi; exact h i t hi
    | some u =>
      simp only [hj] at hi
      by_cases hij : j = i
      · subst hij
        rw [List.getElem?_set_self (List.getElem?_eq_some_iff.mp hj).1, Option.some.injEq] at hi
        subst hi
        exact (h j u hj).still hf.mass
      · rw [List.getElem?_set_ne hij] at hi
        exact h i t hi

/-- **C199, at once.** Any requests, built, parsed or malformed, executed at once by as many threads, in any order of their steps, at any moment:
an answer that has been given is at most 13 bytes longer than the request it answers, what was stored to begin with, and all requests, with two bytes for each.
A response to Stats is of at most 97 bytes. -/
theorem C199_at_once (env : Env) (rs : List (Request × Bytes)) (db : Db) (sched : List Nat) (ks : List Bytes) (hn : ks.Nodup)
    (hk : ∀ k v, db.keys k = some v → k ∈ ks) (i : Nat) (r : Request) (resp out : Bytes) (hr : rs[i]? = some (r, resp))
    (ho : (Pool.exec ⟨rs.map fun r => dispatch env r.1 r.2, db⟩ sched).threads[i]? = some (.done (.ok out))) :
    out.length ≤ resp.length + if r.commandId = .stats then 97 else
      13 + r.buf.length + stored ks db.keys + (rs.map fun r => r.1.buf.length + 2).sum := by
  obtain ⟨js, hnd, hfit⟩ := fits_requests env rs db ks hn hk
  have h := replies_exec hnd (fun i => (rs[i]?).bind fun r => r.1.arg 0)
    (fun i => match rs[i]? with
      | none => 0
      | some r => r.2.length + if r.1.commandId = .stats then 97 else 13 + r.1.buf.length + stored ks db.keys + (rs.map fun r => r.1.buf.length + 2).sum)
    sched hfit (fun i t hi => by
      simp only [List.getElem?_map, Option.map_eq_some_iff] at hi
      obtain ⟨r, hr, rfl⟩ := hi
      simp only [hr, Option.bind_some]
      refine replies_dispatch (by omega) env r.1 r.2 (fun hc => ?_) (fun hc => ?_)
      · simp only [hc, if_false]; omega
      · simp only [hc, if_true]; omega) i _ ho
  simp only [hr, Option.bind_some] at h
  cases h with
  | done h => exact h out rfl

private def answerLength : Outcome DispatchError Bytes → Option Nat
  | .ok out => some out.length
  | _ => none

/-- The bound for Stats is met when all three counters are there. -/
example (m : Mode) : answerLength ((dispatch (sampleEnv m) (call .stats none []) []).run { keys := fun _ => none, ctrs := fun _ => some 1 }).1 = some 97 := by
  cases m <;> decide +kernel

/-- A Get: the answer is 5 bytes longer than what is stored. An Append: the answer holds what was there and what is appended. -/
example (m : Mode) : sizeAt (sampleDb [(ascii "k", .bytes (ascii "0123456789"))]).keys ((call .get none [ascii "k"]).arg 0) = 14 ∧
    answerLength ((dispatch (sampleEnv m) (call .get none [ascii "k"]) []).run (sampleDb [(ascii "k", .bytes (ascii "0123456789"))])).1 = some (5 + 14) ∧
    answerLength ((dispatch (sampleEnv m) (call .append none [ascii "k", ascii "abc"]) []).run (sampleDb [(ascii "k", .bytes (ascii "0123456789"))])).1 =
      some (5 + 14 + 3) := by
  cases m <;> decide +kernel

/-- A Get while another appends: the answer may be longer than what was stored to begin with. -/
example (m : Mode) : ∃ out, (Pool.exec ⟨[(call .get none [ascii "k"], []), (call .append none [ascii "k", ascii "abc"], ([] : Bytes))].map
      fun r => dispatch (sampleEnv m) r.1 r.2, sampleDb [(ascii "k", .bytes (ascii "0123456789"))]⟩ [1, 1, 1, 0, 0]).threads[0]? = some (.done (.ok out)) ∧
    answerLength (.ok out) = some (5 + 14 + 3) := by
  cases m <;> exact ⟨_, by rfl, by rfl⟩

end Hop
