import Verif.Spec.Adaptive
import Verif.Lemmas.Obeys
import Verif.Props.Reserved
import Verif.Props.Store

/-! # C29, C56, C83-C86: what holds at every moment whatever any number of clients do concurrently -/

namespace Hop

open Spec Prog

theorem Obeys.client {A : Bytes → Option Value → Prop} {R : Bytes → Option Value → Option Value → Prop} {env : Env}
    {c : Client} (h : ∀ r, Client.Issues c r → Permits A R r) (n : Nat) (past : List (Outcome DispatchError Bytes)) :
    Obeys A R (Client.prog env c n past) := by
  induction n generalizing past with
  | zero => trivial
  | succ n ih =>
    simp only [Client.prog]
    cases hc : c past with
    | none => trivial
    | some r => exact (h r.1 ⟨past, r.2, hc⟩).dispatch.andThen fun o => ih _

/-- What happens to each entry between two moments of a concurrent execution is allowed. -/
theorem clients_obey {A : Bytes → Option Value → Prop} {R : Bytes → Option Value → Option Value → Prop} {env : Env}
    {cs : List (Client × Nat)} (h : ∀ c ∈ cs, ∀ r, Client.Issues c.1 r → Permits A R r) (hrefl : ∀ k o, A k o → R k o o)
    (htrans : ∀ k a b c, A k a → R k a b → R k b c → R k a c) (hkeep : ∀ k a b, A k a → R k a b → A k b)
    {db : Db} (hdb : ∀ k, A k (db.keys k)) (s s' : List Nat) (k : Bytes) :
    A k (((Clients.pool env cs db).exec s).db.keys k) ∧
    R k (((Clients.pool env cs db).exec s).db.keys k) (((Clients.pool env cs db).exec (s ++ s')).db.keys k) := by
  have h0 : ∀ t ∈ (Clients.pool env cs db).threads, Obeys A R t := by
    intro t ht
    simp only [Clients.pool, List.mem_map] at ht
    obtain ⟨c, hc, rfl⟩ := ht
    exact Obeys.client (h c hc) _ _
  obtain ⟨h1, h2⟩ := Obeys.exec h0 hrefl htrans hkeep hdb s
  have h3 := fun k => hkeep k _ _ (hdb k) (h2 k)
  rw [Pool.exec_append]
  exact ⟨h3 k, (Obeys.exec h1 hrefl htrans hkeep h3 s').2 k⟩

/-! ## C83 Stored maps and sets never contain a repetition -/

theorem default_WF (t : KeyType) : WF (Value.default t) := by
  cases t <;> simp [Value.default, WF]

theorem permits_WF (r : Request) :
    Permits (fun _ o => ∀ v, o = some v → WF v) (fun _ _ o => ∀ v, o = some v → WF v) r where
  refl := fun _ _ h => h
  create := fun _ _ _ _ _ t _ _ v hv => by
    simp only [Option.some.injEq] at hv; subst hv; exact default_WF t
  change := fun _ _ _ _ v w ha _ hw x hx => by
    simp only [Option.some.injEq] at hx; subst hx; exact hw (ha v rfl)
  remove := fun _ _ _ _ _ v hv => by simp at hv
  move := fun _ _ _ _ _ v ha _ _ w hw => by
    simp only [Option.some.injEq] at hw; subst hw; exact ha v rfl

/-- A history of requests, one after the other. -/
theorem serveAll_obeys {A : Bytes → Option Value → Prop} {R : Bytes → Option Value → Option Value → Prop} {env : Env}
    (hrefl : ∀ k o, A k o → R k o o)
    (htrans : ∀ k a b c, A k a → R k a b → R k b c → R k a c) (hkeep : ∀ k a b, A k a → R k a b → A k b)
    (h : List (Request × Bytes)) (hp : ∀ r ∈ h, Permits A R r.1) (db : Db) (hdb : ∀ k, A k (db.keys k)) (k : Bytes) :
    A k ((serveAll env h db).2.keys k) := by
  induction h generalizing db with
  | nil => exact hdb k
  | cons r h ih =>
    have h1 := fun k => (hp r (by simp)).dispatch (env := env) (resp := r.2) |>.run hrefl htrans hkeep hdb k
    exact ih (fun r hr => hp r (by simp [hr])) _ (fun k => hkeep k _ _ (hdb k) (h1 k))

/-- C56 without conditions: any requests, well-formed or not, any outcomes, both build profiles. -/
theorem C56_well_formed_any (env : Env) (h : List (Request × Bytes)) (db : Db)
    (hwf : ∀ k v, db.keys k = some v → WF v) (k : Bytes) (v : Value) (hk : (serveAll env h db).2.keys k = some v) : WF v :=
  serveAll_obeys (fun _ _ h => h) (fun _ _ _ _ _ _ h => h) (fun _ _ _ _ h => h) h (fun r _ => permits_WF r.1) db hwf k v hk

example : (serveAll (sampleEnv .debug) [(call .set (some .map) [[1], [7], [8], [7], [9]], []), (call .append none [[1]], [])]
    (sampleDb [])).2.keys [1] = some (.map [([7], [9])]) := by decide +kernel

/-- C83. Any clients, issuing any requests (well-formed or not, chosen in the light of the answers), under
any schedule, in both build profiles: if no stored map or set has a repetition at the start, none has at any
moment. -/
theorem C83_well_formed_always (env : Env) (cs : List (Client × Nat)) (db : Db)
    (hwf : ∀ k v, db.keys k = some v → WF v) (sched : List Nat) (k : Bytes) (v : Value)
    (hk : ((Clients.pool env cs db).exec sched).db.keys k = some v) : WF v := by
  refine (clients_obey (A := fun _ o => ∀ v, o = some v → WF v) (R := fun _ _ o => ∀ v, o = some v → WF v)
    (cs := cs) (fun _ _ r _ => permits_WF r) (fun _ _ h => h) (fun _ _ _ _ _ _ h => h) (fun _ _ _ _ h => h) hwf sched [] k).1 v hk

/-- Beside C83: a client sets a set from items with a repetition while another one renames it away. -/
example : ((Clients.pool (sampleEnv .debug)
    [(Client.fixed [call .set (some .set) [[1], [7], [8], [7]]], 1), (Client.fixed [call .rename none [[1], [2]]], 1)]
    (sampleDb [])).exec [0, 0, 0, 0, 1, 1, 1, 1, 1, 0]).db.keys [2] = some (.set [[7], [8]]) := by decide +kernel

/-! ## C84 The type of an existing key is stable -/

/-- A request that can remove key `k` or put another value in its place. -/
def Spec.Replaces (k : Bytes) (r : Request) : Prop :=
  (r.commandId ∈ [.set, .delete, .rename] ∧ r.arg 0 = some k) ∨ (r.commandId = .rename ∧ r.arg 1 = some k)

theorem permits_kind {k : Bytes} {r : Request} (hn : ¬ Replaces k r) (t : KeyType) :
    Permits (fun k' o => k' = k → ∃ w, o = some w ∧ Value.kind w = t) (fun k' _ o => k' = k → ∃ w, o = some w ∧ Value.kind w = t) r where
  refl := fun _ _ h => h
  create := fun _ _ _ _ ha _ _ _ e => by obtain ⟨w, hw, -⟩ := ha e; cases hw
  change := fun _ _ _ _ x w ha hw _ e => by
    obtain ⟨y, hy, hkind⟩ := ha e
    simp only [Option.some.injEq] at hy
    subst hy
    exact ⟨w, rfl, hw.trans hkind⟩
  remove := fun h _ h0 _ _ e => by subst e; exact absurd (Or.inl ⟨h, h0⟩) hn
  move := fun h _ _ _ h1 _ _ _ _ e => by subst e; exact absurd (Or.inr ⟨h, h1⟩) hn

/-- C84. Any clients whose requests may be anything but Set, Delete and Rename of `k` and Rename to `k`: if `k`
exists at the start, then at every moment of every execution it exists and has the same type. -/
theorem C84_type_stable_always (env : Env) (cs : List (Client × Nat)) (k : Bytes)
    (hcs : ∀ c ∈ cs, ∀ r, Client.Issues c.1 r → ¬ Replaces k r) (db : Db) (v : Value) (hk : db.keys k = some v)
    (sched : List Nat) :
    ∃ w, ((Clients.pool env cs db).exec sched).db.keys k = some w ∧ w.kind = v.kind :=
  (clients_obey (A := fun k' o => k' = k → ∃ w, o = some w ∧ w.kind = v.kind)
    (R := fun k' _ o => k' = k → ∃ w, o = some w ∧ w.kind = v.kind) (cs := cs)
    (fun c hc r hr => permits_kind (hcs c hc r hr) _) (fun _ _ h => h) (fun _ _ _ _ _ _ h => h) (fun _ _ _ _ h => h)
    (by rintro _ rfl; exact ⟨v, hk, rfl⟩) sched [] k).1 rfl

/-- C29 without conditions on the requests: any history, in which any request may be malformed, fail or panic,
without Set, Delete and Rename of `k` and Rename to `k`. -/
theorem C29_type_stable_any (env : Env) (h : List (Request × Bytes)) (k : Bytes) (hn : ∀ r ∈ h, ¬ Replaces k r.1) (db : Db)
    (v : Value) (hk : db.keys k = some v) : ∃ w, (serveAll env h db).2.keys k = some w ∧ w.kind = v.kind :=
  serveAll_obeys (A := fun k' o => k' = k → ∃ w, o = some w ∧ Value.kind w = v.kind)
    (R := fun k' _ o => k' = k → ∃ w, o = some w ∧ Value.kind w = v.kind)
    (fun _ _ h => h) (fun _ _ _ _ _ _ h => h) (fun _ _ _ _ h => h) h (fun r hr => permits_kind (hn r hr) _) db
    (by rintro _ rfl; exact ⟨v, hk, rfl⟩) k rfl

/-- Beside C29: the key is used as a counter, appended to (an error) and another key is set. -/
example : ∃ w, (serveAll (sampleEnv .debug) [(call .increment none [[1]], []), (call .append (some .list) [[1], [2]], []),
    (call .set none [[2], [3]], [])] (sampleDb [([1], .integer 5)])).2.keys [1] = some w ∧ w.kind = .integer := by
  refine C29_type_stable_any _ _ [1] ?_ _ (.integer 5) (by decide +kernel)
  intro r hr
  simp only [List.mem_cons, List.not_mem_nil, or_false] at hr
  rcases hr with rfl | rfl | rfl <;> (unfold Replaces; decide +kernel)

/-- Beside C84: a client that reads the key's type and then increments it as a float or as an integer. -/
example : ∃ w, ((Clients.pool (sampleEnv .debug)
    [(fun past => match past with
      | [] => some (call .type none [[1]], [])
      | [.ok _] => some (call .increment none [[1]], [])
      | _ => none, 5), (Client.fixed [call .append (some .list) [[1], [9]], call .increment none [[1]]], 2)]
    (sampleDb [([1], .integer 5)])).exec [0, 1, 0, 1, 0, 1, 0, 1, 1]).db.keys [1] = some w ∧ w.kind = .integer := by
  refine C84_type_stable_always _ _ [1] ?_ _ (.integer 5) (by decide +kernel) _
  have h1 : ¬ Replaces [1] (call .type none [[1]]) := by unfold Replaces; decide +kernel
  have h2 : ¬ Replaces [1] (call .increment none [[1]]) := by unfold Replaces; decide +kernel
  have h3 : ¬ Replaces [1] (call .append (some .list) [[1], [9]]) := by unfold Replaces; decide +kernel
  intro c hc r hr
  simp only [List.mem_cons, List.not_mem_nil, or_false] at hc
  rcases hc with rfl | rfl
  · obtain ⟨past, resp, hp⟩ := hr
    dsimp only at hp
    split at hp <;> simp only [Option.some.injEq, Prod.mk.injEq, reduceCtorEq] at hp <;> obtain ⟨rfl, -⟩ := hp <;> assumption
  · obtain ⟨past, resp, hp⟩ := hr
    simp only [Client.fixed, Option.map_eq_some_iff, Prod.mk.injEq] at hp
    obtain ⟨a, ha, rfl, -⟩ := hp
    have := List.mem_of_getElem? ha
    simp only [List.mem_cons, List.not_mem_nil, or_false] at this
    rcases this with rfl | rfl <;> assumption

/-- It matters that the key exists at the start: of two clients that both find it missing, the second one to
create it changes its type, though there is no Set, Delete or Rename. -/
def C84_Created_Statement : Prop :=
  ∀ (env : Env) (cs : List (Client × Nat)) (k : Bytes), (∀ c ∈ cs, ∀ r, Client.Issues c.1 r → ¬ Replaces k r) →
    ∀ (db : Db) (s s' : List Nat) (v : Value), ((Clients.pool env cs db).exec s).db.keys k = some v →
      ∃ w, ((Clients.pool env cs db).exec (s ++ s')).db.keys k = some w ∧ w.kind = v.kind

theorem C84_created_false : ¬ C84_Created_Statement := by
  intro h
  obtain ⟨w, h1, h2⟩ := h (sampleEnv .release)
    [(Client.fixed [call .increment none [[1]]], 1), (Client.fixed [call .append (some .list) [[1], [9]]], 1)] [1] (by
      have h2 : ¬ Replaces [1] (call .increment none [[1]]) := by unfold Replaces; decide +kernel
      have h3 : ¬ Replaces [1] (call .append (some .list) [[1], [9]]) := by unfold Replaces; decide +kernel
      intro c hc r hr
      simp only [List.mem_cons, List.not_mem_nil, or_false] at hc
      rcases hc with rfl | rfl <;>
      · obtain ⟨past, resp, hp⟩ := hr
        simp only [Client.fixed, Option.map_eq_some_iff, Prod.mk.injEq] at hp
        obtain ⟨a, ha, rfl, -⟩ := hp
        have := List.mem_of_getElem? ha
        simp only [List.mem_cons, List.not_mem_nil, or_false] at this
        subst this; assumption)
    (sampleDb []) [0, 1, 1, 1] [0] (.list [[9]]) (by decide +kernel)
  have h3 : ((Clients.pool (sampleEnv .release)
    [(Client.fixed [call .increment none [[1]]], 1), (Client.fixed [call .append (some .list) [[1], [9]]], 1)]
    (sampleDb [])).exec ([0, 1, 1, 1] ++ [0])).db.keys [1] = some (.integer 0) := by decide +kernel
  rw [h3] at h1
  simp only [Option.some.injEq] at h1
  subst h1
  cases h2

/-- C54 for clients that issue any number of requests: a key that no request can change stays as it was. -/
theorem C54_untouched_always (env : Env) (cs : List (Client × Nat)) (k : Bytes)
    (hcs : ∀ c ∈ cs, ∀ r, Client.Issues c.1 r → ¬ Replaces k r ∧
      (r.commandId ∈ [.append, .decrement, .decrementBy, .increment, .incrementBy] → r.arg 0 ≠ some k)) (db : Db)
    (sched : List Nat) :
    ((Clients.pool env cs db).exec sched).db.keys k = db.keys k := by
  refine (clients_obey (A := fun k' o => k' = k → o = db.keys k) (R := fun k' _ o => k' = k → o = db.keys k)
    (cs := cs) ?_ (fun _ _ h => h) (fun _ _ _ _ _ _ h => h) (fun _ _ _ _ h => h) (by rintro _ rfl; rfl) sched [] k).1 rfl
  intro c hc r hr
  obtain ⟨hn, hn'⟩ := hcs c hc r hr
  have hcre : r.commandId ∈ creators → r.arg 0 = some k → False := by
    intro h h0
    by_cases hs : r.commandId = .set
    · exact hn (Or.inl ⟨by rw [hs]; decide, h0⟩)
    · refine hn' ?_ h0
      simp only [creators, List.mem_cons, List.not_mem_nil, or_false] at h ⊢
      rcases h with h | h | h | h | h | h <;> simp_all
  exact {
    refl := fun _ _ h => h
    create := fun h _ h0 _ _ _ _ _ e => by subst e; exact absurd h0 (hcre h)
    change := fun h _ h0 _ _ _ _ _ _ e => by subst e; exact absurd h0 (hcre h)
    remove := fun h _ h0 _ _ e => by subst e; exact absurd (Or.inl ⟨h, h0⟩) hn
    move := fun h _ _ _ h1 _ _ _ _ e => by subst e; exact absurd (Or.inr ⟨h, h1⟩) hn }

example : ((Clients.pool (sampleEnv .debug)
    [(Client.fixed [call .set none [[1], [2]], call .delete none [[1]]], 2), (Client.fixed [call .get none [[9]]], 1)]
    (sampleDb [([9], .integer 5)])).exec [0, 1, 0, 0, 0, 0, 1, 0, 0]).db.keys [9] = some (.integer 5) := by
  rw [C54_untouched_always]
  · decide +kernel
  · intro c hc r hr
    simp only [List.mem_cons, List.not_mem_nil, or_false] at hc
    rcases hc with rfl | rfl <;>
    · obtain ⟨past, resp, hp⟩ := hr
      simp only [Client.fixed, Option.map_eq_some_iff, Prod.mk.injEq] at hp
      obtain ⟨a, ha, rfl, -⟩ := hp
      have := List.mem_of_getElem? ha
      simp only [List.mem_cons, List.not_mem_nil, or_false] at this
      rcases this with rfl | rfl <;> (unfold Replaces; decide +kernel)

/-! ## C85 Internal keys under concurrency -/

/-- C85. Any clients none of whose requests is a Rename to the internal key `k`: between any two moments of
any execution the entry of `k` is either unchanged or has been removed; it is never created or given another
value. -/
theorem C85_reserved_only_vanish (env : Env) (cs : List (Client × Nat)) (k : Bytes) (hk : reserved k)
    (hcs : ∀ c ∈ cs, ∀ r, Client.Issues c.1 r → r.commandId = .rename → r.arg 1 ≠ some k) (db : Db) (s s' : List Nat) :
    ((Clients.pool env cs db).exec (s ++ s')).db.keys k = ((Clients.pool env cs db).exec s).db.keys k ∨
    ((Clients.pool env cs db).exec (s ++ s')).db.keys k = none := by
  refine (clients_obey (A := fun _ _ => True) (R := fun k' o o' => k' = k → o' = o ∨ o' = none)
    (cs := cs) ?_ (fun _ _ _ _ => Or.inl rfl) ?_ (fun _ _ _ _ _ => trivial) (fun _ => trivial) s s' k).2 rfl
  · intro c hc r hr
    have hn := hcs c hc r hr
    have hi : isInternal k = true := (isInternal_iff k).mpr hk
    exact {
      refl := fun _ _ _ _ => Or.inl rfl
      create := fun _ _ _ h _ _ _ _ e => by subst e; rw [hi] at h; cases h
      change := fun _ _ _ h _ _ _ _ _ e => by subst e; rw [hi] at h; cases h
      remove := fun _ _ _ _ _ _ => Or.inr rfl
      move := fun h _ _ _ h1 _ _ _ _ e => by subst e; exact absurd h1 (hn h) }
  · intro k' a b c _ h1 h2 e
    rcases h2 e with h | h
    · rw [h]; exact h1 e
    · exact Or.inr h

/-- C85, no removal: if moreover no request is a Set, Delete or Rename of `k`, it stays as it was. Appends,
counters and reads naming it as key change nothing. -/
theorem C85_reserved_stay (env : Env) (cs : List (Client × Nat)) (k : Bytes) (hk : reserved k)
    (hcs : ∀ c ∈ cs, ∀ r, Client.Issues c.1 r → ¬ Replaces k r) (db : Db) (sched : List Nat) :
    ((Clients.pool env cs db).exec sched).db.keys k = db.keys k := by
  refine (clients_obey (A := fun k' o => k' = k → o = db.keys k) (R := fun k' _ o => k' = k → o = db.keys k)
    (cs := cs) ?_ (fun _ _ h => h) (fun _ _ _ _ _ _ h => h) (fun _ _ _ _ h => h) (by rintro _ rfl; rfl) sched [] k).1 rfl
  intro c hc r hr
  have hn := hcs c hc r hr
  have hi : isInternal k = true := (isInternal_iff k).mpr hk
  exact {
    refl := fun _ _ h => h
    create := fun _ _ _ h _ _ _ _ e => by subst e; rw [hi] at h; cases h
    change := fun _ _ _ h _ _ _ _ _ e => by subst e; rw [hi] at h; cases h
    remove := fun h _ h0 _ _ e => by subst e; exact absurd (Or.inl ⟨h, h0⟩) hn
    move := fun h _ _ _ h1 _ _ _ _ e => by subst e; exact absurd (Or.inr ⟨h, h1⟩) hn }

/-- Beside C85: an Append (which panics) and a Delete of an internal key. -/
example : ((Clients.pool (sampleEnv .release)
    [(Client.fixed [call .append none [ascii "__hop__:a", [2]], call .increment none [ascii "__hop__:a"]], 2),
     (Client.fixed [call .delete none [ascii "__hop__:a"]], 1)]
    (sampleDb [(ascii "__hop__:a", .integer 5)])).exec [0]).db.keys (ascii "__hop__:a") = some (.integer 5) ∧
  ((Clients.pool (sampleEnv .release)
    [(Client.fixed [call .append none [ascii "__hop__:a", [2]], call .increment none [ascii "__hop__:a"]], 2),
     (Client.fixed [call .delete none [ascii "__hop__:a"]], 1)]
    (sampleDb [(ascii "__hop__:a", .integer 5)])).exec [0, 1, 0, 0, 1, 0]).db.keys (ascii "__hop__:a") = none := by
  decide +kernel

/-! ## C86 In release builds only internal keys make a request panic -/

/-- Every outcome the program can end with satisfies `Q`, whatever entries it finds. -/
def AllEnds {α} (Q : Outcome DispatchError α → Prop) : Prog α → Prop
  | .done r => Q r
  | .onKey _ _ next => ∀ o, AllEnds Q (next o)
  | .onCtr _ _ next => ∀ o, AllEnds Q (next o)

theorem AllEnds.andThen {α β : Type} {Q : Outcome DispatchError α → Prop} {Q' : Outcome DispatchError β → Prop} {p : Prog α}
    (hp : AllEnds Q p) {f : Outcome DispatchError α → Prog β} (hf : ∀ r, Q r → AllEnds Q' (f r)) : AllEnds Q' (p.andThen f) := by
  induction p with
  | done r => exact hf r hp
  | onKey k upd next ih => exact fun o => ih o (hp o)
  | onCtr m upd next ih => exact fun o => ih o (hp o)

theorem AllEnds.step {α} {Q : Outcome DispatchError α → Prop} {p : Prog α} (hp : AllEnds Q p) (db : Db) :
    AllEnds Q (p.step db).1 := by
  cases p with
  | done r => exact hp
  | onKey k upd next => exact hp _
  | onCtr m upd next => exact hp _

theorem AllEnds.exec {α} {Q : Outcome DispatchError α → Prop} {p : Pool α} {i : Nat} {t : Prog α}
    (hi : p.threads[i]? = some t) (ht : AllEnds Q t) (sched : List Nat) :
    ∃ t', (p.exec sched).threads[i]? = some t' ∧ AllEnds Q t' := by
  induction sched using snoc_induction with
  | h0 => exact ⟨t, hi, ht⟩
  | h1 s j ih =>
    obtain ⟨t', h1, h2⟩ := ih
    rw [Pool.exec_snoc]
    by_cases e : j = i
    · subst e
      exact ⟨_, (Pool.stepAt_self h1).1, h2.step _⟩
    · exact ⟨t', by rw [Pool.stepAt_other _ (Ne.symm e)]; exact h1, h2⟩

section calm

variable {env : Env} {r : Request} {resp : Bytes}

/-- Not a panic. -/
abbrev Calm {α} (p : Prog α) : Prop := AllEnds (· ≠ .panic) p

theorem Calm.orErr {α β : Type} {o : Option β} {e : DispatchError} {f : β → Prog α} (h : ∀ a, o = some a → Calm (f a)) :
    Calm (orErr o e f) := by
  cases o with
  | none => simp [Calm, AllEnds, Prog.orErr, Prog.fail]
  | some a => exact h a rfl

theorem Calm.fail {α} (e : DispatchError) : Calm (Prog.fail (α := α) e) := by simp [Calm, AllEnds, Prog.fail]

theorem Calm.keyRef {α} {k : Bytes} (hm : env.mode = .release) (hk : ¬ reserved k) {next : Option Value → Prog α}
    (h : ∀ o, Calm (next o)) : Calm (keyRef env k next) := by
  unfold Hop.keyRef
  rw [if_neg (by rw [isInternal_iff]; exact hk), if_neg (by simp [hm])]
  exact h

theorem Calm.keyOrInsertWith {α} {k : Bytes} (hm : env.mode = .release) (hk : ¬ reserved k) {mk : Value}
    {body : Value → Value × Outcome DispatchError α} (h : ∀ v, (body v).2 ≠ .panic) :
    Calm (keyOrInsertWith env k mk body) := by
  unfold Hop.keyOrInsertWith
  rw [if_neg (by rw [isInternal_iff]; exact hk), if_neg (by simp [hm])]
  generalize env.spins + 2 = n
  induction n with
  | zero => simp [Calm, AllEnds, keyOrInsertLoop]
  | succ n ih =>
    intro o
    cases o with
    | some v => exact h v
    | none => exact fun _ => ih

theorem Calm.resolveKeyType {α} {k : Bytes} {d : KeyType} {next : KeyType → Prog α} (h : ∀ t, Calm (next t)) :
    Calm (resolveKeyType r k d next) := by
  unfold Hop.resolveKeyType
  cases r.keyType with
  | some t => exact h t
  | none => exact fun o => h _

theorem Calm.allExist {α} {next : Bool → Prog α} (h : ∀ b, Calm (next b)) (ks : List Bytes) : Calm (allExist next ks) := by
  induction ks with
  | nil => exact h _
  | cons k ks ih => exact fun o => by (try dsimp only); split <;> first | exact ih | exact h _

theorem Calm.allAre {α} {t : KeyType} {next : Bool → Prog α} (h : ∀ b, Calm (next b)) (ks : List Bytes) :
    Calm (allAre t next ks) := by
  induction ks with
  | nil => exact h _
  | cons k ks ih => exact fun o => by (try dsimp only); split <;> first | exact ih | exact h _

theorem Calm.statsLoop {α} {next : BMap → Prog α} (h : ∀ m, Calm (next m)) (cs : List Metric) (m : BMap) :
    Calm (statsLoop next cs m) := by
  induction cs generalizing m with
  | nil => exact h _
  | cons c cs ih =>
    intro o
    cases o with
    | none => exact ih _
    | some n => dsimp only; split <;> exact ih _

theorem ofOption_calm {α} {o : Option α} (h : o ≠ none) : (Outcome.ofOption o : Outcome DispatchError α) ≠ .panic := by
  cases o with
  | none => exact absurd rfl h
  | some a => simp [Outcome.ofOption]

theorem addI64_release (a b : Int64) : addI64 .release a b = some (a + b) := by
  unfold addI64; split <;> rfl

theorem negI64_release (a : Int64) : negI64 .release a = some (0 - a) := by
  unfold negI64; split <;> rfl

theorem Calm.int {k : Bytes} (hm : env.mode = .release) (hk : ¬ reserved k) (a : Int64) :
    Calm (incrementIntBy env k a resp) := by
  refine Calm.keyOrInsertWith hm hk fun v => ?_
  cases v with
  | integer i => dsimp only; rw [hm, addI64_release]; simp
  | _ => simp

theorem Calm.float {k : Bytes} (hm : env.mode = .release) (hk : ¬ reserved k) (a : F64) :
    Calm (incrementFloatBy env k a resp) := by
  refine Calm.keyOrInsertWith hm hk fun v => ?_
  cases v <;> simp

theorem calm_command (hm : env.mode = .release)
    (hk : r.commandId ∈ .set :: valueCommands → ∀ k, r.arg 0 = some k → ¬ reserved k) : Calm (command env r resp) := by
  have hw := writeValue_release env hm resp
  unfold command
  cases hc : r.commandId <;> simp only [hc] at hk <;> dsimp only
  case append =>
    refine Calm.orErr fun k h0 => Calm.orErr fun args _ => Calm.resolveKeyType fun t => ?_
    have hk := hk (by decide) k h0
    cases t
    case bytes | list | string =>
      all_goals
        refine Calm.keyOrInsertWith hm hk fun v => ?_
        cases v <;> first
          | (simp only [ne_eq, reduceCtorEq, not_false_eq_true]; done)
          | exact ofOption_calm (hw (.bytes _))
          | exact ofOption_calm (hw (.list _))
          | exact ofOption_calm (hw (.string _))
    all_goals exact Calm.fail _
  case decrementBy =>
    refine Calm.orErr fun k h0 => ?_
    have hk := hk (by decide) k (Request.key_arg h0)
    split
    · rw [hm, negI64_release]; exact Calm.int hm hk _
    · split
      · exact Calm.float hm hk _
      · exact Calm.fail _
  case incrementBy =>
    refine Calm.orErr fun k h0 => ?_
    have hk := hk (by decide) k (Request.key_arg h0)
    split
    · exact Calm.int hm hk _
    · split
      · exact Calm.float hm hk _
      · exact Calm.fail _
  case increment | decrement =>
    all_goals
      refine Calm.orErr fun k h0 => ?_
      have hk := hk (by decide) k (Request.key_arg h0)
      split
      · exact Calm.float hm hk _
      · exact Calm.int hm hk _
  case delete =>
    unfold dispatchDelete
    split
    · exact Calm.fail _
    · refine Calm.orErr fun k _ o => ?_
      cases o with
      | none => exact Calm.fail _
      | some v => exact ofOption_calm (hw (.bytes _))
  case echo => unfold dispatchEcho; split <;> exact ofOption_calm (hw (.list _))
  case «exists» =>
    unfold dispatchExists
    split
    · exact Calm.fail _
    · exact Calm.orErr fun a _ => Calm.allExist (fun b => by simp [Calm, AllEnds]) _
  case get =>
    refine Calm.orErr fun k h0 => Calm.keyRef hm (hk (by decide) k (Request.key_arg h0)) fun o => ?_
    cases o with
    | none => exact Calm.fail _
    | some v =>
      dsimp only
      split
      · split
        · exact Calm.fail _
        · exact ofOption_calm (hw v)
      · exact ofOption_calm (hw v)
  case is => exact Calm.orErr fun t _ => Calm.orErr fun a _ => Calm.allAre (fun b => by simp [Calm, AllEnds]) _
  case keys =>
    refine Calm.orErr fun k h0 => Calm.resolveKeyType fun t => ?_
    cases t
    case map =>
      refine Calm.keyRef hm (hk (by decide) k (Request.key_arg h0)) fun o => ?_
      split
      · exact Calm.fail _
      · exact ofOption_calm (hw (.list _))
      · exact Calm.fail _
    all_goals exact Calm.fail _
  case length =>
    refine Calm.orErr fun k h0 => Calm.resolveKeyType fun t => ?_
    have hk := hk (by decide) k (Request.key_arg h0)
    cases t
    case boolean | float | integer => all_goals exact Calm.fail _
    all_goals
      refine Calm.keyRef hm hk fun o => ?_
      split
      · exact Calm.fail _
      · split
        · exact Calm.fail _
        · simp [Calm, AllEnds]
  case rename =>
    unfold dispatchRename
    split
    · exact Calm.fail _
    · refine Calm.orErr fun a _ => Calm.orErr fun b _ => fun o => ?_
      dsimp only
      split
      · exact Calm.fail _
      · intro o
        dsimp only
        split
        · exact Calm.fail _
        · intro o
          cases o with
          | none => exact Calm.fail _
          | some v => exact fun _ => ofOption_calm (hw (.bytes _))
  case set =>
    refine Calm.orErr fun k h0 => ?_
    have hk := hk (by decide) k (Request.key_arg h0)
    split
    · exact Calm.fail _
    · refine Calm.resolveKeyType fun t => ?_
      cases t <;> refine Calm.orErr fun a _ _ => Calm.keyOrInsertWith hm hk fun v => ?_
      case map =>
        cases v with
        | map old =>
          dsimp only
          split
          · simp
          · rename_i h; exact absurd h (hw (.map a))
        | _ => simp
      case set =>
        cases v with
        | set old =>
          dsimp only
          split
          · simp
          · rename_i h; exact absurd h (hw (.set a))
        | _ => simp
      all_goals
        cases v <;> first
          | (simp only [ne_eq, reduceCtorEq, not_false_eq_true]; done)
          | exact ofOption_calm (hw (.bytes _))
          | exact ofOption_calm (hw (.list _))
          | exact ofOption_calm (hw (.string _))
  case stats =>
    unfold dispatchStats
    split
    · exact Calm.fail _
    · exact Calm.statsLoop (fun m => show AllEnds _ (.done _) from ofOption_calm (hw (.map m))) _ _
  case type =>
    refine Calm.orErr fun k _ => ?_
    split
    · exact Calm.fail _
    · intro o
      cases o with
      | none => exact Calm.fail _
      | some t => simp [AllEnds]

theorem calm_dispatch (hm : env.mode = .release)
    (hk : r.commandId ∈ .set :: valueCommands → ∀ k, r.arg 0 = some k → ¬ reserved k) : Calm (dispatch env r resp) := by
  refine (calm_command hm hk).andThen fun o ho => ?_
  cases o with
  | ok a => intro o; dsimp only; rw [hm, addU_release]; simp [AllEnds]
  | err e => intro o; dsimp only; rw [hm, addU_release]; simp [AllEnds]
  | panic => exact absurd rfl ho
  | stuck => simp [countOutcome, AllEnds]

end calm

theorem AllEnds.client {env : Env} {c : Client} (h : ∀ r resp, Client.Issues c r → Calm (dispatch env r resp)) (n : Nat)
    (past : List (Outcome DispatchError Bytes)) (hp : ∀ o ∈ past, o ≠ .panic) :
    AllEnds (fun o => ∃ outs, o = .ok outs ∧ ∀ x ∈ outs, x ≠ Outcome.panic) (Client.prog env c n past) := by
  induction n generalizing past with
  | zero => exact ⟨past, rfl, hp⟩
  | succ n ih =>
    simp only [Client.prog]
    cases hc : c past with
    | none => exact ⟨past, rfl, hp⟩
    | some r =>
      refine (h r.1 r.2 ⟨past, r.2, hc⟩).andThen fun o ho => ih _ ?_
      intro x hx
      rcases List.mem_append.mp hx with hx | hx
      · exact hp x hx
      · simp only [List.mem_singleton] at hx; subst hx; exact ho

/-- C86. In a release build, whatever any other clients do concurrently and whatever is stored: none of the
requests of a client panics, provided none of them names an internal key as the key of an Append, a counter
command, Get, Keys, Length or Set. Its requests may be chosen in the light of the answers, and may be
malformed. -/
theorem C86_release_calm (env : Env) (hm : env.mode = .release) (cs : List (Client × Nat)) (db : Db) (i : Nat) (c : Client)
    (n : Nat) (hi : cs[i]? = some (c, n))
    (hc : ∀ r, Client.Issues c r → r.commandId ∈ .set :: valueCommands → ∀ k, r.arg 0 = some k → ¬ reserved k) (sched : List Nat)
    (out : Outcome DispatchError (List (Outcome DispatchError Bytes)))
    (hd : ((Clients.pool env cs db).exec sched).threads[i]? = some (.done out)) :
    ∃ outs, out = .ok outs ∧ ∀ o ∈ outs, o ≠ Outcome.panic := by
  have hstart : (Clients.pool env cs db).threads[i]? = some (Client.prog env c n []) := by
    simp only [Clients.pool, List.getElem?_map, hi, Option.map_some]
  obtain ⟨t, h1, h2⟩ := AllEnds.exec hstart
    (AllEnds.client (fun r resp hr => calm_dispatch hm (hc r hr)) n [] (by simp)) sched
  rw [hd] at h1
  simp only [Option.some.injEq] at h1
  subst h1
  exact h2

/-- Beside C86: an overflowing counter, next to another client's Get of an internal key, which panics. -/
example : (((Clients.pool (sampleEnv .release)
    [(Client.fixed [call .increment none [[1]], call .get none [[]]], 2),
     (Client.fixed [call .get none [ascii "__hop__:a"]], 1)]
    (sampleDb [([1], .integer Int64.maxValue)])).exec [0, 1, 0, 1, 0, 0, 0, 0]).threads =
    [.done (.ok [.ok (frame (.value (.integer Int64.minValue))), .err .keyUnspecified]), .done (.ok [.panic])]) := by
  rfl

/-! ## Further concrete cases -/

theorem sampleDb_integers_WF (k : Bytes) (i : Int64) : ∀ k' v, (sampleDb [(k, .integer i)]).keys k' = some v → WF v := by
  intro k' v h
  simp only [sampleDb, List.lookup] at h
  split at h
  · cases h; trivial
  · cases h

theorem issued_fixed {rs : List Request} {r : Request} (h : Client.Issues (Client.fixed rs) r) : r ∈ rs := by
  obtain ⟨past, resp, hp⟩ := h
  simp only [Client.fixed, Option.map_eq_some_iff, Prod.mk.injEq] at hp
  obtain ⟨a, ha, rfl, -⟩ := hp
  exact List.mem_of_getElem? ha

/-- Whatever is stored after these two requests. -/
example (k : Bytes) (v : Value) (hk : (serveAll (sampleEnv .debug) [(call .set (some .map) [[1], [7], [8], [7], [9]], []), (call .append none [[1]], [])]
    (sampleDb [([1], .integer 5)])).2.keys k = some v) : WF v :=
  C56_well_formed_any _ _ _ (sampleDb_integers_WF _ _) k v hk

/-- Whatever is stored at any moment of the two clients above. -/
example (sched : List Nat) (k : Bytes) (v : Value) (hk : ((Clients.pool (sampleEnv .debug)
    [(Client.fixed [call .set (some .set) [[1], [7], [8], [7]]], 1), (Client.fixed [call .rename none [[1], [2]]], 1)]
    (sampleDb [([1], .integer 5)])).exec sched).db.keys k = some v) : WF v :=
  C83_well_formed_always _ _ _ (sampleDb_integers_WF _ _) sched k v hk

/-- A reserved key that some client deletes. -/
example (s s' : List Nat) :
    let p := fun s => ((Clients.pool (sampleEnv .release)
      [(Client.fixed [call .append none [ascii "__hop__:a", [2]], call .increment none [ascii "__hop__:a"]], 2),
       (Client.fixed [call .delete none [ascii "__hop__:a"]], 1)] (sampleDb [(ascii "__hop__:a", .integer 5)])).exec s).db.keys (ascii "__hop__:a")
    p (s ++ s') = p s ∨ p (s ++ s') = none := by
  refine C85_reserved_only_vanish _ _ _ (by decide) ?_ _ s s'
  intro c hc r hr hren
  simp only [List.mem_cons, List.not_mem_nil, or_false] at hc
  rcases hc with rfl | rfl
  · have := issued_fixed hr
    simp only [List.mem_cons, List.not_mem_nil, or_false] at this
    rcases this with rfl | rfl <;> exact absurd hren (by decide +kernel)
  · cases List.mem_singleton.mp (issued_fixed hr)
    exact absurd hren (by decide +kernel)

/-- A reserved key that clients append to and increment. -/
example (sched : List Nat) : ((Clients.pool (sampleEnv .release)
      [(Client.fixed [call .append none [ascii "__hop__:a", [2]], call .increment none [ascii "__hop__:a"]], 2),
       (Client.fixed [call .get none [[1]]], 1)] (sampleDb [(ascii "__hop__:a", .integer 5)])).exec sched).db.keys (ascii "__hop__:a") =
    some (.integer 5) := by
  rw [C85_reserved_stay _ _ _ (by decide)]
  · decide +kernel
  · intro c hc r hr
    simp only [List.mem_cons, List.not_mem_nil, or_false] at hc
    rcases hc with rfl | rfl
    · have := issued_fixed hr
      simp only [List.mem_cons, List.not_mem_nil, or_false] at this
      rcases this with rfl | rfl <;> (unfold Replaces; decide +kernel)
    · cases List.mem_singleton.mp (issued_fixed hr)
      unfold Replaces; decide +kernel

/-- A client of a release build that keeps away from reserved keys, beside one that does not. -/
example (sched : List Nat) (out : Outcome DispatchError (List (Outcome DispatchError Bytes)))
    (hd : ((Clients.pool (sampleEnv .release)
      [(Client.fixed [call .append none [[1], [2]], call .increment none [[1]]], 2),
       (Client.fixed [call .increment none [ascii "__hop__:a"]], 1)] (sampleDb [])).exec sched).threads[0]? = some (.done out)) :
    ∃ outs, out = .ok outs ∧ ∀ o ∈ outs, o ≠ Outcome.panic := by
  refine C86_release_calm _ rfl _ _ 0 _ 2 rfl ?_ sched out hd
  intro r hr _ k hk
  have := issued_fixed hr
  simp only [List.mem_cons, List.not_mem_nil, or_false] at this
  rcases this with rfl | rfl
  · have h : (call .append none [[1], [2]]).arg 0 = some [1] := by decide +kernel
    rw [h] at hk; cases hk; decide
  · have h : (call .increment none [[1]]).arg 0 = some [1] := by decide +kernel
    rw [h] at hk; cases hk; decide

end Hop
