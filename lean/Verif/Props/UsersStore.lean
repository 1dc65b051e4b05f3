import Verif.Props.UsersFair
import Verif.Props.Adaptive
import Verif.Props.Concurrent

/-! # C153: what is stored while users make calls of all kinds -/

namespace Hop

open Spec Prog

/-- The requests among calls, with how far they are. -/
def Spec.requestMade : Made → Option ((Request × Bytes) × Prog Bytes)
  | (.dispatch r resp, .command q) => some ((r, resp), q)
  | _ => none

theorem requestMade_zip (calls : List HopCall) (ts : List HopThread) (h : KindsOf calls ts) :
    (calls.zip ts).filterMap requestMade = (requestCalls calls).zip (commandThreads ts) ∧
    (requestCalls calls).length = (commandThreads ts).length := by
  unfold KindsOf at h
  induction calls generalizing ts with
  | nil =>
    cases ts with
    | nil => exact ⟨rfl, rfl⟩
    | cons t ts => cases h
  | cons c calls ih =>
    cases ts with
    | nil => cases h
    | cons t ts =>
      simp only [List.map_cons, List.cons.injEq] at h
      have := ih ts h.2
      have h1 := h.1
      unfold requestCalls commandThreads at this ⊢
      cases c <;> cases t <;> first
        | (cases h1; done)
        | (simp only [List.zip_cons_cons, List.filterMap_cons, requestMade, commandOf, List.length_cons]
           first | exact this | exact ⟨by rw [this.1], by rw [this.2]⟩)

/-- C153. What is stored is what the requests would store if they were made by clients of their own, each making one request and
nothing else; and these clients would be answered alike (a Stats request may show other numbers of sessions). -/
theorem C153_requests (env : Env) (shard : UInt32 → Nat) (us : List User) (h : HopEngine) (sched : List Nat) :
    let p := (userPool us h).exec env shard sched
    ∃ (l : List ((Request × Bytes) × Prog Bytes)) (turns : List Nat),
      let alone := (Pool.start env (l.map Prod.fst) h.db).exec turns
      l.Perm (p.made.filterMap requestMade) ∧ p.engine.db.keys = alone.db.keys ∧
      ∀ (j : Nat) r t, l[j]? = some (r, t) → ∃ u, alone.threads[j]? = some u ∧ SameEnd t u ∧ (r.1.commandId ≠ .stats → t = u) := by
  dsimp only
  obtain ⟨owned, steps, ok⟩ := told_exec env shard us h sched
  obtain ⟨hz, hzl⟩ := requestMade_zip _ _ (kindsOf_exec env env.mode (owned.map Prod.snd) h shard steps)
  obtain ⟨h1, -, h3, h4⟩ := C148_commands env (owned.map Prod.snd) h shard steps
  refine ⟨(requestCalls (owned.map Prod.snd)).zip (commandThreads ((hopPool env (owned.map Prod.snd) h).exec env.mode shard steps).threads),
    turnsOf .command (owned.map Prod.snd) steps, ?_, ?_, ?_⟩
  · rw [← hz]
    exact (ok.perm.filterMap requestMade).symm
  · rw [List.map_fst_zip (by omega), ok.engine]
    exact h1
  · rw [List.map_fst_zip (by omega)]
    intro j r t hj
    rw [List.getElem?_zip_eq_some] at hj
    have hjl : j < ((Pool.start env (requestCalls (owned.map Prod.snd)) h.db).exec
        (turnsOf .command (owned.map Prod.snd) steps)).threads.length := by
      rw [← h3]; exact (List.getElem?_eq_some_iff.mp hj.2).1
    obtain ⟨g1, g2⟩ := h4 j t _ hj.2 (List.getElem?_eq_getElem hjl)
    exact ⟨_, List.getElem?_eq_getElem hjl, g1, g2 r hj.1⟩

/-- The requests are those that were made. -/
theorem mem_requestMade {l : List Made} {r : Request × Bytes} {q : Prog Bytes} (h : (r, q) ∈ l.filterMap requestMade) :
    (.dispatch r.1 r.2, .command q) ∈ l := by
  obtain ⟨m, hm, he⟩ := List.mem_filterMap.mp h
  unfold requestMade at he
  split at he
  · cases he; exact hm
  · cases he

/-- What happens to each entry is allowed by the requests made. -/
theorem users_obey {A : Bytes → Option Value → Prop} {R : Bytes → Option Value → Option Value → Prop} (env : Env)
    (shard : UInt32 → Nat) (us : List User) (h : HopEngine) (sched : List Nat)
    (hp : ∀ r resp t, (.dispatch r resp, t) ∈ ((userPool us h).exec env shard sched).made → Permits A R r)
    (hrefl : ∀ k o, A k o → R k o o) (htrans : ∀ k a b c, A k a → R k a b → R k b c → R k a c)
    (hkeep : ∀ k a b, A k a → R k a b → A k b) (hdb : ∀ k, A k (h.db.keys k)) (k : Bytes) :
    R k (h.db.keys k) (((userPool us h).exec env shard sched).engine.db.keys k) := by
  obtain ⟨l, turns, h1, h2, -⟩ := C153_requests env shard us h sched
  rw [h2]
  have h0 : ∀ t ∈ (Pool.start env (l.map Prod.fst) h.db).threads, Obeys A R t := by
    intro t ht
    simp only [Pool.start, List.mem_map] at ht
    obtain ⟨r, ⟨⟨r', q⟩, hr, rfl⟩, rfl⟩ := ht
    exact (hp _ _ _ (mem_requestMade (h1.mem_iff.mp hr))).dispatch
  exact (Obeys.exec h0 hrefl htrans hkeep hdb turns).2 k

/-- C153. If no stored map or set has a repetition at the start, none has at any moment. -/
theorem C153_well_formed (env : Env) (shard : UInt32 → Nat) (us : List User) (h : HopEngine) (sched : List Nat)
    (hwf : ∀ k v, h.db.keys k = some v → WF v) (k : Bytes) (v : Value)
    (hk : ((userPool us h).exec env shard sched).engine.db.keys k = some v) : WF v :=
  users_obey (A := fun _ o => ∀ v, o = some v → WF v) (R := fun _ _ o => ∀ v, o = some v → WF v) env shard us h sched
    (fun r _ _ _ => permits_WF r) (fun _ _ h => h) (fun _ _ _ _ _ _ h => h) (fun _ _ _ _ h => h) hwf k v hk

/-- C153. A key that exists at the start exists and has the same type as long as no request has been made that is a Set, Delete or
Rename of it or a Rename to it. -/
theorem C153_type_stable (env : Env) (shard : UInt32 → Nat) (us : List User) (h : HopEngine) (sched : List Nat) (k : Bytes)
    (hn : ∀ r resp t, (.dispatch r resp, t) ∈ ((userPool us h).exec env shard sched).made → ¬ Replaces k r) (v : Value)
    (hk : h.db.keys k = some v) :
    ∃ w, ((userPool us h).exec env shard sched).engine.db.keys k = some w ∧ w.kind = v.kind :=
  users_obey (A := fun k' o => k' = k → ∃ w, o = some w ∧ w.kind = v.kind)
    (R := fun k' _ o => k' = k → ∃ w, o = some w ∧ w.kind = v.kind) env shard us h sched
    (fun r resp t hm => permits_kind (hn r resp t hm) _) (fun _ _ h => h) (fun _ _ _ _ _ _ h => h) (fun _ _ _ _ h => h)
    (by rintro _ rfl; exact ⟨v, hk, rfl⟩) k rfl

/-- C153. A key is as it was as long as no request has been made that names it as a key to change. -/
theorem C153_untouched (env : Env) (shard : UInt32 → Nat) (us : List User) (h : HopEngine) (sched : List Nat) (k : Bytes)
    (hn : ∀ r resp t, (.dispatch r resp, t) ∈ ((userPool us h).exec env shard sched).made → ¬ Replaces k r ∧
      (r.commandId ∈ [.append, .decrement, .decrementBy, .increment, .incrementBy] → r.arg 0 ≠ some k)) :
    ((userPool us h).exec env shard sched).engine.db.keys k = h.db.keys k := by
  refine users_obey (A := fun k' o => k' = k → o = h.db.keys k) (R := fun k' _ o => k' = k → o = h.db.keys k) env shard us h sched
    ?_ (fun _ _ h => h) (fun _ _ _ _ _ _ h => h) (fun _ _ _ _ h => h) (by rintro _ rfl; rfl) k rfl
  intro r resp t hm
  obtain ⟨hn, hn'⟩ := hn r resp t hm
  have hcre : r.commandId ∈ creators → r.arg 0 = some k → False := by
    intro h h0
    by_cases hs : r.commandId = .set
    · exact hn (Or.inl ⟨by rw [hs]; decide, h0⟩)
    · refine hn' ?_ h0
      simp only [creators, List.mem_cons, List.not_mem_nil, or_false] at h ⊢
      rcases h with h | h | h | h | h | h <;> simp_all
  exact {
    refl := fun _ _ h => h
    create := fun h _ h0 _ _ _ _ _ e => by subst e; exact absurd h0 (hcre h)
    change := fun h _ h0 _ _ _ _ _ _ e => by subst e; exact absurd h0 (hcre h)
    remove := fun h _ h0 _ _ e => by subst e; exact absurd (Or.inl ⟨h, h0⟩) hn
    move := fun h _ _ _ h1 _ _ _ _ e => by subst e; exact absurd (Or.inr ⟨h, h1⟩) hn }

/-- C153. An internal key is as it was or gone, as long as no Rename to it has been made. -/
theorem C153_reserved (env : Env) (shard : UInt32 → Nat) (us : List User) (h : HopEngine) (sched : List Nat) (k : Bytes)
    (hk : reserved k) (hn : ∀ r resp t, (.dispatch r resp, t) ∈ ((userPool us h).exec env shard sched).made →
      r.commandId = .rename → r.arg 1 ≠ some k) :
    ((userPool us h).exec env shard sched).engine.db.keys k = h.db.keys k ∨
    ((userPool us h).exec env shard sched).engine.db.keys k = none := by
  refine users_obey (A := fun _ _ => True) (R := fun k' o o' => k' = k → o' = o ∨ o' = none) env shard us h sched
    ?_ (fun _ _ _ _ => Or.inl rfl) ?_ (fun _ _ _ _ _ => trivial) (fun _ => trivial) k rfl
  · intro r resp t hm
    have hn := hn r resp t hm
    have hi : isInternal k = true := (isInternal_iff k).mpr hk
    exact {
      refl := fun _ _ _ _ => Or.inl rfl
      create := fun _ _ _ h _ _ _ _ e => by subst e; rw [hi] at h; cases h
      change := fun _ _ _ h _ _ _ _ _ e => by subst e; rw [hi] at h; cases h
      remove := fun _ _ _ _ _ _ => Or.inr rfl
      move := fun h _ _ _ h1 _ _ _ _ e => by subst e; exact absurd h1 (hn h) }
  · intro k' a b c _ h1 h2 e
    rcases h2 e with h2 | h2
    · rw [h2]; exact h1 e
    · exact .inr h2

/-- C153. In a release build a request does not panic, unless it names an internal key as the key of an Append, a counter command,
Get, Keys, Length or Set; whatever else is done to the engine at the same time. -/
theorem C153_calm (env : Env) (hm : env.mode = .release) (shard : UInt32 → Nat) (us : List User) (h : HopEngine) (sched : List Nat)
    (r : Request) (resp : Bytes) (q : Prog Bytes) (hq : (.dispatch r resp, .command q) ∈ ((userPool us h).exec env shard sched).made)
    (hk : r.commandId ∈ .set :: valueCommands → ∀ k, r.arg 0 = some k → ¬ reserved k) : q ≠ .done .panic := by
  rintro rfl
  obtain ⟨l, turns, h1, -, h3⟩ := C153_requests env shard us h sched
  have hl : ((r, resp), Prog.done .panic) ∈ l := by
    rw [h1.mem_iff]
    exact List.mem_filterMap.mpr ⟨_, hq, rfl⟩
  obtain ⟨j, hj⟩ := List.getElem?_of_mem hl
  obtain ⟨u, hu, hs, -⟩ := h3 j _ _ hj
  obtain ⟨t, ht, hc⟩ := AllEnds.exec (p := Pool.start env (l.map Prod.fst) h.db) (i := j) (t := dispatch env r resp)
    (by simp [Pool.start, hj]) (calm_dispatch hm hk) turns
  rw [hu] at ht
  cases ht
  cases u with
  | done o =>
    cases o with
    | panic => exact hc rfl
    | _ => cases hs
  | _ => cases hs

/-! ## Counters -/

/-- The counter operations among calls, the operation of a request being given. -/
def Spec.countingOps (role : Request → Option CounterOp) (l : List Made) : List CounterOp :=
  l.filterMap fun m => match m.1 with
    | .dispatch r _ => role r
    | _ => none

theorem counting_requests (role : Request → Option CounterOp) (l : List Made) (hk : ∀ m ∈ l, ∀ r resp, m.1 = .dispatch r resp → ∃ q, m.2 = .command q) :
    countingOps role l = present ((l.filterMap requestMade).map fun e => role e.1.1) := by
  unfold countingOps present
  induction l with
  | nil => rfl
  | cons m l ih =>
    have ih := ih fun m hm => hk m (by simp [hm])
    have hm := hk m (by simp)
    obtain ⟨c, t⟩ := m
    cases c with
    | dispatch r resp =>
      obtain ⟨q, rfl⟩ := hm r resp rfl
      simp only [List.filterMap_cons, requestMade, List.map_cons, id]
      rw [ih]
    | _ => simpa [List.filterMap_cons, requestMade] using ih

theorem kinds_made {env : Env} {shard : UInt32 → Nat} {us : List User} {h : HopEngine} {p : UserPool}
    {owned : List (Nat × HopCall)} {steps : List Nat} (ok : Told env shard us h p owned steps) :
    ∀ m ∈ p.made, ∀ r resp, m.1 = .dispatch r resp → ∃ q, m.2 = .command q := by
  intro m hm r resp hr
  rw [ok.perm.mem_iff] at hm
  obtain ⟨j, hj⟩ := List.getElem?_of_mem hm
  rw [List.getElem?_zip_eq_some] at hj
  have hk := kindsOf_exec env env.mode (owned.map Prod.snd) h shard steps
  unfold KindsOf at hk
  have := congrArg (·[j]?) hk
  simp only [List.getElem?_map] at this hj
  rw [hj.2] at this
  rw [show (Option.map Prod.snd owned[j]?) = some m.1 from hj.1, hr] at this
  cases ht : m.2 with
  | command q => exact ⟨q, rfl⟩
  | _ => rw [ht] at this; simp [HopCall.kind] at this; try cases this

theorem present_perm {α} {l l' : List (Option α)} (h : l.Perm l') : (present l).Perm (present l') := h.filterMap id

/-- C153. A key holds an integer, and all requests that users make are increments and decrements of it or leave it alone. Whenever
no call is under way, it holds the initial number plus all amounts (wrapped to 64 bits; in debug builds, if no order of the
operations overflows). -/
theorem C153_counters (env : Env) (shard : UInt32 → Nat) (us : List User) (h : HopEngine) (sched : List Nat) (K : Bytes → Prop) (k : Bytes)
    (hkK : K k) (role : Request → Option CounterOp)
    (hr : ∀ r resp t, (.dispatch r resp, t) ∈ ((userPool us h).exec env shard sched).made →
      ∃ c : Call, Views r c.cmd c.kt c.args ∧ CounterRole K k (role r) c)
    (hu : ¬ unusable env.mode k) (start : Int64) (hstart : h.db.keys k = some (.integer start)) (hex : ∀ k, K k → h.db.keys k ≠ none)
    (hc : Roomy ((userPool us h).exec env shard sched).made.length h.db.ctrs)
    (hov : env.mode = .release ∨
      ∀ os, os.Perm (countingOps role ((userPool us h).exec env shard sched).made) → NoOverflow start.toInt os)
    (hi : ∀ u ∈ ((userPool us h).exec env shard sched).users, u.now = none) :
    ((userPool us h).exec env shard sched).engine.db.keys k =
      some (.integer (Int64.ofInt (start.toInt + total (countingOps role ((userPool us h).exec env shard sched).made)))) := by
  obtain ⟨l, turns, h1, h2, h3⟩ := C153_requests env shard us h sched
  obtain ⟨owned, steps, ok⟩ := told_exec env shard us h sched
  have hcount := counting_requests role _ (kinds_made ok)
  have hsees : ∀ l' : List ((Request × Bytes) × Prog Bytes), (∀ e ∈ l', e ∈ l) → ∃ cs : List Call, Sees (l'.map Prod.fst) cs ∧
      All2 (CounterRole K k) (l'.map fun e => role e.1.1) cs := by
    intro l'
    induction l' with
    | nil => exact fun _ => ⟨[], .nil, .nil⟩
    | cons e l' ih =>
      intro hl
      obtain ⟨cs, g1, g2⟩ := ih fun e he => hl e (by simp [he])
      obtain ⟨⟨r, resp⟩, q⟩ := e
      have hmem : ((r, resp), q) ∈ l := hl _ List.mem_cons_self
      obtain ⟨c, hv, hcr⟩ := hr r resp _ (mem_requestMade (h1.mem_iff.mp hmem))
      exact ⟨c :: cs, .cons hv g1, .cons hcr g2⟩
  obtain ⟨cs, hs, ha⟩ := hsees l fun _ h => h
  have hp : (present (l.map fun e => role e.1.1)).Perm (countingOps role ((userPool us h).exec env shard sched).made) := by
    rw [hcount]
    exact present_perm (h1.map _)
  have hlen : (l.map Prod.fst).length ≤ ((userPool us h).exec env shard sched).made.length := by
    rw [List.length_map, h1.length_eq]
    exact List.length_filterMap_le _ _
  have hfin : ((Pool.start env (l.map Prod.fst) h.db).exec turns).finished := by
    intro t ht
    obtain ⟨j, hj⟩ := List.getElem?_of_mem ht
    have hjl : j < l.length := by
      have h1 := (List.getElem?_eq_some_iff.mp hj).1
      have : ∀ (p : Pool Bytes) (s : List Nat), (p.exec s).threads.length = p.threads.length := by
        intro p s
        induction s generalizing p with
        | nil => rfl
        | cons i is ih =>
          show ((p.stepAt i).exec is).threads.length = _
          rw [ih]
          unfold Pool.stepAt
          split
          · rfl
          · exact List.length_set
      rw [this] at h1
      simpa [Pool.start] using h1
    obtain ⟨u, hu, hse, -⟩ := h3 j _ _ (List.getElem?_eq_getElem hjl)
    rw [hj] at hu
    cases hu
    have hmade := mem_requestMade (h1.mem_iff.mp (List.getElem_mem hjl))
    have hpast : ∀ m ∈ ((userPool us h).exec env shard sched).made, HopEnded m.2 = true := by
      intro m hm
      unfold UserPool.made at hm
      obtain ⟨u, hu, hm⟩ := List.mem_flatMap.mp hm
      simp only [UserState.made, hi u hu, Option.toList_none, List.append_nil] at hm
      exact ok.ended u hu m hm
    have hend := hpast _ hmade
    generalize l[j].2 = q at hse hend
    cases q with
    | done o =>
      cases t with
      | done o' => exact ⟨o', rfl⟩
      | _ => cases o <;> cases hse
    | _ => cases hend
  have key := (C32_concurrent_counters hs K k hkK ha hu start h.db hstart hex (fun m => by have := hc m; omega)
    (hov.imp id fun ho os hos => ho os (hos.trans hp)) turns hfin).1
  rw [h2, key, total_perm hp]

/-! ## A concrete case -/

def add5 : Request := call .incrementBy none [[1], beBytes 8 5]
def take2 : Request := call .decrementBy none [[1], beBytes 8 2]
def look : Request := call .get none [[1]]

/-- A user who adds 5 to key `[1]` and, if this was answered with success, starts a session and takes 2 away. -/
def adder : User := fun past =>
  match past with
  | [] => some (.dispatch add5 [])
  | [(_, .command (.done (.ok _)))] => some (.session (.add [1]))
  | [_, (_, .session _)] => some (.dispatch take2 [])
  | _ => none

def addingFrom : HopEngine := { HopEngine.new with db := sampleDb [([1], .integer 10)] }
def addingSched : List Nat := (List.replicate 14 [0, 1, 2]).flatten
def addingUsers : List User := [adder, adder, User.fixed [.dispatch look [], .metric .sessionsStarted]]
def adding : UserPool := (userPool addingUsers addingFrom).exec (sampleEnv .release) (fun s => s.toNat) addingSched

/-- What the requests do to the counter. -/
def addingRole (r : Request) : Option CounterOp :=
  if r = add5 then some (.incBy 5) else if r = take2 then some (.decBy 2) else none

def addingCall : HopCall → Bool
  | .dispatch r _ => [add5, take2, look].contains r
  | _ => true

/-- Beside C153: two such users and one who looks; eight calls. -/
example : adding.made.length = 8 ∧ adding.engine.db.keys [1] = some (.integer 16) := by
  refine ⟨by decide +kernel, ?_⟩
  have hall : ∀ m ∈ adding.made, addingCall m.1 = true := by decide +kernel
  rw [show some (Value.integer 16) = some (.integer (Int64.ofInt ((10 : Int64).toInt + total (countingOps addingRole adding.made)))) by
    decide +kernel]
  have h8 : adding.made.length = 8 := by decide +kernel
  have hidle : ∀ u ∈ adding.users, u.now.isNone = true := by decide +kernel
  unfold adding at *
  refine C153_counters (sampleEnv .release) (fun s => s.toNat) addingUsers addingFrom addingSched (· = [1]) [1] rfl addingRole ?_ (by decide) 10
    (by decide) (by rintro _ rfl; decide) ?_ (.inl rfl) ?_
  · intro r resp t hm
    have := hall _ hm
    simp only [addingCall, List.contains_iff_mem, List.mem_cons, List.not_mem_nil, or_false] at this
    rcases this with rfl | rfl | rfl
    · refine ⟨⟨.incrementBy, none, [[1], beBytes 8 5]⟩, call_views _ _ _ (by decide) (by decide) (by decide), ?_⟩
      rw [show addingRole add5 = some (.incBy 5) by decide]
      exact ⟨rfl, [], [], rfl⟩
    · refine ⟨⟨.decrementBy, none, [[1], beBytes 8 2]⟩, call_views _ _ _ (by decide) (by decide) (by decide), ?_⟩
      rw [show addingRole take2 = some (.decBy 2) by decide]
      exact ⟨rfl, [], [], rfl⟩
    · refine ⟨⟨.get, none, [[1]]⟩, call_views _ _ _ (by decide) (by decide) (by decide), ?_⟩
      rw [show addingRole look = none by decide]
      exact ⟨trivial, .inl (by decide)⟩
  · rw [h8]
    intro m
    cases m <;> decide
  · exact fun u hu => Option.isNone_iff_eq_none.mp (hidle u hu)

end Hop
