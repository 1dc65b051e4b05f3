import Verif.Model.Dispatch

/-! # Which entries a program reads and writes -/

namespace Hop

open Prog

/-- Every key entry the program may change is in `K`. -/
def Writes {α} (K : Bytes → Prop) : Prog α → Prop
  | .done _ => True
  | .onKey k upd next => (K k ∨ ∀ o, upd o = o) ∧ ∀ o, Writes K (next o)
  | .onCtr _ _ next => ∀ o, Writes K (next o)

/-- Every key entry the program may look at or change is in `K`. -/
def Touches {α} (K : Bytes → Prop) : Prog α → Prop
  | .done _ => True
  | .onKey k _ next => K k ∧ ∀ o, Touches K (next o)
  | .onCtr _ _ next => ∀ o, Touches K (next o)

/-- The program does not look at any counter. -/
def CounterFree {α} : Prog α → Prop
  | .done _ => True
  | .onKey _ _ next => ∀ o, CounterFree (next o)
  | .onCtr _ _ _ => False

theorem Writes.mono {α} {K K' : Bytes → Prop} (h : ∀ k, K k → K' k) {p : Prog α} (hp : Writes K p) : Writes K' p := by
  induction p with
  | done r => trivial
  | onKey k upd next ih => exact ⟨hp.1.imp (h k) id, fun o => ih o (hp.2 o)⟩
  | onCtr m upd next ih => exact fun o => ih o (hp o)

theorem Touches.mono {α} {K K' : Bytes → Prop} (h : ∀ k, K k → K' k) {p : Prog α} (hp : Touches K p) : Touches K' p := by
  induction p with
  | done r => trivial
  | onKey k upd next ih => exact ⟨h k hp.1, fun o => ih o (hp.2 o)⟩
  | onCtr m upd next ih => exact fun o => ih o (hp o)

/-- A step changes no key outside the footprint, and the footprint stays. -/
theorem Writes.step {α} {K : Bytes → Prop} {p : Prog α} (hp : Writes K p) (db : Db) :
    Writes K (p.step db).1 ∧ ∀ k, ¬ K k → (p.step db).2.keys k = db.keys k := by
  cases p with
  | done r => exact ⟨trivial, fun _ _ => rfl⟩
  | onKey k upd next =>
    refine ⟨hp.2 _, fun k' hk' => ?_⟩
    simp only [Prog.step, Db.setKey]
    split
    · subst_vars
      rcases hp.1 with h | h
      · exact absurd h hk'
      · exact h _
    · rfl
  | onCtr m upd next => exact ⟨hp _, fun _ _ => rfl⟩

theorem Writes.run {α} {K : Bytes → Prop} {p : Prog α} (hp : Writes K p) (db : Db) (k : Bytes) (hk : ¬ K k) :
    (p.run db).2.keys k = db.keys k := by
  induction p generalizing db with
  | done r => rfl
  | onKey k' upd next ih =>
    have h1 := (Writes.step hp db).2 k hk
    simp only [Prog.run]
    rw [ih _ (hp.2 _)]
    exact h1
  | onCtr m upd next ih =>
    simp only [Prog.run]
    rw [ih _ (hp _)]
    rfl

theorem Writes.andThen {α β} {K : Bytes → Prop} {p : Prog α} (hp : Writes K p)
    {f : Outcome DispatchError α → Prog β} (hf : ∀ r, Writes K (f r)) : Writes K (p.andThen f) := by
  induction p with
  | done r => exact hf r
  | onKey k upd next ih => exact ⟨hp.1, fun o => ih o (hp.2 o)⟩
  | onCtr m upd next ih => exact fun o => ih o (hp o)

theorem Touches.andThen {α β} {K : Bytes → Prop} {p : Prog α} (hp : Touches K p)
    {f : Outcome DispatchError α → Prog β} (hf : ∀ r, Touches K (f r)) : Touches K (p.andThen f) := by
  induction p with
  | done r => exact hf r
  | onKey k upd next ih => exact ⟨hp.1, fun o => ih o (hp.2 o)⟩
  | onCtr m upd next ih => exact fun o => ih o (hp o)

section builders

variable {α β : Type} {K : Bytes → Prop}

theorem Writes.orErr {o : Option β} {e : DispatchError} {f : β → Prog α} (h : ∀ a, o = some a → Writes K (f a)) :
    Writes K (orErr o e f) := by
  cases o with
  | none => trivial
  | some a => exact h a rfl

theorem Touches.orErr {o : Option β} {e : DispatchError} {f : β → Prog α} (h : ∀ a, o = some a → Touches K (f a)) :
    Touches K (orErr o e f) := by
  cases o with
  | none => trivial
  | some a => exact h a rfl

theorem CounterFree.orErr {o : Option β} {e : DispatchError} {f : β → Prog α}
    (h : ∀ a, o = some a → CounterFree (f a)) : CounterFree (orErr o e f) := by
  cases o with
  | none => trivial
  | some a => exact h a rfl

theorem Writes.readKey {k : Bytes} {next : Option Value → Prog α} (h : ∀ o, Writes K (next o)) :
    Writes K (readKey k next) := ⟨Or.inr fun _ => rfl, h⟩

theorem Writes.keyRef {env : Env} {k : Bytes} {next : Option Value → Prog α} (h : ∀ o, Writes K (next o)) :
    Writes K (keyRef env k next) := by
  unfold Hop.keyRef
  split
  · trivial
  · split
    · trivial
    · exact Writes.readKey h

theorem Touches.keyRef {env : Env} {k : Bytes} (hk : K k) {next : Option Value → Prog α} (h : ∀ o, Touches K (next o)) :
    Touches K (keyRef env k next) := by
  unfold Hop.keyRef
  split
  · trivial
  · split
    · trivial
    · exact ⟨hk, h⟩

theorem CounterFree.keyRef {env : Env} {k : Bytes} {next : Option Value → Prog α} (h : ∀ o, CounterFree (next o)) :
    CounterFree (keyRef env k next) := by
  unfold Hop.keyRef
  split
  · trivial
  · split
    · trivial
    · exact h

theorem Writes.keyOrInsertLoop {k : Bytes} (hk : K k) {mk : Value} {body : Value → Value × Outcome DispatchError α}
    (n : Nat) : Writes K (keyOrInsertLoop k mk body n) := by
  induction n with
  | zero => trivial
  | succ n ih =>
    refine ⟨Or.inl hk, fun o => ?_⟩
    cases o with
    | some v => trivial
    | none => exact ⟨Or.inl hk, fun _ => ih⟩

theorem Touches.keyOrInsertLoop {k : Bytes} (hk : K k) {mk : Value} {body : Value → Value × Outcome DispatchError α}
    (n : Nat) : Touches K (keyOrInsertLoop k mk body n) := by
  induction n with
  | zero => trivial
  | succ n ih =>
    refine ⟨hk, fun o => ?_⟩
    cases o with
    | some v => trivial
    | none => exact ⟨hk, fun _ => ih⟩

theorem CounterFree.keyOrInsertLoop {k : Bytes} {mk : Value} {body : Value → Value × Outcome DispatchError α}
    (n : Nat) : CounterFree (keyOrInsertLoop k mk body n) := by
  induction n with
  | zero => trivial
  | succ n ih =>
    intro o
    cases o with
    | some v => trivial
    | none => exact fun _ => ih

theorem Writes.keyOrInsertWith {env : Env} {k : Bytes} (hk : K k) {mk : Value}
    {body : Value → Value × Outcome DispatchError α} : Writes K (keyOrInsertWith env k mk body) := by
  unfold Hop.keyOrInsertWith
  split
  · trivial
  · split
    · trivial
    · exact Writes.keyOrInsertLoop hk _

theorem Touches.keyOrInsertWith {env : Env} {k : Bytes} (hk : K k) {mk : Value}
    {body : Value → Value × Outcome DispatchError α} : Touches K (keyOrInsertWith env k mk body) := by
  unfold Hop.keyOrInsertWith
  split
  · trivial
  · split
    · trivial
    · exact Touches.keyOrInsertLoop hk _

theorem CounterFree.keyOrInsertWith {env : Env} {k : Bytes} {mk : Value}
    {body : Value → Value × Outcome DispatchError α} : CounterFree (keyOrInsertWith env k mk body) := by
  unfold Hop.keyOrInsertWith
  split
  · trivial
  · split
    · trivial
    · exact CounterFree.keyOrInsertLoop _

theorem Writes.resolveKeyType {r : Request} {k : Bytes} {d : KeyType} {next : KeyType → Prog α}
    (h : ∀ t, Writes K (next t)) : Writes K (resolveKeyType r k d next) := by
  unfold Hop.resolveKeyType
  cases r.keyType with
  | some t => exact h t
  | none => exact Writes.readKey fun o => h _

theorem Touches.resolveKeyType {r : Request} {k : Bytes} (hk : K k) {d : KeyType} {next : KeyType → Prog α}
    (h : ∀ t, Touches K (next t)) : Touches K (resolveKeyType r k d next) := by
  unfold Hop.resolveKeyType
  cases r.keyType with
  | some t => exact h t
  | none => exact ⟨hk, fun o => h _⟩

theorem CounterFree.resolveKeyType {r : Request} {k : Bytes} {d : KeyType} {next : KeyType → Prog α}
    (h : ∀ t, CounterFree (next t)) : CounterFree (resolveKeyType r k d next) := by
  unfold Hop.resolveKeyType
  cases r.keyType with
  | some t => exact h t
  | none => exact fun o => h _

theorem Writes.allExist {next : Bool → Prog α} (h : ∀ b, Writes K (next b)) (ks : List Bytes) :
    Writes K (allExist next ks) := by
  induction ks with
  | nil => exact h _
  | cons k ks ih => exact Writes.readKey fun o => by (try dsimp only); split <;> first | exact ih | exact h _

theorem Touches.allExist {next : Bool → Prog α} (h : ∀ b, Touches K (next b)) (ks : List Bytes)
    (hk : ∀ k ∈ ks, K k) : Touches K (allExist next ks) := by
  induction ks with
  | nil => exact h _
  | cons k ks ih =>
    refine ⟨hk k (by simp), fun o => ?_⟩
    dsimp only
    split
    · exact ih fun k' hk' => hk k' (by simp [hk'])
    · exact h _

theorem CounterFree.allExist {next : Bool → Prog α} (h : ∀ b, CounterFree (next b)) (ks : List Bytes) :
    CounterFree (allExist next ks) := by
  induction ks with
  | nil => exact h _
  | cons k ks ih => exact fun o => by (try dsimp only); split <;> first | exact ih | exact h _

theorem Writes.allAre {t : KeyType} {next : Bool → Prog α} (h : ∀ b, Writes K (next b)) (ks : List Bytes) :
    Writes K (allAre t next ks) := by
  induction ks with
  | nil => exact h _
  | cons k ks ih => exact Writes.readKey fun o => by (try dsimp only); split <;> first | exact ih | exact h _

theorem Touches.allAre {t : KeyType} {next : Bool → Prog α} (h : ∀ b, Touches K (next b)) (ks : List Bytes)
    (hk : ∀ k ∈ ks, K k) : Touches K (allAre t next ks) := by
  induction ks with
  | nil => exact h _
  | cons k ks ih =>
    refine ⟨hk k (by simp), fun o => ?_⟩
    dsimp only
    split
    · exact ih fun k' hk' => hk k' (by simp [hk'])
    · exact h _

theorem CounterFree.allAre {t : KeyType} {next : Bool → Prog α} (h : ∀ b, CounterFree (next b)) (ks : List Bytes) :
    CounterFree (allAre t next ks) := by
  induction ks with
  | nil => exact h _
  | cons k ks ih => exact fun o => by (try dsimp only); split <;> first | exact ih | exact h _

theorem Writes.statsLoop {next : BMap → Prog α} (h : ∀ m, Writes K (next m)) (cs : List Metric) (m : BMap) :
    Writes K (statsLoop next cs m) := by
  induction cs generalizing m with
  | nil => exact h _
  | cons c cs ih =>
    intro o
    cases o with
    | none => exact ih _
    | some n => dsimp only; split <;> exact ih _

theorem Touches.statsLoop {next : BMap → Prog α} (h : ∀ m, Touches K (next m)) (cs : List Metric) (m : BMap) :
    Touches K (statsLoop next cs m) := by
  induction cs generalizing m with
  | nil => exact h _
  | cons c cs ih =>
    intro o
    cases o with
    | none => exact ih _
    | some n => dsimp only; split <;> exact ih _

theorem Writes.countOutcome {env : Env} (r : Outcome DispatchError Bytes) : Writes K (countOutcome env r) := by
  cases r <;> simp only [Hop.countOutcome, incrementMetric]
  · intro o; dsimp only; split <;> trivial
  · intro o; dsimp only; split <;> trivial
  · trivial
  · trivial

theorem Touches.countOutcome {env : Env} (r : Outcome DispatchError Bytes) : Touches K (countOutcome env r) := by
  cases r <;> simp only [Hop.countOutcome, incrementMetric]
  · intro o; dsimp only; split <;> trivial
  · intro o; dsimp only; split <;> trivial
  · trivial
  · trivial

end builders

/-! ## The sixteen commands -/

theorem Request.key_arg {r : Request} {k : Bytes} (h : r.key = some k) : r.arg 0 = some k := by
  unfold Request.key at h
  split at h
  · simp at h
  · exact h

section commands

variable {env : Env} {r : Request} {resp : Bytes} {K : Bytes → Prop}

theorem Writes.incrementIntBy {k : Bytes} (hk : K k) {a : Int64} : Writes K (incrementIntBy env k a resp) :=
  Writes.keyOrInsertWith hk
theorem Writes.incrementFloatBy {k : Bytes} (hk : K k) {a : F64} : Writes K (incrementFloatBy env k a resp) :=
  Writes.keyOrInsertWith hk
theorem Touches.incrementIntBy {k : Bytes} (hk : K k) {a : Int64} : Touches K (incrementIntBy env k a resp) :=
  Touches.keyOrInsertWith hk
theorem Touches.incrementFloatBy {k : Bytes} (hk : K k) {a : F64} : Touches K (incrementFloatBy env k a resp) :=
  Touches.keyOrInsertWith hk

/-- What Set does after the type is known. -/
theorem Writes.setAs (h0 : ∀ k, r.arg 0 = some k → K k) : Writes K (dispatchSet env r resp) := by
  refine Writes.orErr fun k hk => ?_
  have hK := h0 k (Request.key_arg hk)
  split
  · trivial
  · refine Writes.resolveKeyType fun t => ?_
    cases t <;> exact Writes.orErr fun a ha => ⟨Or.inl hK, fun _ => Writes.keyOrInsertWith hK⟩

theorem Touches.setAs (h0 : ∀ k, r.arg 0 = some k → K k) : Touches K (dispatchSet env r resp) := by
  refine Touches.orErr fun k hk => ?_
  have hK := h0 k (Request.key_arg hk)
  split
  · trivial
  · refine Touches.resolveKeyType hK fun t => ?_
    cases t <;> exact Touches.orErr fun a ha => ⟨hK, fun _ => Touches.keyOrInsertWith hK⟩

/-- A command writes only its key and, for Rename, its second argument; reading commands write nothing. -/
theorem writes_command (h0 : r.commandId ∉ [.echo, .exists, .get, .is, .keys, .length, .stats, .type] →
      ∀ k, r.arg 0 = some k → K k)
    (h1 : r.commandId = .rename → ∀ k, r.arg 1 = some k → K k) : Writes K (command env r resp) := by
  unfold command
  cases hc : r.commandId <;> simp only [hc] at h0 h1 <;> dsimp only
  case append =>
    have h0 := h0 (by decide)
    refine Writes.orErr fun k hk => Writes.orErr fun args _ => Writes.resolveKeyType fun t => ?_
    cases t <;> first | trivial | exact Writes.keyOrInsertWith (h0 k hk)
  case decrementBy =>
    have h0 := h0 (by decide)
    refine Writes.orErr fun k hk => ?_
    have hK := h0 k (Request.key_arg hk)
    split
    · split
      · exact Writes.incrementIntBy hK
      · trivial
    · split
      · exact Writes.incrementFloatBy hK
      · trivial
  case incrementBy =>
    have h0 := h0 (by decide)
    refine Writes.orErr fun k hk => ?_
    have hK := h0 k (Request.key_arg hk)
    split
    · exact Writes.incrementIntBy hK
    · split
      · exact Writes.incrementFloatBy hK
      · trivial
  case increment =>
    have h0 := h0 (by decide)
    refine Writes.orErr fun k hk => ?_
    have hK := h0 k (Request.key_arg hk)
    split
    · exact Writes.incrementFloatBy hK
    · exact Writes.incrementIntBy hK
  case decrement =>
    have h0 := h0 (by decide)
    refine Writes.orErr fun k hk => ?_
    have hK := h0 k (Request.key_arg hk)
    split
    · exact Writes.incrementFloatBy hK
    · exact Writes.incrementIntBy hK
  case delete =>
    have h0 := h0 (by decide)
    unfold dispatchDelete
    split
    · trivial
    · refine Writes.orErr fun k hk => ⟨Or.inl (h0 k (Request.key_arg hk)), fun o => ?_⟩
      cases o <;> trivial
  case echo => unfold dispatchEcho; split <;> trivial
  case «exists» =>
    unfold dispatchExists
    split
    · trivial
    · exact Writes.orErr fun a _ => Writes.allExist (fun b => by trivial) _
  case get =>
    refine Writes.orErr fun k hk => Writes.keyRef fun o => ?_
    cases o with
    | none => trivial
    | some v => dsimp only; split <;> (try split) <;> trivial
  case is => exact Writes.orErr fun t _ => Writes.orErr fun a _ => Writes.allAre (fun b => by trivial) _
  case keys =>
    refine Writes.orErr fun k hk => Writes.resolveKeyType fun t => ?_
    cases t <;> first
      | trivial
      | exact Writes.keyRef fun o => by (try dsimp only); split <;> trivial
  case length =>
    refine Writes.orErr fun k hk => Writes.resolveKeyType fun t => ?_
    cases t <;> first
      | trivial
      | exact Writes.keyRef fun o => by (try dsimp only); split <;> (try split) <;> trivial
  case rename =>
    have h0 := h0 (by decide)
    have h1 := h1 trivial
    unfold dispatchRename
    split
    · trivial
    · refine Writes.orErr fun a ha => Writes.orErr fun b hb => Writes.readKey fun o => ?_
      dsimp only
      split
      · trivial
      · refine Writes.readKey fun o => ?_
        dsimp only
        split
        · trivial
        · refine ⟨Or.inl (h0 a ha), fun o => ?_⟩
          cases o with
          | none => trivial
          | some v => exact ⟨Or.inl (h1 b hb), fun _ => trivial⟩
  case set => exact Writes.setAs (h0 (by decide))
  case stats =>
    unfold dispatchStats
    split
    · trivial
    · exact Writes.statsLoop (fun m => by trivial) _ _
  case type =>
    refine Writes.orErr fun k hk => ?_
    split
    · trivial
    · refine Writes.readKey fun o => ?_
      cases o <;> trivial

theorem writes_dispatch (h0 : r.commandId ∉ [.echo, .exists, .get, .is, .keys, .length, .stats, .type] →
      ∀ k, r.arg 0 = some k → K k)
    (h1 : r.commandId = .rename → ∀ k, r.arg 1 = some k → K k) : Writes K (dispatch env r resp) :=
  (writes_command h0 h1).andThen fun r => Writes.countOutcome r

/-- A command looks only at its arguments. -/
theorem touches_command (h0 : ∀ k, r.arg 0 = some k → K k)
    (h1 : r.commandId = .rename → ∀ k, r.arg 1 = some k → K k)
    (h2 : r.commandId = .exists ∨ r.commandId = .is → ∀ l, r.argsFrom 0 = some l → ∀ k ∈ l, K k) :
    Touches K (command env r resp) := by
  unfold command
  cases hc : r.commandId <;> simp only [hc] at h1 h2 <;> dsimp only
  case append =>
    refine Touches.orErr fun k hk => Touches.orErr fun args _ => Touches.resolveKeyType (h0 k hk) fun t => ?_
    cases t <;> first | trivial | exact Touches.keyOrInsertWith (h0 k hk)
  case decrementBy =>
    refine Touches.orErr fun k hk => ?_
    have hK := h0 k (Request.key_arg hk)
    split
    · split
      · exact Touches.incrementIntBy hK
      · trivial
    · split
      · exact Touches.incrementFloatBy hK
      · trivial
  case incrementBy =>
    refine Touches.orErr fun k hk => ?_
    have hK := h0 k (Request.key_arg hk)
    split
    · exact Touches.incrementIntBy hK
    · split
      · exact Touches.incrementFloatBy hK
      · trivial
  case increment =>
    refine Touches.orErr fun k hk => ?_
    have hK := h0 k (Request.key_arg hk)
    split
    · exact Touches.incrementFloatBy hK
    · exact Touches.incrementIntBy hK
  case decrement =>
    refine Touches.orErr fun k hk => ?_
    have hK := h0 k (Request.key_arg hk)
    split
    · exact Touches.incrementFloatBy hK
    · exact Touches.incrementIntBy hK
  case delete =>
    unfold dispatchDelete
    split
    · trivial
    · refine Touches.orErr fun k hk => ⟨h0 k (Request.key_arg hk), fun o => ?_⟩
      cases o <;> trivial
  case echo => unfold dispatchEcho; split <;> trivial
  case «exists» =>
    unfold dispatchExists
    split
    · trivial
    · exact Touches.orErr fun a ha => Touches.allExist (fun _ => by trivial) _ (h2 (by simp) a ha)
  case get =>
    refine Touches.orErr fun k hk => Touches.keyRef (h0 k (Request.key_arg hk)) fun o => ?_
    cases o with
    | none => trivial
    | some v => dsimp only; split <;> (try split) <;> trivial
  case is => exact Touches.orErr fun t _ => Touches.orErr fun a ha =>
      Touches.allAre (fun _ => by trivial) _ (h2 (by simp) a ha)
  case keys =>
    refine Touches.orErr fun k hk => ?_
    have hK := h0 k (Request.key_arg hk)
    refine Touches.resolveKeyType hK fun t => ?_
    cases t <;> first
      | trivial
      | exact Touches.keyRef hK fun o => by (try dsimp only); split <;> trivial
  case length =>
    refine Touches.orErr fun k hk => ?_
    have hK := h0 k (Request.key_arg hk)
    refine Touches.resolveKeyType hK fun t => ?_
    cases t <;> first
      | trivial
      | exact Touches.keyRef hK fun o => by (try dsimp only); split <;> (try split) <;> trivial
  case rename =>
    have h1 := h1 trivial
    unfold dispatchRename
    split
    · trivial
    · refine Touches.orErr fun a ha => Touches.orErr fun b hb => ⟨h0 a ha, fun o => ?_⟩
      dsimp only
      split
      · trivial
      · refine ⟨h1 b hb, fun o => ?_⟩
        dsimp only
        split
        · trivial
        · refine ⟨h0 a ha, fun o => ?_⟩
          cases o with
          | none => trivial
          | some v => exact ⟨h1 b hb, fun _ => trivial⟩
  case set => exact Touches.setAs h0
  case stats =>
    unfold dispatchStats
    split
    · trivial
    · exact Touches.statsLoop (fun _ => by trivial) _ _
  case type =>
    refine Touches.orErr fun k hk => ?_
    split
    · trivial
    · refine ⟨h0 k (Request.key_arg hk), fun o => ?_⟩
      cases o <;> trivial

/-- Only Stats looks at the counters. -/
theorem counterFree_command (h : r.commandId ≠ .stats) : CounterFree (command env r resp) := by
  unfold command
  cases hc : r.commandId <;> dsimp only
  case append =>
    refine CounterFree.orErr fun k hk => CounterFree.orErr fun args _ => CounterFree.resolveKeyType fun t => ?_
    cases t <;> first | trivial | exact CounterFree.keyOrInsertWith
  case decrementBy =>
    refine CounterFree.orErr fun k hk => ?_
    split
    · split
      · exact CounterFree.keyOrInsertWith
      · trivial
    · split
      · exact CounterFree.keyOrInsertWith
      · trivial
  case incrementBy =>
    refine CounterFree.orErr fun k hk => ?_
    split
    · exact CounterFree.keyOrInsertWith
    · split
      · exact CounterFree.keyOrInsertWith
      · trivial
  case increment =>
    refine CounterFree.orErr fun k hk => ?_
    split <;> exact CounterFree.keyOrInsertWith
  case decrement =>
    refine CounterFree.orErr fun k hk => ?_
    split <;> exact CounterFree.keyOrInsertWith
  case delete =>
    unfold dispatchDelete
    split
    · trivial
    · refine CounterFree.orErr fun k hk => fun o => ?_
      cases o <;> trivial
  case echo => unfold dispatchEcho; split <;> trivial
  case «exists» =>
    unfold dispatchExists
    split
    · trivial
    · exact CounterFree.orErr fun a ha => CounterFree.allExist (fun _ => by trivial) _
  case get =>
    refine CounterFree.orErr fun k hk => CounterFree.keyRef fun o => ?_
    cases o with
    | none => trivial
    | some v => dsimp only; split <;> (try split) <;> trivial
  case is => exact CounterFree.orErr fun t _ => CounterFree.orErr fun a ha =>
      CounterFree.allAre (fun _ => by trivial) _
  case keys =>
    refine CounterFree.orErr fun k hk => ?_
    refine CounterFree.resolveKeyType fun t => ?_
    cases t <;> first
      | trivial
      | exact CounterFree.keyRef fun o => by (try dsimp only); split <;> trivial
  case length =>
    refine CounterFree.orErr fun k hk => ?_
    refine CounterFree.resolveKeyType fun t => ?_
    cases t <;> first
      | trivial
      | exact CounterFree.keyRef fun o => by (try dsimp only); split <;> (try split) <;> trivial
  case rename =>
    unfold dispatchRename
    split
    · trivial
    · refine CounterFree.orErr fun a ha => CounterFree.orErr fun b hb => fun o => ?_
      dsimp only
      split
      · trivial
      · refine fun o => ?_
        dsimp only
        split
        · trivial
        · refine fun o => ?_
          cases o with
          | none => trivial
          | some v => exact fun _ => trivial
  case set =>
    refine CounterFree.orErr fun k hk => ?_
    split
    · trivial
    · refine CounterFree.resolveKeyType fun t => ?_
      cases t <;> exact CounterFree.orErr fun a ha => fun _ => CounterFree.keyOrInsertWith
  case stats => exact absurd hc h
  case type =>
    refine CounterFree.orErr fun k hk => ?_
    split
    · trivial
    · refine fun o => ?_
      cases o <;> trivial

end commands

/-! ## Counters are only changed when the outcome is counted -/

/-- The program does not change any counter. -/
def CtrQuiet {α} : Prog α → Prop
  | .done _ => True
  | .onKey _ _ next => ∀ o, CtrQuiet (next o)
  | .onCtr _ upd next => (∀ o, upd o = o) ∧ ∀ o, CtrQuiet (next o)

theorem CounterFree.quiet {α} {p : Prog α} (h : CounterFree p) : CtrQuiet p := by
  induction p with
  | done r => trivial
  | onKey k upd next ih => exact fun o => ih o (h o)
  | onCtr m upd next ih => exact absurd h id

theorem CtrQuiet.statsLoop {α} {next : BMap → Prog α} (h : ∀ m, CtrQuiet (next m)) (cs : List Metric) (m : BMap) :
    CtrQuiet (statsLoop next cs m) := by
  induction cs generalizing m with
  | nil => exact h _
  | cons c cs ih =>
    refine ⟨fun _ => rfl, fun o => ?_⟩
    cases o with
    | none => exact ih _
    | some n => dsimp only; split <;> exact ih _

theorem quiet_command (env : Env) (r : Request) (resp : Bytes) : CtrQuiet (command env r resp) := by
  by_cases h : r.commandId = .stats
  · unfold command
    rw [h]
    dsimp only
    unfold dispatchStats
    split
    · trivial
    · exact CtrQuiet.statsLoop (fun _ => by trivial) _ _
  · exact (counterFree_command h).quiet

theorem CtrQuiet.run {α} {p : Prog α} (hp : CtrQuiet p) (db : Db) : (p.run db).2.ctrs = db.ctrs := by
  induction p generalizing db with
  | done r => rfl
  | onKey k upd next ih => exact ih _ (hp _) _
  | onCtr m upd next ih =>
    simp only [Prog.run]
    rw [ih _ (hp.2 _), hp.1]
    funext m'
    simp only [Db.setCtr]
    split
    · subst_vars; rfl
    · rfl

end Hop
