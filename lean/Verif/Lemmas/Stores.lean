import Verif.Lemmas.Footprint
import Verif.Model.Client

/-! # Programs that keep a property of all stored values -/

namespace Hop

open Prog

/-- The program only stores values with the property, provided the stored values it meets have it. -/
def Stores {α} (P : Value → Prop) : Prog α → Prop
  | .done _ => True
  | .onKey _ upd next => ∀ o, (∀ v, o = some v → P v) → (∀ v, upd o = some v → P v) ∧ Stores P (next o)
  | .onCtr _ _ next => ∀ o, Stores P (next o)

/-- All stored values have the property. -/
def AllStored (P : Value → Prop) (db : Db) : Prop := ∀ k v, db.keys k = some v → P v

variable {α β : Type} {P : Value → Prop}

theorem AllStored.setKey {db : Db} (h : AllStored P db) {k : Bytes} {o : Option Value} (ho : ∀ v, o = some v → P v) :
    AllStored P (db.setKey k o) := by
  intro k' v hv
  simp only [Db.setKey] at hv
  split at hv
  · exact ho v hv
  · exact h k' v hv

theorem Stores.run {p : Prog α} (hp : Stores P p) (db : Db) (h : AllStored P db) : AllStored P (p.run db).2 := by
  induction p generalizing db with
  | done r => exact h
  | onKey k upd next ih =>
    obtain ⟨h1, h2⟩ := hp (db.keys k) (h k)
    exact ih _ h2 _ (h.setKey h1)
  | onCtr m upd next ih => exact ih _ (hp _) _ (fun k v hv => h k v hv)

theorem Stores.step {p : Prog α} (hp : Stores P p) (db : Db) (h : AllStored P db) :
    AllStored P (p.step db).2 ∧ Stores P (p.step db).1 := by
  cases p with
  | done r => exact ⟨h, trivial⟩
  | onKey k upd next =>
    obtain ⟨h1, h2⟩ := hp (db.keys k) (h k)
    exact ⟨h.setKey h1, h2⟩
  | onCtr m upd next => exact ⟨fun k v hv => h k v hv, hp _⟩

theorem Stores.andThen {p : Prog α} (hp : Stores P p) {f : Outcome DispatchError α → Prog β}
    (hf : ∀ r, Stores P (f r)) : Stores P (p.andThen f) := by
  induction p with
  | done r => exact hf r
  | onKey k upd next ih => exact fun o ho => ⟨(hp o ho).1, ih _ (hp o ho).2⟩
  | onCtr m upd next ih => exact fun o => ih _ (hp o)

theorem Stores.orErr {o : Option β} {e : DispatchError} {f : β → Prog α} (h : ∀ a, o = some a → Stores P (f a)) :
    Stores P (Prog.orErr o e f) := by
  cases o with
  | none => trivial
  | some a => exact h a rfl

theorem Stores.readKey {k : Bytes} {next : Option Value → Prog α} (h : ∀ o, Stores P (next o)) :
    Stores P (Prog.readKey k next) := fun o ho => ⟨ho, h o⟩

theorem Stores.keyRef {env : Env} {k : Bytes} {next : Option Value → Prog α} (h : ∀ o, Stores P (next o)) :
    Stores P (Hop.keyRef env k next) := by
  unfold Hop.keyRef
  split
  · trivial
  · split
    · trivial
    · exact Stores.readKey h

theorem Stores.keyOrInsertLoop {k : Bytes} {mk : Value} {body : Value → Value × Outcome DispatchError α} (hm : P mk)
    (hb : ∀ v, P v → P (body v).1) (n : Nat) : Stores P (Hop.keyOrInsertLoop k mk body n) := by
  induction n with
  | zero => trivial
  | succ n ih =>
    intro o ho
    cases o with
    | none =>
      refine ⟨by simp, fun o _ => ⟨?_, ih⟩⟩
      intro v hv
      cases hv
      exact hm
    | some v =>
      refine ⟨?_, trivial⟩
      intro w hw
      simp only [Option.map_some, Option.some.injEq] at hw
      subst hw
      exact hb v (ho v rfl)

theorem Stores.keyOrInsertWith {env : Env} {k : Bytes} {mk : Value} {body : Value → Value × Outcome DispatchError α}
    (hm : P mk) (hb : ∀ v, P v → P (body v).1) : Stores P (Hop.keyOrInsertWith env k mk body) := by
  unfold Hop.keyOrInsertWith
  split
  · trivial
  · split
    · trivial
    · exact Stores.keyOrInsertLoop hm hb _

theorem Stores.resolveKeyType {r : Request} {k : Bytes} {d : KeyType} {next : KeyType → Prog α}
    (h : ∀ t, Stores P (next t)) : Stores P (Hop.resolveKeyType r k d next) := by
  unfold Hop.resolveKeyType
  split
  · exact h _
  · exact Stores.readKey fun o => h _

theorem Stores.allExist {next : Bool → Prog α} (h : ∀ b, Stores P (next b)) (ks : List Bytes) :
    Stores P (Hop.allExist next ks) := by
  induction ks with
  | nil => exact h _
  | cons k ks ih =>
    refine Stores.readKey fun o => ?_
    dsimp only
    split
    · exact ih
    · exact h _

theorem Stores.allAre {t : KeyType} {next : Bool → Prog α} (h : ∀ b, Stores P (next b)) (ks : List Bytes) :
    Stores P (Hop.allAre t next ks) := by
  induction ks with
  | nil => exact h _
  | cons k ks ih =>
    refine Stores.readKey fun o => ?_
    dsimp only
    split
    · exact ih
    · exact h _

theorem Stores.statsLoop {next : BMap → Prog α} (h : ∀ m, Stores P (next m)) (cs : List Metric) (m : BMap) :
    Stores P (Hop.statsLoop next cs m) := by
  induction cs generalizing m with
  | nil => exact h m
  | cons c cs ih =>
    intro o
    dsimp only
    split
    · split
      · exact ih _
      · exact ih _
    · exact ih _

theorem Stores.countOutcome {env : Env} (r : Outcome DispatchError Bytes) : Stores P (Hop.countOutcome env r) := by
  cases r with
  | ok a => intro o; dsimp only; split <;> trivial
  | err a => intro o; dsimp only; split <;> trivial
  | panic => trivial
  | stuck => trivial

theorem Stores.incrementIntBy {env : Env} {k : Bytes} {a : Int64} {resp : Bytes} (hi : ∀ i, P (.integer i)) :
    Stores P (Hop.incrementIntBy env k a resp) := by
  refine Stores.keyOrInsertWith (hi 0) fun v hv => ?_
  cases v with
  | integer i =>
    dsimp only
    split
    · exact hi _
    · exact hi _
  | _ => exact hv

/-- The commands that create no values other than integers: everything but appending, setting, and
incrementing or decrementing as a float. -/
theorem stores_command {env : Env} {r : Request} {resp : Bytes} (hi : ∀ i, P (.integer i))
    (hc : r.commandId ≠ .append ∧ r.commandId ≠ .set ∧ r.commandId ≠ .incrementBy ∧ r.commandId ≠ .decrementBy)
    (hk : r.commandId = .increment ∨ r.commandId = .decrement → r.keyType ≠ some .float) :
    Stores P (command env r resp) := by
  unfold command
  cases h : r.commandId <;> dsimp only
  case append => exact absurd h hc.1
  case set => exact absurd h hc.2.1
  case incrementBy => exact absurd h hc.2.2.1
  case decrementBy => exact absurd h hc.2.2.2
  case increment =>
    refine Stores.orErr fun k _ => ?_
    rw [if_neg (hk (.inl h))]
    exact Stores.incrementIntBy hi
  case decrement =>
    refine Stores.orErr fun k _ => ?_
    rw [if_neg (hk (.inr h))]
    exact Stores.incrementIntBy hi
  case delete =>
    unfold dispatchDelete
    split
    · trivial
    · refine Stores.orErr fun k _ => ?_
      intro o _
      refine ⟨fun v hv => by simp at hv, ?_⟩
      dsimp only
      split <;> trivial
  case echo =>
    unfold dispatchEcho
    split <;> trivial
  case «exists» =>
    unfold dispatchExists
    split
    · trivial
    · refine Stores.orErr fun args _ => Stores.allExist (fun _ => ?_) _
      trivial
  case get =>
    refine Stores.orErr fun k _ => Stores.keyRef fun o => ?_
    split
    · trivial
    · split
      · split <;> trivial
      · trivial
  case is =>
    refine Stores.orErr fun t _ => Stores.orErr fun args _ => Stores.allAre (fun _ => ?_) _
    trivial
  case keys =>
    refine Stores.orErr fun k _ => Stores.resolveKeyType fun t => ?_
    split
    · refine Stores.keyRef fun o => ?_
      split <;> trivial
    · trivial
  case length =>
    have : ∀ t k, Stores P (lengthAs env t k resp) := by
      intro t k
      refine Stores.keyRef fun o => ?_
      split
      · trivial
      · split <;> trivial
    refine Stores.orErr fun k _ => Stores.resolveKeyType fun t => ?_
    split
    all_goals first | exact this _ _ | trivial
  case rename =>
    unfold dispatchRename
    split
    · trivial
    · refine Stores.orErr fun k _ => Stores.orErr fun a _ => Stores.readKey fun o => ?_
      dsimp only
      split
      · trivial
      · refine Stores.readKey fun o => ?_
        dsimp only
        split
        · trivial
        · intro o ho
          refine ⟨fun v hv => by simp at hv, ?_⟩
          cases o with
          | none => trivial
          | some v =>
            refine fun o' _ => ⟨?_, trivial⟩
            intro w hw
            cases hw
            exact ho v rfl
  case stats =>
    unfold dispatchStats
    split
    · trivial
    · refine Stores.statsLoop (fun _ => ?_) _ _
      trivial
  case type =>
    refine Stores.orErr fun k _ => ?_
    split
    · trivial
    · refine Stores.readKey fun o => ?_
      dsimp only
      split <;> trivial

theorem stores_send {env : Env} {b : Builder} (hi : ∀ i, P (.integer i))
    (hc : b.commandId ≠ .append ∧ b.commandId ≠ .set ∧ b.commandId ≠ .incrementBy ∧ b.commandId ≠ .decrementBy)
    (hk : b.commandId = .increment ∨ b.commandId = .decrement → b.keyType ≠ some .float) :
    Stores P (Client.send env b) := by
  refine Stores.andThen (Stores.andThen (stores_command hi hc hk) Stores.countOutcome) fun r => ?_
  cases r with
  | ok resp => dsimp only; split <;> trivial
  | _ => trivial

theorem Stores.bind {p : Client.Job α} (hp : Stores P p) {f : α → Client.Job β} (hf : ∀ a, Stores P (f a)) :
    Stores P (Client.bind p f) := by
  refine Stores.andThen hp fun r => ?_
  rcases r with (_ | _) | _ | _ | _
  · trivial
  · exact hf _
  all_goals trivial

end Hop
