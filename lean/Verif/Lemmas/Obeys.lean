import Verif.Lemmas.MapSet
import Verif.Lemmas.Concurrent

/-! # What every single operation of a program does to the entry it is applied to -/

namespace Hop

open Prog Spec

/-- As long as every entry the program finds satisfies `A`, each of its operations changes the entry of its
key as `R` allows. -/
def Obeys {α} (A : Bytes → Option Value → Prop) (R : Bytes → Option Value → Option Value → Prop) : Prog α → Prop
  | .done _ => True
  | .onKey k upd next => ∀ o, A k o → R k o (upd o) ∧ Obeys A R (next o)
  | .onCtr _ _ next => ∀ o, Obeys A R (next o)

variable {A : Bytes → Option Value → Prop} {R : Bytes → Option Value → Option Value → Prop}

theorem Obeys.andThen {α β : Type} {p : Prog α} (hp : Obeys A R p) {f : Outcome DispatchError α → Prog β}
    (hf : ∀ r, Obeys A R (f r)) : Obeys A R (p.andThen f) := by
  induction p with
  | done r => exact hf r
  | onKey k upd next ih => exact fun o ho => ⟨(hp o ho).1, ih o (hp o ho).2⟩
  | onCtr m upd next ih => exact fun o => ih o (hp o)

/-- One step of an obedient program: it stays obedient and changes each entry as allowed. -/
theorem Obeys.step {α} {p : Prog α} (hp : Obeys A R p) (hrefl : ∀ k o, A k o → R k o o) {db : Db}
    (hdb : ∀ k, A k (db.keys k)) :
    Obeys A R (p.step db).1 ∧ ∀ k, R k (db.keys k) ((p.step db).2.keys k) := by
  cases p with
  | done r => exact ⟨trivial, fun k => hrefl k _ (hdb k)⟩
  | onKey k upd next =>
    refine ⟨(hp _ (hdb k)).2, fun k' => ?_⟩
    simp only [Prog.step, Db.setKey]
    split
    · subst_vars; exact (hp _ (hdb _)).1
    · exact hrefl _ _ (hdb _)
  | onCtr m upd next => exact ⟨hp _, fun k => hrefl k _ (hdb k)⟩

/-- Running an obedient program alone. -/
theorem Obeys.run {α} {p : Prog α} (hp : Obeys A R p) (hrefl : ∀ k o, A k o → R k o o)
    (htrans : ∀ k a b c, A k a → R k a b → R k b c → R k a c) (hkeep : ∀ k a b, A k a → R k a b → A k b)
    {db : Db} (hdb : ∀ k, A k (db.keys k)) (k : Bytes) : R k (db.keys k) ((p.run db).2.keys k) := by
  induction p generalizing db with
  | done r => exact hrefl k _ (hdb k)
  | onKey k' upd next ih =>
    have h := Obeys.step hp hrefl hdb
    exact htrans k _ _ _ (hdb k) (h.2 k) (ih _ h.1 (fun k => hkeep k _ _ (hdb k) (h.2 k)))
  | onCtr m upd next ih =>
    have h := Obeys.step hp hrefl hdb
    exact htrans k _ _ _ (hdb k) (h.2 k) (ih _ h.1 (fun k => hkeep k _ _ (hdb k) (h.2 k)))

/-- Under every schedule of obedient threads, what has happened to each entry is allowed. -/
theorem Obeys.exec {α} {p : Pool α} (hp : ∀ t ∈ p.threads, Obeys A R t) (hrefl : ∀ k o, A k o → R k o o)
    (htrans : ∀ k a b c, A k a → R k a b → R k b c → R k a c) (hkeep : ∀ k a b, A k a → R k a b → A k b)
    (hdb : ∀ k, A k (p.db.keys k)) (sched : List Nat) :
    (∀ t ∈ (p.exec sched).threads, Obeys A R t) ∧ ∀ k, R k (p.db.keys k) ((p.exec sched).db.keys k) := by
  induction sched using snoc_induction with
  | h0 => exact ⟨hp, fun k => hrefl k _ (hdb k)⟩
  | h1 s i ih =>
    rw [Pool.exec_snoc]
    cases ht : (p.exec s).threads[i]? with
    | none => rw [Pool.stepAt_none ht]; exact ih
    | some t =>
      have hw := Obeys.step (ih.1 t (List.mem_of_getElem? ht)) hrefl (db := (p.exec s).db)
        fun k => hkeep k _ _ (hdb k) (ih.2 k)
      rw [Pool.stepAt_some ht]
      refine ⟨?_, fun k => htrans k _ _ _ (hdb k) (ih.2 k) (hw.2 k)⟩
      intro t' ht'
      rcases List.mem_or_eq_of_mem_set ht' with h | rfl
      · exact ih.1 t' h
      · exact hw.1

section builders

variable {α β : Type}

theorem Obeys.orErr {o : Option β} {e : DispatchError} {f : β → Prog α} (h : ∀ a, o = some a → Obeys A R (f a)) :
    Obeys A R (orErr o e f) := by
  cases o with
  | none => trivial
  | some a => exact h a rfl

theorem Obeys.readKey (hrefl : ∀ k o, A k o → R k o o) {k : Bytes} {next : Option Value → Prog α}
    (h : ∀ o, A k o → Obeys A R (next o)) : Obeys A R (readKey k next) :=
  fun o ho => ⟨hrefl k o ho, h o ho⟩

theorem Obeys.keyRef (hrefl : ∀ k o, A k o → R k o o) {env : Env} {k : Bytes} {next : Option Value → Prog α}
    (h : ∀ o, Obeys A R (next o)) : Obeys A R (keyRef env k next) := by
  unfold Hop.keyRef
  split
  · trivial
  · split
    · trivial
    · exact Obeys.readKey hrefl fun o _ => h o

theorem Obeys.keyOrInsertLoop (hrefl : ∀ k o, A k o → R k o o) {k : Bytes} {mk : Value}
    {body : Value → Value × Outcome DispatchError α}
    (hi : A k none → ∀ o, A k o → R k o (some mk))
    (hb : ∀ v, A k (some v) → R k (some v) (some (body v).1)) (n : Nat) :
    Obeys A R (keyOrInsertLoop k mk body n) := by
  induction n with
  | zero => trivial
  | succ n ih =>
    intro o ho
    cases o with
    | some v => exact ⟨hb v ho, trivial⟩
    | none => exact ⟨hrefl k _ ho, fun o' ho' => ⟨hi ho o' ho', ih⟩⟩

theorem Obeys.keyOrInsertWith (hrefl : ∀ k o, A k o → R k o o) {env : Env} {k : Bytes} {mk : Value}
    {body : Value → Value × Outcome DispatchError α}
    (hi : isInternal k = false → A k none → ∀ o, A k o → R k o (some mk))
    (hb : isInternal k = false → ∀ v, A k (some v) → R k (some v) (some (body v).1)) :
    Obeys A R (keyOrInsertWith env k mk body) := by
  unfold Hop.keyOrInsertWith
  split
  · trivial
  · rename_i hk
    have hk : isInternal k = false := by simpa using hk
    split
    · trivial
    · exact Obeys.keyOrInsertLoop hrefl (hi hk) (hb hk) _

theorem Obeys.resolveKeyType (hrefl : ∀ k o, A k o → R k o o) {r : Request} {k : Bytes} {d : KeyType}
    {next : KeyType → Prog α} (h : ∀ t, Obeys A R (next t)) : Obeys A R (resolveKeyType r k d next) := by
  unfold Hop.resolveKeyType
  cases r.keyType with
  | some t => exact h t
  | none => exact Obeys.readKey hrefl fun o _ => h _

theorem Obeys.allExist (hrefl : ∀ k o, A k o → R k o o) {next : Bool → Prog α} (h : ∀ b, Obeys A R (next b))
    (ks : List Bytes) : Obeys A R (allExist next ks) := by
  induction ks with
  | nil => exact h _
  | cons k ks ih => exact Obeys.readKey hrefl fun o _ => by (try dsimp only); split <;> first | exact ih | exact h _

theorem Obeys.allAre (hrefl : ∀ k o, A k o → R k o o) {t : KeyType} {next : Bool → Prog α}
    (h : ∀ b, Obeys A R (next b)) (ks : List Bytes) : Obeys A R (allAre t next ks) := by
  induction ks with
  | nil => exact h _
  | cons k ks ih => exact Obeys.readKey hrefl fun o _ => by (try dsimp only); split <;> first | exact ih | exact h _

theorem Obeys.statsLoop {next : BMap → Prog α} (h : ∀ m, Obeys A R (next m)) (cs : List Metric) (m : BMap) :
    Obeys A R (statsLoop next cs m) := by
  induction cs generalizing m with
  | nil => exact h _
  | cons c cs ih =>
    intro o
    cases o with
    | none => exact ih _
    | some n => dsimp only; split <;> exact ih _

theorem Obeys.countOutcome {env : Env} (r : Outcome DispatchError Bytes) : Obeys A R (countOutcome env r) := by
  cases r <;> simp only [Hop.countOutcome, incrementMetric]
  · intro o; dsimp only; split <;> trivial
  · intro o; dsimp only; split <;> trivial
  · trivial
  · trivial

end builders

/-- The commands that look a key up, creators it if it is missing. -/
def creators : List CommandId := [.append, .decrement, .decrementBy, .increment, .incrementBy, .set]

/-- What an operation may do to entries for every request to be obedient: leave them alone; on the first
argument of a creators command, unless it is an internal key, create a default value or replace the value by
one of the same type that is well-formed if the old one is; on the first argument of Set, Delete and Rename,
remove the entry; on the second argument of Rename, store the value removed from the first. -/
structure Permits (A : Bytes → Option Value → Prop) (R : Bytes → Option Value → Option Value → Prop) (r : Request) : Prop where
  refl : ∀ k o, A k o → R k o o
  create : r.commandId ∈ creators → ∀ k, r.arg 0 = some k → isInternal k = false → A k none → ∀ t o, A k o →
    R k o (some (Value.default t))
  change : r.commandId ∈ creators → ∀ k, r.arg 0 = some k → isInternal k = false → ∀ v w, A k (some v) →
    w.kind = v.kind → (WF v → WF w) → R k (some v) (some w)
  remove : r.commandId ∈ [.set, .delete, .rename] → ∀ k, r.arg 0 = some k → ∀ o, A k o → R k o none
  move : r.commandId = .rename → ∀ a b, r.arg 0 = some a → r.arg 1 = some b → ∀ v, A a (some v) → ∀ o, A b o →
    R b o (some v)

section commands

variable {env : Env} {r : Request} {resp : Bytes}

theorem Permits.int (h : Permits A R r) (hc : r.commandId ∈ creators) {k : Bytes} (hk : r.arg 0 = some k) (a : Int64) :
    Obeys A R (incrementIntBy env k a resp) := by
  refine Obeys.keyOrInsertWith h.refl (fun hi ha o ho => h.create hc k hk hi ha _ o ho) fun hi v hv => ?_
  cases v with
  | integer i => dsimp only; split <;> exact h.change hc k hk hi _ _ hv rfl fun _ => trivial
  | _ => exact h.change hc k hk hi _ _ hv rfl id

theorem Permits.float (h : Permits A R r) (hc : r.commandId ∈ creators) {k : Bytes} (hk : r.arg 0 = some k) (a : F64) :
    Obeys A R (incrementFloatBy env k a resp) := by
  refine Obeys.keyOrInsertWith h.refl (fun hi ha o ho => h.create hc k hk hi ha _ o ho) fun hi v hv => ?_
  cases v with
  | float i => exact h.change hc k hk hi _ _ hv rfl fun _ => trivial
  | _ => exact h.change hc k hk hi _ _ hv rfl id

theorem Permits.set (h : Permits A R r) (hc : r.commandId = .set) : Obeys A R (dispatchSet env r resp) := by
  have hcr : r.commandId ∈ creators := by rw [hc]; decide
  refine Obeys.orErr fun k hk => ?_
  have hk := Request.key_arg hk
  have hrem := h.remove (by rw [hc]; decide) k hk
  have hcre : ∀ t, isInternal k = false → A k none → ∀ o, A k o → R k o (some (Value.default t)) :=
    fun t hi ha o ho => h.create hcr k hk hi ha t o ho
  split
  · trivial
  · refine Obeys.resolveKeyType h.refl fun t => ?_
    cases t <;> refine Obeys.orErr fun a ha o ho => ⟨hrem o ho, Obeys.keyOrInsertWith h.refl (hcre _) fun hi v hv => ?_⟩ <;>
      have hch := fun w => h.change hcr k hk hi v w hv
    case map =>
      have hn : (a.map Prod.fst).Nodup := by
        simp only [Option.map_eq_some_iff] at ha
        obtain ⟨args, -, rfl⟩ := ha
        exact convMapAux_nodup _ _ (by simp)
      cases v with
      | map old =>
        dsimp only
        split
        · exact hch _ rfl fun _ => hn
        · exact hch _ rfl id
      | _ => exact hch _ rfl id
    case set =>
      have hn : a.Nodup := by
        simp only [Option.map_eq_some_iff] at ha
        obtain ⟨args, -, rfl⟩ := ha
        exact foldl_insert_nodup _ _ (by simp)
      cases v with
      | set old =>
        dsimp only
        split
        · exact hch _ rfl fun _ => hn
        · exact hch _ rfl id
      | _ => exact hch _ rfl id
    all_goals
      cases v <;> first
        | exact hch _ rfl id
        | exact hch _ rfl fun _ => trivial

theorem Permits.command (h : Permits A R r) : Obeys A R (command env r resp) := by
  unfold Hop.command
  cases hc : r.commandId <;> dsimp only
  case append =>
    have hcr : r.commandId ∈ creators := by rw [hc]; decide
    refine Obeys.orErr fun k hk => Obeys.orErr fun args _ => Obeys.resolveKeyType h.refl fun t => ?_
    have hcre : ∀ t, isInternal k = false → A k none → ∀ o, A k o → R k o (some (Value.default t)) :=
      fun t hi ha o ho => h.create hcr k hk hi ha t o ho
    cases t
    case bytes | list | string =>
      all_goals
        refine Obeys.keyOrInsertWith h.refl (hcre _) fun hi v hv => ?_
        have hch := fun w => h.change hcr k hk hi v w hv
        cases v <;> first
          | exact hch _ rfl id
          | exact hch _ rfl fun _ => trivial
    all_goals trivial
  case decrementBy =>
    have hcr : r.commandId ∈ creators := by rw [hc]; decide
    refine Obeys.orErr fun k hk => ?_
    have hk := Request.key_arg hk
    split
    · split
      · exact h.int hcr hk _
      · trivial
    · split
      · exact h.float hcr hk _
      · trivial
  case incrementBy =>
    have hcr : r.commandId ∈ creators := by rw [hc]; decide
    refine Obeys.orErr fun k hk => ?_
    have hk := Request.key_arg hk
    split
    · exact h.int hcr hk _
    · split
      · exact h.float hcr hk _
      · trivial
  case increment | decrement =>
    all_goals
      have hcr : r.commandId ∈ creators := by rw [hc]; decide
      refine Obeys.orErr fun k hk => ?_
      have hk := Request.key_arg hk
      split
      · exact h.float hcr hk _
      · exact h.int hcr hk _
  case delete =>
    unfold dispatchDelete
    split
    · trivial
    · refine Obeys.orErr fun k hk o ho => ⟨h.remove (by rw [hc]; decide) k (Request.key_arg hk) o ho, ?_⟩
      cases o <;> trivial
  case echo => unfold dispatchEcho; split <;> trivial
  case «exists» =>
    unfold dispatchExists
    split
    · trivial
    · exact Obeys.orErr fun a _ => Obeys.allExist h.refl (fun b => by trivial) _
  case get =>
    refine Obeys.orErr fun k hk => Obeys.keyRef h.refl fun o => ?_
    cases o with
    | none => trivial
    | some v => dsimp only; split <;> (try split) <;> trivial
  case is => exact Obeys.orErr fun t _ => Obeys.orErr fun a _ => Obeys.allAre h.refl (fun b => by trivial) _
  case keys =>
    refine Obeys.orErr fun k hk => Obeys.resolveKeyType h.refl fun t => ?_
    cases t <;> first
      | trivial
      | exact Obeys.keyRef h.refl fun o => by (try dsimp only); split <;> trivial
  case length =>
    refine Obeys.orErr fun k hk => Obeys.resolveKeyType h.refl fun t => ?_
    cases t <;> first
      | trivial
      | exact Obeys.keyRef h.refl fun o => by (try dsimp only); split <;> (try split) <;> trivial
  case rename =>
    unfold dispatchRename
    split
    · trivial
    · refine Obeys.orErr fun a ha => Obeys.orErr fun b hb => Obeys.readKey h.refl fun o _ => ?_
      dsimp only
      split
      · trivial
      · refine Obeys.readKey h.refl fun o _ => ?_
        dsimp only
        split
        · trivial
        · intro o ho
          refine ⟨h.remove (by rw [hc]; decide) a ha o ho, ?_⟩
          cases o with
          | none => trivial
          | some v => exact fun o' ho' => ⟨h.move hc a b ha hb v ho o' ho', trivial⟩
  case set => exact h.set hc
  case stats =>
    unfold dispatchStats
    split
    · trivial
    · exact Obeys.statsLoop (fun m => by trivial) _ _
  case type =>
    refine Obeys.orErr fun k hk => ?_
    split
    · trivial
    · refine Obeys.readKey h.refl fun o _ => ?_
      cases o <;> trivial

theorem Permits.dispatch (h : Permits A R r) : Obeys A R (dispatch env r resp) :=
  h.command.andThen fun r => Obeys.countOutcome r

end commands

end Hop
