import Verif.Props.UsersStore
import Verif.Props.Story
import Verif.Props.Exclusive

/-! # C161–C164: users who make calls of all kinds, and what becomes of the values that are stored -/

namespace Hop

open Spec Prog

/-- The requests users have made so far, each with its buffer and how far it is. -/
def Spec.requested (p : UserPool) : List ((Request × Bytes) × Prog Bytes) := p.made.filterMap requestMade

theorem mem_requests {p : UserPool} {e : (Request × Bytes) × Prog Bytes} (h : e ∈ requested p) :
    (.dispatch e.1.1 e.1.2, .command e.2) ∈ p.made := mem_requestMade (r := e.1) (q := e.2) h

/-- The requests are answered as if their clients did nothing else. -/
theorem users_reduced (env : Env) (shard : UInt32 → Nat) (us : List User) (h : HopEngine) (sched : List Nat) (view : Request → Call)
    (hv : ∀ e ∈ requested ((userPool us h).exec env shard sched), Views e.1.1 (view e.1.1).cmd (view e.1.1).kt (view e.1.1).args) :
    ∃ (l : List ((Request × Bytes) × Prog Bytes)) (turns : List Nat),
      l.Perm (requested ((userPool us h).exec env shard sched)) ∧ Sees (l.map Prod.fst) (l.map fun e => view e.1.1) ∧
      (l.map Prod.fst).length ≤ ((userPool us h).exec env shard sched).made.length ∧
      ((userPool us h).exec env shard sched).engine.db.keys = ((Pool.start env (l.map Prod.fst) h.db).exec turns).db.keys ∧
      ((Pool.start env (l.map Prod.fst) h.db).exec turns).threads.length = l.length ∧
      ∀ (j : Nat) e u, l[j]? = some e → ((Pool.start env (l.map Prod.fst) h.db).exec turns).threads[j]? = some u →
        SameEnd e.2 u ∧ (e.1.1.commandId ≠ .stats → e.2 = u) := by
  obtain ⟨l, turns, h1, h2, h3⟩ := C153_requests env shard us h sched
  refine ⟨l, turns, h1, ?_, ?_, h2, ?_, ?_⟩
  · have : ∀ l' : List ((Request × Bytes) × Prog Bytes), (∀ e ∈ l', e ∈ l) →
        Sees (l'.map Prod.fst) (l'.map fun e => view e.1.1) := by
      intro l'
      induction l' with
      | nil => exact fun _ => .nil
      | cons e l' ih =>
        intro hl
        exact .cons (hv e (h1.mem_iff.mp (hl e List.mem_cons_self))) (ih fun e he => hl e (by simp [he]))
    exact this l fun _ h => h
  · rw [List.length_map, h1.length_eq]
    exact List.length_filterMap_le _ _
  · rw [Pool.exec_length]
    simp [Pool.start]
  · intro j e u hj hu
    obtain ⟨u', hu', g⟩ := h3 j e.1 e.2 hj
    rw [hu] at hu'
    cases hu'
    exact g

theorem sameEnd_err {t u : Prog Bytes} {e : DispatchError} (h : SameEnd t u) : t = .done (.err e) → u = .done (.err e) := by
  rintro rfl
  cases u with
  | done o => cases o <;> simp_all [SameEnd]
  | _ => cases h

theorem sameEnd_ended {t u : Prog Bytes} (h : SameEnd t u) : Ended t ↔ Ended u := by
  cases t with
  | done o =>
    cases u with
    | done o' => exact Iff.rfl
    | _ => cases o <;> cases h
  | _ => cases u <;> first | exact Iff.rfl | cases h

/-- Where a user stands between calls, all calls have ended. -/
theorem users_idle {env : Env} {shard : UInt32 → Nat} {us : List User} {h : HopEngine} {sched : List Nat}
    (hi : ∀ u ∈ ((userPool us h).exec env shard sched).users, u.now = none) :
    ∀ e ∈ requested ((userPool us h).exec env shard sched), Ended e.2 := by
  obtain ⟨owned, steps, ok⟩ := told_exec env shard us h sched
  intro e he
  have hm := mem_requests he
  unfold UserPool.made at hm
  obtain ⟨u, hu, hm⟩ := List.mem_flatMap.mp hm
  simp only [UserState.made, hi u hu, Option.toList_none, List.append_nil] at hm
  have := ok.ended u hu _ hm
  cases he2 : e.2 with
  | done o => trivial
  | _ => rw [he2] at this; cases this

/-! ## C161 -/

/-- C161. Users make calls of all kinds. At every moment there is a story for everything that is stored, told of the requests
made so far. -/
theorem C161_chronicle (env : Env) (shard : UInt32 → Nat) (us : List User) (h : HopEngine) (sched : List Nat) (view : Request → Call)
    (hv : ∀ e ∈ requested ((userPool us h).exec env shard sched), Views e.1.1 (view e.1.1).cmd (view e.1.1).kt (view e.1.1).args)
    (hc : Roomy ((userPool us h).exec env shard sched).made.length h.db.ctrs) :
    ∃ (l : List ((Request × Bytes) × Prog Bytes)) (story : Bytes → Story), l.Perm (requested ((userPool us h).exec env shard sched)) ∧
      Chronicle env (l.map fun e => view e.1.1) h.db.keys (l.map Prod.snd) ((userPool us h).exec env shard sched).engine.db.keys story := by
  obtain ⟨l, turns, h1, hs, hlen, h2, h3, h4⟩ := users_reduced env shard us h sched view hv
  obtain ⟨story, hch⟩ := C124_chronicle (env := env) hs h.db (fun m => by have := hc m; omega) turns
  rw [← h2] at hch
  refine ⟨l, story, h1, ⟨hch.leads, hch.once, hch.apart, hch.single, ?_, hch.made, hch.home⟩⟩
  intro k i hk hi
  obtain ⟨g1, g2⟩ := hch.fine k i hk hi
  refine ⟨g1, fun e he => ?_⟩
  rw [List.getElem?_map] at he
  obtain ⟨x, hx, he⟩ := Option.map_eq_some_iff.mp he
  have hil := (List.getElem?_eq_some_iff.mp hx).1
  have hu := List.getElem?_eq_getElem (h3 ▸ hil)
  exact g2 e (hu.trans (congrArg some (sameEnd_err (h4 i x _ hx hu).1 he)))

/-- C161 for counters: if of the requests that can give `k` a value only Increments name it, and no Rename moves anything to it,
then an integer stored at `k` is never more than it was at first (or 0) plus the number of Increments made. -/
theorem C161_never_overcounts (env : Env) (shard : UInt32 → Nat) (us : List User) (h : HopEngine) (sched : List Nat) (view : Request → Call)
    (hv : ∀ e ∈ requested ((userPool us h).exec env shard sched), Views e.1.1 (view e.1.1).cmd (view e.1.1).kt (view e.1.1).args)
    (hc : Roomy ((userPool us h).exec env shard sched).made.length h.db.ctrs) (k : Bytes)
    (hno : ∀ e ∈ requested ((userPool us h).exec env shard sched), target (view e.1.1) ≠ some k)
    (hinc : ∀ e ∈ requested ((userPool us h).exec env shard sched), (view e.1.1).args[0]? = some k → (∃ t, Makes (view e.1.1) t) →
      (view e.1.1).cmd = .increment ∧ (view e.1.1).kt ≠ some .float) (n : Int64)
    (hn : ((userPool us h).exec env shard sched).engine.db.keys k = some (.integer n)) :
    ∃ (b : Int64) (m : Nat), (h.db.keys k = some (.integer b) ∨ b = 0) ∧
      m ≤ (requested ((userPool us h).exec env shard sched)).countP
        (fun e => (view e.1.1).cmd = .increment ∧ (view e.1.1).args[0]? = some k) ∧ n = Int64.ofInt (b.toInt + m) := by
  obtain ⟨l, turns, h1, hs, hlen, h2, h3, h4⟩ := users_reduced env shard us h sched view hv
  rw [h2] at hn
  obtain ⟨b, m, g1, g2, g3⟩ := C124_never_overcounts (env := env) hs h.db (fun m => by have := hc m; omega) turns k
    (fun c hcm => by
      obtain ⟨e, he, rfl⟩ := List.mem_map.mp hcm
      exact hno e (h1.mem_iff.mp he))
    (fun c hcm => by
      obtain ⟨e, he, rfl⟩ := List.mem_map.mp hcm
      exact hinc e (h1.mem_iff.mp he)) n hn
  refine ⟨b, m, g1, ?_, g3⟩
  rw [List.countP_map] at g2
  rw [← h1.countP_eq]
  exact g2

/-! ## C162 -/

/-- C162. Users whose requests only read, delete and rename, and who make all other calls as they like: at every moment every value
that was stored is accounted for. -/
theorem C162_accounts (env : Env) (shard : UInt32 → Nat) (us : List User) (h : HopEngine) (sched : List Nat) (view : Request → Call)
    (hv : ∀ e ∈ requested ((userPool us h).exec env shard sched), Views e.1.1 (view e.1.1).cmd (view e.1.1).kt (view e.1.1).args)
    (hm : ∀ e ∈ requested ((userPool us h).exec env shard sched), Mover (view e.1.1))
    (hc : Roomy ((userPool us h).exec env shard sched).made.length h.db.ctrs) :
    ∃ (l : List ((Request × Bytes) × Prog Bytes)) (place : Bytes → Place), l.Perm (requested ((userPool us h).exec env shard sched)) ∧
      Accounts (l.map fun e => view e.1.1) h.db.keys place (l.map Prod.snd) ((userPool us h).exec env shard sched).engine.db.keys := by
  obtain ⟨l, turns, h1, hs, hlen, h2, h3, h4⟩ := users_reduced env shard us h sched view hv
  obtain ⟨place, ha⟩ := C123_accounts (env := env) hs h.db (fun c hcm => by
      obtain ⟨e, he, rfl⟩ := List.mem_map.mp hcm
      exact hm e (h1.mem_iff.mp he)) (fun m => by have := hc m; omega) turns
  rw [← h2] at ha
  refine ⟨l, place, h1, ⟨ha.apart, ha.stored, ha.covers, ?_, ?_⟩⟩
  · intro k i hk hp
    obtain ⟨g1, t, ht, hne⟩ := ha.moving k i hk hp
    have hil : i < l.length := h3 ▸ (List.getElem?_eq_some_iff.mp ht).1
    refine ⟨g1, l[i].2, ?_, fun hen => hne ((sameEnd_ended (h4 i _ t (List.getElem?_eq_getElem hil) ht).1).mp hen)⟩
    rw [List.getElem?_map, List.getElem?_eq_getElem hil]
    rfl
  · intro k i hk hp
    obtain ⟨g1, g2⟩ := ha.dropped k i hk hp
    refine ⟨g1, fun e he => ?_⟩
    rw [List.getElem?_map] at he
    obtain ⟨x, hx, he⟩ := Option.map_eq_some_iff.mp he
    have hil := (List.getElem?_eq_some_iff.mp hx).1
    have hu := List.getElem?_eq_getElem (h3 ▸ hil)
    exact g2 e (hu.trans (congrArg some (sameEnd_err (h4 i x _ hx hu).1 he)))

/-- C162, nothing is lost: if no Delete has been made and no two Renames with the same target, and no call is underway, each value is
stored at exactly one key. -/
theorem C162_nothing_lost (env : Env) (shard : UInt32 → Nat) (us : List User) (h : HopEngine) (sched : List Nat) (view : Request → Call)
    (hv : ∀ e ∈ requested ((userPool us h).exec env shard sched), Views e.1.1 (view e.1.1).cmd (view e.1.1).kt (view e.1.1).args)
    (hm : ∀ e ∈ requested ((userPool us h).exec env shard sched), Mover (view e.1.1))
    (hc : Roomy ((userPool us h).exec env shard sched).made.length h.db.ctrs)
    (hnd : ∀ e ∈ requested ((userPool us h).exec env shard sched), (view e.1.1).cmd ≠ .delete)
    (hdis : ((requested ((userPool us h).exec env shard sched)).filterMap fun e => target (view e.1.1)).Nodup)
    (hi : ∀ u ∈ ((userPool us h).exec env shard sched).users, u.now = none) :
    ∃ home : Bytes → Bytes,
      (∀ k v, h.db.keys k = some v → ((userPool us h).exec env shard sched).engine.db.keys (home k) = some v) ∧
      (∀ k k', h.db.keys k ≠ none → h.db.keys k' ≠ none → home k = home k' → k = k') ∧
      (∀ k', ((userPool us h).exec env shard sched).engine.db.keys k' ≠ none → ∃ k, h.db.keys k ≠ none ∧ home k = k') := by
  obtain ⟨l, turns, h1, hs, hlen, h2, h3, h4⟩ := users_reduced env shard us h sched view hv
  rw [h2]
  have hmem : ∀ (P : Call → Prop), (∀ e ∈ requested ((userPool us h).exec env shard sched), P (view e.1.1)) →
      ∀ c ∈ (l.map fun e => view e.1.1), P c := by
    intro P hP c hcm
    obtain ⟨e, he, rfl⟩ := List.mem_map.mp hcm
    exact hP e (h1.mem_iff.mp he)
  refine C123_nothing_lost (env := env) hs h.db (hmem _ hm) (fun m => by have := hc m; omega) turns (hmem _ hnd) ?_ ?_
  · have hn : (l.filterMap fun e => target (view e.1.1)).Nodup := (h1.filterMap _).nodup_iff.mpr hdis
    intro i j c d b hic hjd hcb hdb
    rw [List.getElem?_map] at hic hjd
    obtain ⟨x, hx, rfl⟩ := Option.map_eq_some_iff.mp hic
    obtain ⟨y, hy, rfl⟩ := Option.map_eq_some_iff.mp hjd
    have hp : l.Pairwise fun e e' => ∀ b, target (view e.1.1) = some b → target (view e'.1.1) ≠ some b := by
      rw [List.Nodup, List.pairwise_filterMap] at hn
      exact hn.imp fun hab b hb hb' => hab b hb b hb' rfl
    obtain ⟨hil, rfl⟩ := List.getElem?_eq_some_iff.mp hx
    obtain ⟨hjl, rfl⟩ := List.getElem?_eq_some_iff.mp hy
    rw [List.pairwise_iff_getElem] at hp
    rcases Nat.lt_trichotomy i j with hlt | heq | hlt
    · exact absurd hdb (hp i j hil hjl hlt b hcb)
    · exact heq
    · exact absurd hcb (hp j i hjl hil hlt b hdb)
  · intro t ht
    obtain ⟨j, hj⟩ := List.getElem?_of_mem ht
    have hjl : j < l.length := h3 ▸ (List.getElem?_eq_some_iff.mp hj).1
    have hx := List.getElem?_eq_getElem hjl
    exact (sameEnd_ended (h4 j _ t hx hj).1).mp (users_idle hi _ (h1.mem_iff.mp (List.getElem_mem hjl)))

/-! ## C163 -/

instance (k : Bytes) (c : Call) : Decidable (Taker k c) := by unfold Taker; infer_instance

/-- The request is a Delete of `k` or a Rename of `k` to another key, and has ended without an error. -/
def Spec.took (view : Request → Call) (k : Bytes) (e : (Request × Bytes) × Prog Bytes) : Bool :=
  decide (Taker k (view e.1.1)) && match e.2 with
    | .done (.err _) => false
    | .done _ => true
    | _ => false

theorem took_iff {view : Request → Call} {k : Bytes} {e : (Request × Bytes) × Prog Bytes} :
    took view k e = true ↔ Taker k (view e.1.1) ∧ ∃ r, e.2 = .done r ∧ ∀ x, r ≠ .err x := by
  unfold took
  rw [Bool.and_eq_true, decide_eq_true_iff]
  refine and_congr_right fun _ => ?_
  split
  · rename_i x hx
    rw [hx]
    simp
  · rename_i r hr hx
    rw [hx]
    simp only [true_iff]
    exact ⟨r, rfl, fun x hrx => hr x (by rw [hrx])⟩
  · rename_i hx
    constructor
    · intro h; cases h
    · rintro ⟨r, hr, -⟩
      exact absurd hr (hx r)

/-- C163. Users whose requests take an existing key away or leave it alone, and who make all other calls as they like: at every moment
at most one request has taken it, and if one has, the key is gone. Once no call is underway, and if a Delete of it has been made, exactly
one has. -/
theorem C163_one_taker (env : Env) (shard : UInt32 → Nat) (us : List User) (h : HopEngine) (sched : List Nat) (view : Request → Call)
    (hv : ∀ e ∈ requested ((userPool us h).exec env shard sched), Views e.1.1 (view e.1.1).cmd (view e.1.1).kt (view e.1.1).args)
    (k : Bytes) (hr : ∀ e ∈ requested ((userPool us h).exec env shard sched), Taker k (view e.1.1) ∨ Bystander k (view e.1.1))
    (hk : h.db.keys k ≠ none) (hc : Roomy ((userPool us h).exec env shard sched).made.length h.db.ctrs) :
    (requested ((userPool us h).exec env shard sched)).countP (took view k) ≤ 1 ∧
    ((∃ e ∈ requested ((userPool us h).exec env shard sched), took view k e = true) →
      ((userPool us h).exec env shard sched).engine.db.keys k = none) ∧
    ((∀ u ∈ ((userPool us h).exec env shard sched).users, u.now = none) →
      (∃ e ∈ requested ((userPool us h).exec env shard sched), ∃ more, view e.1.1 = ⟨.delete, none, k :: more⟩) →
      (requested ((userPool us h).exec env shard sched)).countP (took view k) = 1) := by
  obtain ⟨l, turns, h1, hs, hlen, h2, h3, h4⟩ := users_reduced env shard us h sched view hv
  have hrole : ∀ c ∈ (l.map fun e => view e.1.1), Taker k c ∨ Bystander k c := by
    intro c hcm
    obtain ⟨e, he, rfl⟩ := List.mem_map.mp hcm
    exact hr e (h1.mem_iff.mp he)
  have hroom : Roomy (l.map Prod.fst).length h.db.ctrs := fun m => by have := hc m; omega
  have hview : ∀ (j : Nat) e, l[j]? = some e → (l.map fun e => view e.1.1)[j]? = some (view e.1.1) := by
    intro j e hj
    rw [List.getElem?_map, hj]
    rfl
  -- a request that has taken the key has ended alike where its client does nothing else
  have hdone : ∀ (j : Nat) e, l[j]? = some e → took view k e = true →
      ∃ r, ((Pool.start env (l.map Prod.fst) h.db).exec turns).threads[j]? = some (.done r) ∧ ∀ x, r ≠ .err x := by
    intro j e hj hT
    obtain ⟨ht, r, hr, hne⟩ := took_iff.mp hT
    have hjl := (List.getElem?_eq_some_iff.mp hj).1
    have hu := List.getElem?_eq_getElem (h3 ▸ hjl)
    have hcmd : e.1.1.commandId ≠ .stats := by
      rw [(hv e (h1.mem_iff.mp (List.mem_of_getElem? hj))).command]
      rcases ht.2 with hd | hd
      · rw [hd]; decide
      · rw [hd.1]; decide
    exact ⟨r, hu.trans (congrArg some (((h4 j e _ hj hu).2 hcmd).symm.trans hr)), hne⟩
  have huniq : ∀ (i j : Nat) a b, l[i]? = some a → l[j]? = some b → took view k a = true → took view k b = true → i = j := by
    intro i j a b hi hj ha hb
    obtain ⟨r, hri, hne⟩ := hdone i a hi ha
    obtain ⟨r', hrj, hne'⟩ := hdone j b hj hb
    refine Classical.byContradiction fun hij => ?_
    obtain ⟨x, hx⟩ := (C59_at_most_one_taker hs h.db k hrole hk hroom turns i _ r (hview i a hi) (took_iff.mp ha).1 hri hne).2
      j _ r' (hview j b hj) (took_iff.mp hb).1 (fun hh => hij hh.symm) hrj
    exact hne' x hx
  have hle : (requested ((userPool us h).exec env shard sched)).countP (took view k) ≤ 1 := by
    rw [← h1.countP_eq]
    exact countP_le_one _ _ huniq
  refine ⟨hle, ?_, ?_⟩
  · rintro ⟨e, he, hT⟩
    obtain ⟨i, hi⟩ := List.getElem?_of_mem (h1.mem_iff.mpr he)
    obtain ⟨r, hri, hne⟩ := hdone i e hi hT
    rw [h2]
    exact (C59_at_most_one_taker hs h.db k hrole hk hroom turns i _ r (hview i e hi) (took_iff.mp hT).1 hri hne).1
  · rintro hi ⟨e, he, more, hd⟩
    obtain ⟨d, hdi⟩ := List.getElem?_of_mem (h1.mem_iff.mpr he)
    have hfin : ((Pool.start env (l.map Prod.fst) h.db).exec turns).finished := by
      intro t ht
      obtain ⟨j, hj⟩ := List.getElem?_of_mem ht
      have hjl : j < l.length := h3 ▸ (List.getElem?_eq_some_iff.mp hj).1
      have := (sameEnd_ended (h4 j _ t (List.getElem?_eq_getElem hjl) hj).1).mp (users_idle hi _ (h1.mem_iff.mp (List.getElem_mem hjl)))
      cases t with
      | done o => exact ⟨o, rfl⟩
      | _ => cases this
    obtain ⟨-, i, c, r, hic, htk, hir, hne, -⟩ := C59_exactly_one_taker hs h.db k hrole hk hroom turns hfin d more
      (by rw [hview d e hdi, hd])
    have hil : i < l.length := h3 ▸ (List.getElem?_eq_some_iff.mp hir).1
    have hx := List.getElem?_eq_getElem hil
    rw [hview i _ hx] at hic
    cases hic
    have hcmd : l[i].1.1.commandId ≠ .stats := by
      rw [(hv _ (h1.mem_iff.mp (List.getElem_mem hil))).command]
      rcases htk.2 with hd | hd
      · rw [hd]; decide
      · rw [hd.1]; decide
    have hT : took view k l[i] = true := took_iff.mpr ⟨htk, r, (h4 i _ _ hx hir).2 hcmd, hne⟩
    have : 0 < (requested ((userPool us h).exec env shard sched)).countP (took view k) :=
      List.countP_pos_iff.mpr ⟨_, h1.mem_iff.mp (List.getElem_mem hil), hT⟩
    omega

/-! ## C164 -/

/-- C164. Users append blocks of arguments to an existing bytes, list or string key, read it or work steadily on other keys, and make
all other calls as they like. When no call is underway there is an order of the requests made such that the content is the initial
content followed by all blocks in that order, and every append has been answered with the content up to and including its own block. -/
theorem C164_appends (env : Env) (shard : UInt32 → Nat) (us : List User) (h : HopEngine) (sched : List Nat) (view : Request → Call)
    (hv : ∀ e ∈ requested ((userPool us h).exec env shard sched), Views e.1.1 (view e.1.1).cmd (view e.1.1).kt (view e.1.1).args)
    (K : Bytes → Prop) (k : Bytes) (hkK : K k) (t : KeyType) (ht : t = .bytes ∨ t = .list ∨ t = .string)
    (block : Request → Option (List Bytes))
    (hr : ∀ e ∈ requested ((userPool us h).exec env shard sched), AppendRole K k t (block e.1.1) (view e.1.1))
    (hu : ¬ unusable env.mode k) (v : Value) (hvt : v.kind = t) (hstart : h.db.keys k = some v) (hex : ∀ k, K k → h.db.keys k ≠ none)
    (hc : Roomy ((userPool us h).exec env shard sched).made.length h.db.ctrs)
    (hd : Deliverable env.mode (.value (plus v ((requested ((userPool us h).exec env shard sched)).filterMap fun e => block e.1.1).flatten)))
    (hi : ∀ u ∈ ((userPool us h).exec env shard sched).users, u.now = none) :
    ∃ l : List ((Request × Bytes) × Prog Bytes), l.Perm (requested ((userPool us h).exec env shard sched)) ∧
      ((userPool us h).exec env shard sched).engine.db.keys k = some (plus v (l.filterMap fun e => block e.1.1).flatten) ∧
      ∀ l1 e l2, l = l1 ++ e :: l2 → block e.1.1 ≠ none →
        e.2 = .done (.ok (e.1.2 ++ frame (.value (plus v ((l1 ++ [e]).filterMap fun e => block e.1.1).flatten)))) := by
  obtain ⟨l, turns, h1, hs, hlen, h2, h3, h4⟩ := users_reduced env shard us h sched view hv
  have hrole : All2 (AppendRole K k t) (l.map fun e => block e.1.1) (l.map fun e => view e.1.1) := by
    have : ∀ l' : List ((Request × Bytes) × Prog Bytes), (∀ e ∈ l', e ∈ l) →
        All2 (AppendRole K k t) (l'.map fun e => block e.1.1) (l'.map fun e => view e.1.1) := by
      intro l'
      induction l' with
      | nil => exact fun _ => .nil
      | cons e l' ih =>
        intro hl
        exact .cons (hr e (h1.mem_iff.mp (hl e List.mem_cons_self))) (ih fun e he => hl e (by simp [he]))
    exact this l fun _ h => h
  have hfin : ((Pool.start env (l.map Prod.fst) h.db).exec turns).finished := by
    intro t ht
    obtain ⟨j, hj⟩ := List.getElem?_of_mem ht
    have hjl : j < l.length := h3 ▸ (List.getElem?_eq_some_iff.mp hj).1
    have := (sameEnd_ended (h4 j _ t (List.getElem?_eq_getElem hjl) hj).1).mp (users_idle hi _ (h1.mem_iff.mp (List.getElem_mem hjl)))
    cases t with
    | done o => exact ⟨o, rfl⟩
    | _ => cases this
  have hpres : ∀ l' : List ((Request × Bytes) × Prog Bytes), present (l'.map fun e => block e.1.1) = l'.filterMap fun e => block e.1.1 := by
    intro l'
    unfold present
    rw [List.filterMap_map]
    rfl
  obtain ⟨order, ho, hk, hans, -⟩ := C37_concurrent_appends hs K k hkK t ht hrole hu v hvt h.db hstart hex
    (fun m => by have := hc m; omega) (by rw [hpres]; exact deliverable_perm (h1.symm.filterMap _) hd) turns hfin
  have hpick : ∀ o : List Nat, pick (l.map fun e => block e.1.1) o = (pick l o).map fun e => block e.1.1 := by
    intro o
    unfold pick
    rw [List.map_filterMap]
    congr 1
    funext i
    rw [List.getElem?_map]
  have hrange : (List.range l.length).filterMap (l[·]?) = l := by
    apply List.ext_getElem?
    intro i
    have hmap : (List.range l.length).filterMap (l[·]?) = l := by
      have : ∀ l' : List ((Request × Bytes) × Prog Bytes), (List.range l'.length).filterMap (l'[·]?) = l' := by
        intro l'
        induction l' with
        | nil => rfl
        | cons a l' ih =>
          rw [List.length_cons, List.range_succ_eq_map, List.filterMap_cons]
          simp only [List.getElem?_cons_zero, List.filterMap_map]
          congr 1
      exact this l
    rw [hmap]
  rw [List.length_map] at ho
  have hperm : (pick l order).Perm l := by
    have := ho.filterMap (l[·]?)
    rw [hrange] at this
    exact this
  refine ⟨pick l order, hperm.trans h1, ?_, ?_⟩
  · rw [h2, hk, hpick, hpres]
  · intro l1 e l2 hl he
    -- the position of the request in the order
    have hlt : ∀ i ∈ order, i < l.length := fun i hi => List.mem_range.mp (ho.mem_iff.mp hi)
    have hpmap : ∀ o : List Nat, (∀ i ∈ o, i < l.length) → ∀ j : Nat, (pick l o)[j]? = o[j]?.bind (l[·]?) ∧
        pick l (o.take j) = (pick l o).take j := by
      intro o
      induction o with
      | nil => intro _ j; simp [pick]
      | cons a o ih =>
        intro ho j
        have ha : l[a]? = some (l[a]'(ho a List.mem_cons_self)) := List.getElem?_eq_getElem _
        have ih := ih fun i hi => ho i (by simp [hi])
        have hcons : pick l (a :: o) = l[a]'(ho a List.mem_cons_self) :: pick l o := by
          unfold pick
          rw [List.filterMap_cons, ha]
        rw [hcons]
        cases j with
        | zero => simp [pick]
        | succ j =>
          refine ⟨by simpa using (ih j).1, ?_⟩
          rw [List.take_succ_cons, List.take_succ_cons, ← (ih j).2]
          unfold pick
          rw [List.filterMap_cons, ha]
    have hget : (pick l order)[l1.length]? = some e := by rw [hl]; simp
    rw [(hpmap order hlt l1.length).1] at hget
    obtain ⟨i, hoi, hie⟩ := Option.bind_eq_some_iff.mp hget
    obtain ⟨b, hb⟩ := Option.ne_none_iff_exists'.mp he
    have hthread := hans l1.length i b e.1.2 hoi (by rw [List.getElem?_map, hie]; exact congrArg some hb)
      (by rw [List.getElem?_map, hie]; rfl)
    have hcmd : e.1.1.commandId ≠ .stats := by
      have hmem := h1.mem_iff.mp (List.mem_of_getElem? hie)
      have := hr e hmem
      rw [hb] at this
      rw [(hv e hmem).command, this.1]
      decide
    rw [(h4 i e _ hie hthread).2 hcmd, hpick, ← List.map_take, hpres, ← (hpmap order hlt _).2, (hpmap order hlt _).2, hl]
    rw [List.take_append, List.take_of_length_le (by omega)]
    simp

/-! ## Concrete cases -/

deriving instance DecidableEq for Spec.Call

/-- What requests ask for, given the calls they may be. -/
def seenAs (cs : List Call) (r : Request) : Call := (cs.find? fun c => call c.cmd c.kt c.args = r).getD ⟨.echo, none, []⟩

theorem seenAs_views (cs : List Call) (hcs : ∀ c ∈ cs, (c.cmd ≠ .stats ∨ c.args = []) ∧ c.args.length ≤ 255 ∧ ∀ a ∈ c.args, a ≠ [])
    (r : Request) (h : (cs.any fun c => call c.cmd c.kt c.args = r) = true) :
    Views r (seenAs cs r).cmd (seenAs cs r).kt (seenAs cs r).args := by
  unfold seenAs
  obtain ⟨c, hc⟩ := Option.isSome_iff_exists.mp (List.find?_isSome.mpr (List.any_eq_true.mp h))
  rw [hc]
  have h1 := List.find?_some hc
  obtain ⟨h2, h3, h4⟩ := hcs c (List.mem_of_find?_eq_some hc)
  simp only [decide_eq_true_eq] at h1
  rw [← h1]
  exact call_views c.cmd c.kt c.args h2 h3 h4

def talesFrom : HopEngine := { HopEngine.new with db := sampleDb [([1], .integer 10), ([3], .list [[5]]), ([4], .boolean true)] }
def talesShard (s : UInt32) : Nat := s.toNat
def talesTurns : List Nat := (List.replicate 20 [0, 2, 0, 1]).flatten
abbrev talesRun (us : List User) : UserPool := (userPool us talesFrom).exec (sampleEnv .debug) talesShard talesTurns

/-- A user who makes the first request, then, if it was answered with success, starts a session and makes the second. -/
def twice (r r' : Request) : User := fun past =>
  match past with
  | [] => some (.dispatch r [])
  | [(_, .command (.done (.ok _)))] => some (.session (.add [1]))
  | [_, (_, .session _)] => some (.dispatch r' [])
  | _ => none

/-- Someone who makes other calls and looks. -/
def looker : User := User.fixed [.metric .sessionsStarted, .dispatch (call .get none [[4]]) []]

def countCalls : List Call := [⟨.increment, none, [[1]]⟩, ⟨.rename, none, [[1], [2]]⟩, ⟨.get, none, [[4]]⟩]
def countingUsers : List User := [twice (call .increment none [[1]]) (call .rename none [[1], [2]]),
  twice (call .increment none [[1]]) (call .increment none [[1]]), looker]
abbrev countingRun : UserPool := talesRun countingUsers

/-- Beside C161: two users increment key `[1]`; one renames it and the other increments it again. -/
example : countingRun.made.length = 8 ∧ countingRun.engine.db.keys [1] = some (.integer 1) ∧
    countingRun.engine.db.keys [2] = some (.integer 12) ∧
    (∃ (l : List ((Request × Bytes) × Prog Bytes)) (story : Bytes → Story), l.Perm (requested countingRun) ∧
      Chronicle (sampleEnv .debug) (l.map fun e => seenAs countCalls e.1.1) talesFrom.db.keys (l.map Prod.snd)
        countingRun.engine.db.keys story) ∧
    ∃ (b : Int64) (m : Nat), (talesFrom.db.keys [1] = some (.integer b) ∨ b = 0) ∧ m ≤ 3 ∧ (1 : Int64) = Int64.ofInt (b.toInt + m) := by
  have hall : ∀ e ∈ requested countingRun, (countCalls.any fun c => call c.cmd c.kt c.args = e.1.1) = true := by decide +kernel
  have hv := fun e he => seenAs_views countCalls (by decide) e.1.1 (hall e he)
  have hlen : countingRun.made.length = 8 := by decide +kernel
  have hroom : Roomy countingRun.made.length talesFrom.db.ctrs := by rw [hlen]; exact sampleDb_roomy _ _ (by decide)
  have hk : countingRun.engine.db.keys [1] = some (.integer 1) := by decide +kernel
  have hk2 : countingRun.engine.db.keys [2] = some (.integer 12) := by decide +kernel
  unfold countingRun talesRun at *
  refine ⟨hlen, hk, hk2, C161_chronicle (sampleEnv .debug) talesShard countingUsers talesFrom talesTurns (seenAs countCalls) hv hroom, ?_⟩
  have hno : ∀ e ∈ requested countingRun, target (seenAs countCalls e.1.1) ≠ some [1] := by decide +kernel
  have hinc : ∀ e ∈ requested countingRun, (seenAs countCalls e.1.1).cmd ∈ [CommandId.increment, .rename, .get] ∧
      (seenAs countCalls e.1.1).kt ≠ some .float := by decide +kernel
  obtain ⟨b, m, h1, h2, h3⟩ := C161_never_overcounts (sampleEnv .debug) talesShard countingUsers talesFrom talesTurns (seenAs countCalls)
    hv hroom [1] hno (fun e he _ ⟨t, ht⟩ => by
    obtain ⟨g1, g2⟩ := hinc e he
    simp only [List.mem_cons, List.not_mem_nil, or_false] at g1
    rcases g1 with g1 | g1 | g1
    · exact ⟨g1, g2⟩
    · simp [Makes, g1] at ht
    · simp [Makes, g1] at ht) 1 hk
  refine ⟨b, m, h1, Nat.le_trans h2 ?_, h3⟩
  have : (requested countingRun).countP (fun e => (seenAs countCalls e.1.1).cmd = .increment ∧ (seenAs countCalls e.1.1).args[0]? = some [1]) = 3 := by
    decide +kernel
  exact Nat.le_of_eq this

def moves : List Call := [⟨.rename, none, [[1], [9]]⟩, ⟨.rename, none, [[9], [8]]⟩, ⟨.rename, none, [[3], [1]]⟩, ⟨.rename, none, [[1], [7]]⟩,
  ⟨.get, none, [[4]]⟩]
def movesUsers : List User := [twice (call .rename none [[1], [9]]) (call .rename none [[9], [8]]),
  twice (call .rename none [[3], [1]]) (call .rename none [[1], [7]]), looker]
abbrev movesRun : UserPool := talesRun movesUsers

/-- Beside C162: two users rename keys, also to where others were. -/
example : movesRun.made.length = 8 ∧ movesRun.engine.db.keys [8] = some (.integer 10) ∧ movesRun.engine.db.keys [7] = some (.list [[5]]) ∧
    (∃ (l : List ((Request × Bytes) × Prog Bytes)) (place : Bytes → Place), l.Perm (requested movesRun) ∧
      Accounts (l.map fun e => seenAs moves e.1.1) talesFrom.db.keys place (l.map Prod.snd) movesRun.engine.db.keys) ∧
    ∃ home : Bytes → Bytes, (∀ k v, talesFrom.db.keys k = some v → movesRun.engine.db.keys (home k) = some v) ∧
      (∀ k k', talesFrom.db.keys k ≠ none → talesFrom.db.keys k' ≠ none → home k = home k' → k = k') ∧
      (∀ k', movesRun.engine.db.keys k' ≠ none → ∃ k, talesFrom.db.keys k ≠ none ∧ home k = k') := by
  have hall : ∀ e ∈ requested movesRun, (moves.any fun c => call c.cmd c.kt c.args = e.1.1) = true := by decide +kernel
  have hv := fun e he => seenAs_views moves (by decide) e.1.1 (hall e he)
  have hlen : movesRun.made.length = 8 := by decide +kernel
  have hroom : Roomy movesRun.made.length talesFrom.db.ctrs := by rw [hlen]; exact sampleDb_roomy _ _ (by decide)
  have hm : ∀ e ∈ requested movesRun, Mover (seenAs moves e.1.1) := by unfold Mover; decide +kernel
  have hidle : ∀ u ∈ movesRun.users, u.now.isNone = true := by decide +kernel
  have hk8 : movesRun.engine.db.keys [8] = some (.integer 10) := by decide +kernel
  have hk7 : movesRun.engine.db.keys [7] = some (.list [[5]]) := by decide +kernel
  unfold movesRun talesRun at *
  exact ⟨hlen, hk8, hk7, C162_accounts (sampleEnv .debug) talesShard movesUsers talesFrom talesTurns (seenAs moves) hv hm hroom,
    C162_nothing_lost (sampleEnv .debug) talesShard movesUsers talesFrom talesTurns (seenAs moves) hv hm hroom (by decide +kernel) (by decide +kernel)
      fun u hu => Option.isNone_iff_eq_none.mp (hidle u hu)⟩

def takes : List Call := [⟨.delete, none, [[1]]⟩, ⟨.rename, none, [[1], [2]]⟩, ⟨.get, none, [[4]]⟩]
def takesUsers : List User := [twice (call .delete none [[1]]) (call .delete none [[1]]),
  twice (call .rename none [[1], [2]]) (call .delete none [[1]]), looker]
abbrev takesRun : UserPool := talesRun takesUsers

/-- Beside C163: one user wants to delete key `[1]` twice, the other to rename it. -/
example : takesRun.made.length = 6 ∧ (requested takesRun).countP (took (seenAs takes) [1]) = 1 ∧
    takesRun.engine.db.keys [1] = none := by
  have hall : ∀ e ∈ requested takesRun, (takes.any fun c => call c.cmd c.kt c.args = e.1.1) = true := by decide +kernel
  have hv := fun e he => seenAs_views takes (by decide) e.1.1 (hall e he)
  have hlen : takesRun.made.length = 6 := by decide +kernel
  have hroom : Roomy takesRun.made.length talesFrom.db.ctrs := by rw [hlen]; exact sampleDb_roomy _ _ (by decide)
  have hidle : ∀ u ∈ takesRun.users, u.now.isNone = true := by decide +kernel
  have hr : ∀ e ∈ requested takesRun, Taker [1] (seenAs takes e.1.1) ∨ Bystander [1] (seenAs takes e.1.1) := by
    unfold Bystander; decide +kernel
  have hd : (requested takesRun).any (fun e => decide (e.1.1 = call .delete none [[1]])) = true := by decide +kernel
  unfold takesRun talesRun at *
  obtain ⟨-, h2, h3⟩ := C163_one_taker (sampleEnv .debug) talesShard takesUsers talesFrom talesTurns (seenAs takes) hv [1] hr (by decide +kernel) hroom
  obtain ⟨e, he, hed⟩ := List.any_eq_true.mp hd
  have h1 := h3 (fun u hu => Option.isNone_iff_eq_none.mp (hidle u hu))
    ⟨e, he, [], by rw [of_decide_eq_true hed]; decide +kernel⟩
  refine ⟨hlen, h1, h2 ?_⟩
  obtain ⟨e, he, ht⟩ := List.countP_pos_iff.mp (Nat.lt_of_lt_of_eq Nat.zero_lt_one h1.symm)
  exact ⟨e, he, ht⟩

def blocks : List Call := [⟨.append, some .list, [[3], [6]]⟩, ⟨.append, none, [[3], [7], [8]]⟩, ⟨.get, none, [[4]]⟩]
def blocksUsers : List User := [twice (call .append (some .list) [[3], [6]]) (call .append none [[3], [7], [8]]),
  twice (call .append none [[3], [7], [8]]) (call .append (some .list) [[3], [6]]), looker]
abbrev blocksRun : UserPool := talesRun blocksUsers
def blockOf (r : Request) : Option (List Bytes) :=
  match seenAs blocks r with
  | ⟨.append, _, _ :: b⟩ => some b
  | _ => none

/-- Beside C164: two users append to key `[3]`, two blocks each. -/
example : blocksRun.made.length = 8 ∧ ∃ l : List ((Request × Bytes) × Prog Bytes), l.Perm (requested blocksRun) ∧
    blocksRun.engine.db.keys [3] = some (plus (.list [[5]]) (l.filterMap fun e => blockOf e.1.1).flatten) ∧
    ∀ l1 e l2, l = l1 ++ e :: l2 → blockOf e.1.1 ≠ none →
      e.2 = .done (.ok (e.1.2 ++ frame (.value (plus (.list [[5]]) ((l1 ++ [e]).filterMap fun e => blockOf e.1.1).flatten)))) := by
  have hall : ∀ e ∈ requested blocksRun, (blocks.any fun c => call c.cmd c.kt c.args = e.1.1) = true := by decide +kernel
  have hv := fun e he => seenAs_views blocks (by decide) e.1.1 (hall e he)
  have hlen : blocksRun.made.length = 8 := by decide +kernel
  have hroom : Roomy blocksRun.made.length talesFrom.db.ctrs := by rw [hlen]; exact sampleDb_roomy _ _ (by decide)
  have hidle : ∀ u ∈ blocksRun.users, u.now.isNone = true := by decide +kernel
  have hwhat : ∀ e ∈ requested blocksRun,
      (blockOf e.1.1 = some [[6]] ∧ seenAs blocks e.1.1 = ⟨.append, some .list, [[3], [6]]⟩) ∨
      (blockOf e.1.1 = some [[7], [8]] ∧ seenAs blocks e.1.1 = ⟨.append, none, [[3], [7], [8]]⟩) ∨
      (blockOf e.1.1 = none ∧ seenAs blocks e.1.1 = ⟨.get, none, [[4]]⟩) := by decide +kernel
  have hfit : ((requested blocksRun).filterMap fun e => blockOf e.1.1).flatten = [[6], [7], [8], [7], [8], [6]] := by decide +kernel
  unfold blocksRun talesRun at *
  refine ⟨hlen, C164_appends (sampleEnv .debug) talesShard blocksUsers talesFrom talesTurns (seenAs blocks)
    hv (· = [3]) [3] rfl .list (by decide) blockOf ?_ (by decide) (.list [[5]]) rfl (by decide +kernel)
    (by rintro _ rfl; decide +kernel) hroom ?_ fun u hu => Option.isNone_iff_eq_none.mp (hidle u hu)⟩
  · intro e he
    rcases hwhat e he with ⟨h1, h2⟩ | ⟨h1, h2⟩ | ⟨h1, h2⟩ <;> rw [h1, h2]
    · exact ⟨rfl, .inl rfl, rfl⟩
    · exact ⟨rfl, .inr rfl, rfl⟩
    · exact ⟨trivial, .inl (by decide)⟩
  · rw [hfit]
    exact ⟨by decide, fun _ l hl => by cases hl; decide⟩

end Hop
