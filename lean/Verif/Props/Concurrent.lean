import Verif.Lemmas.Concurrent
import Verif.Props.Counters
import Verif.Props.Appends

/-! # C58: linearizability of the single-operation commands; C32, C37 as consequences -/

namespace Hop

open Spec Prog

theorem serveAll_seqs {env : Env} {rs : List (Request × Bytes)} {Inv : Store → Prop} {c0 : Metric → Option Nat}
    (hc0 : Roomy 1 c0) (hs : ∀ r ∈ rs, Single Inv (fun p => ∃ r, Ends r p) 1 (dispatch env r.1 r.2)) (order : List Nat)
    (ho : ∀ i ∈ order, i < rs.length) (db : Db) (hi : Inv db.keys) (hc : Roomy order.length db.ctrs) :
    (serveAll env (pick rs order) db).1 =
      (seqs (fun i => meaning (((Pool.start env rs db).threads[i]?).getD (.done .stuck)) c0) order db.keys).1 ∧
    (serveAll env (pick rs order) db).2.keys =
      (seqs (fun i => meaning (((Pool.start env rs db).threads[i]?).getD (.done .stuck)) c0) order db.keys).2 := by
  induction order generalizing db with
  | nil => exact ⟨rfl, rfl⟩
  | cons i order ih =>
    have hlt := ho i (by simp)
    have hget : rs[i]? = some rs[i] := List.getElem?_eq_getElem hlt
    have hp : pick rs (i :: order) = rs[i] :: pick rs order := by
      simp only [pick, List.filterMap_cons, hget]
    have ht : ∀ db, ((Pool.start env rs db).threads[i]?).getD (.done .stuck) = dispatch env rs[i].1 rs[i].2 := by
      intro db
      simp only [Pool.start, List.getElem?_map, hget, Option.map_some, Option.getD_some]
    simp only [List.length_cons] at hc
    obtain ⟨h1, h2⟩ := (hs rs[i] (List.getElem_mem hlt)).meaning_ctrs (c := c0) (c' := db.ctrs) hc0
      (Roomy.mono hc (by omega)) db.keys hi
    have hr := dispatch_roomy env rs[i].1 rs[i].2 db order.length hc
    have e1 : (meaning (dispatch env rs[i].1 rs[i].2) db.ctrs db.keys) =
      (((dispatch env rs[i].1 rs[i].2).run db).1, ((dispatch env rs[i].1 rs[i].2).run db).2.keys) := rfl
    rw [e1] at h1
    have := ih (fun j hj => ho j (by simp [hj])) ((dispatch env rs[i].1 rs[i].2).run db).2 (by rw [h1] at h2; exact h2) hr
    have hF : ∀ db db', (Pool.start env rs db).threads = (Pool.start env rs db').threads := fun _ _ => rfl
    rw [hF _ db] at this
    rw [hp]
    simp only [serveAll, seqs, ht, h1]
    exact ⟨by rw [this.1], this.2⟩

/-- C58. Any number of clients concurrently issue steady commands (see `Steady`): reads of one key, deletes,
counters and appends on keys of `K`, which exist and are not deleted. Then under every schedule that lets
all of them finish there is an order of the requests such that serving them one after the other in that
order gives every client the same answer and leaves the same stored keys; and a request that finished
before another one began comes first. -/
theorem C58_linearizable {env : Env} {rs : List (Request × Bytes)} {cs : List Call} (hs : Sees rs cs)
    (K : Bytes → Prop) (hK : ∀ c ∈ cs, Steady K c) (db : Db) (hex : ∀ k, K k → db.keys k ≠ none)
    (hc : Roomy rs.length db.ctrs) (sched : List Nat) (hf : ((Pool.start env rs db).exec sched).finished) :
    ∃ order : List Nat, order.Perm (List.range rs.length) ∧
      ((Pool.start env rs db).exec sched).db.keys = (serveAll env (pick rs order) db).2.keys ∧
      (∀ j i : Nat, order[j]? = some i → ∃ r, ((Pool.start env rs db).exec sched).threads[i]? = some (.done r) ∧
        (serveAll env (pick rs order) db).1[j]? = some r) ∧
      (∀ s1 s2, sched = s1 ++ s2 → ∀ a b r, ((Pool.start env rs db).exec s1).threads[a]? = some (.done r) →
        b < rs.length → b ∉ s1 → (∀ r, (Pool.start env rs db).threads[b]? ≠ some (.done r)) → Before a b order) := by
  rcases Nat.eq_zero_or_pos rs.length with h0 | hpos
  · rw [List.length_eq_zero_iff] at h0
    subst h0
    have hex : ∀ s, (Pool.start env [] db).exec s = Pool.start env [] db := by
      intro s
      induction s using snoc_induction with
      | h0 => rfl
      | h1 s i ih => rw [Pool.exec_snoc, ih]; exact Pool.stepAt_none rfl
    refine ⟨[], by simp, ?_, by simp, ?_⟩
    · rw [hex]; rfl
    · intro s1 s2 _ a b r _ hb; simp at hb
  · let τ : Bytes → KeyType := fun k => ((db.keys k).map Value.kind).getD .bytes
    have hinv : Kinds K τ db.keys := by
      intro k hk
      cases hv : db.keys k with
      | none => exact absurd hv (hex k hk)
      | some v => simp only [τ, hv]; rfl
    have hsing : ∀ r ∈ rs, Single (Kinds K τ) (fun p => ∃ r, Ends r p) 1 (dispatch env r.1 r.2) := by
      intro r hr
      obtain ⟨i, hi⟩ := List.getElem?_of_mem hr
      obtain ⟨c, hci, hv⟩ := (Sees.get hs).2 i r hi
      exact (single_dispatch hv (hK c (List.mem_of_getElem? hci))).imp fun _ h => h.1
    have hc1 : Roomy 1 db.ctrs := Roomy.mono hc hpos
    let F : Nat → Store → Outcome DispatchError Bytes × Store :=
      fun i => meaning (((Pool.start env rs db).threads[i]?).getD (.done .stuck)) db.ctrs
    have hshot : ∀ i t, (Pool.start env rs db).threads[i]? = some t → ∃ n, Shot (Kinds K τ) (F i) n t := by
      intro i t ht
      simp only [F, ht, Option.getD_some]
      simp only [Pool.start, List.getElem?_map, Option.map_eq_some_iff] at ht
      obtain ⟨r, hr, rfl⟩ := ht
      exact ⟨1, (hsing r (List.mem_of_getElem? hr)).shot hc1⟩
    obtain ⟨order0, hl0, ho0⟩ := Lin.start (Inv := Kinds K τ) (F := F) (p := Pool.start env rs db) hinv hshot
    obtain ⟨order, hl, -, hrt⟩ := hl0.exec (Budget.start env rs db hc) sched
    have hlen : ((Pool.start env rs db).exec sched).threads.length = rs.length := by
      rw [Pool.exec_length]; simp [Pool.start]
    have hbound : ∀ i ∈ order, i < rs.length := fun i hi => by have := hl.bound i hi; rwa [hlen] at this
    have hall : ∀ i, i < rs.length → i ∈ order := by
      intro i hi
      refine Classical.byContradiction fun hio => ?_
      have ht : ((Pool.start env rs db).exec sched).threads[i]? =
          some (((Pool.start env rs db).exec sched).threads[i]'(by rw [hlen]; exact hi)) := List.getElem?_eq_getElem _
      have hlv := (hl.waiting i _ ht hio).1
      obtain ⟨r, hr⟩ := hf _ (List.mem_of_getElem? ht)
      rw [hr] at hlv
      simp [live] at hlv
    have hperm : order.Perm (List.range rs.length) := by
      rw [List.perm_ext_iff_of_nodup hl.nodup List.nodup_range]
      intro i
      rw [List.mem_range]
      exact ⟨hbound i, hall i⟩
    have hlo : order.length = rs.length := by rw [hperm.length_eq, List.length_range]
    obtain ⟨e1, e2⟩ := serveAll_seqs (c0 := db.ctrs) hc1 hsing order hbound db hinv (by rw [hlo]; exact hc)
    refine ⟨order, hperm, ?_, ?_, ?_⟩
    · rw [e2]; exact hl.keys
    · intro j i hj
      obtain ⟨t, r, ht, hr, he⟩ := hl.fired j i hj
      obtain ⟨r', hr'⟩ := hf t (List.mem_of_getElem? ht)
      subst hr'
      simp only [Ends] at he
      subst he
      exact ⟨r', ht, by rw [e1]; exact hr⟩
    · intro s1 s2 hsch a b r ha hb hb1 hb0
      refine hrt s1 s2 hsch a b r ha hb1 ?_ (hall b hb)
      intro h
      obtain ⟨r, hr⟩ := ho0 b h
      exact hb0 r hr

/-- C58, progress: the clients never wait for each other. If every client gets three operations, in
whatever order, all of them are finished. -/
theorem C58_finishes {env : Env} {rs : List (Request × Bytes)} {cs : List Call} (hs : Sees rs cs)
    (K : Bytes → Prop) (hK : ∀ c ∈ cs, Steady K c) (db : Db) (hex : ∀ k, K k → db.keys k ≠ none)
    (hc : Roomy rs.length db.ctrs) (sched : List Nat) (hn : ∀ i < rs.length, 3 ≤ sched.count i) :
    ((Pool.start env rs db).exec sched).finished := by
  let τ : Bytes → KeyType := fun k => ((db.keys k).map Value.kind).getD .bytes
  have hinv : Kinds K τ db.keys := by
    intro k hk
    cases hv : db.keys k with
    | none => exact absurd hv (hex k hk)
    | some v => simp only [τ, hv]; rfl
  have hsing : ∀ r ∈ rs, Single (Kinds K τ) (fun p => (∃ r, Ends r p) ∧ Within (Kinds K τ) 1 p) 1 (dispatch env r.1 r.2) := by
    intro r hr
    obtain ⟨i, hi⟩ := List.getElem?_of_mem hr
    obtain ⟨c, hci, hv⟩ := (Sees.get hs).2 i r hi
    exact single_dispatch hv (hK c (List.mem_of_getElem? hci))
  intro t ht
  obtain ⟨i, hi⟩ := List.getElem?_of_mem ht
  have hlen : ((Pool.start env rs db).exec sched).threads.length = rs.length := by
    rw [Pool.exec_length]; simp [Pool.start]
  have hlt : i < rs.length := by rw [← hlen]; exact (List.getElem?_eq_some_iff.mp hi).1
  have hc1 : Roomy 1 db.ctrs := Roomy.mono hc (by omega)
  have hstart : (Pool.start env rs db).threads[i]? = some (dispatch env rs[i].1 rs[i].2) := by
    simp only [Pool.start, List.getElem?_map, List.getElem?_eq_getElem hlt, Option.map_some]
  have hw : Within (Kinds K τ) 3 (dispatch env rs[i].1 rs[i].2) :=
    ((hsing rs[i] (List.getElem_mem hlt)).imp fun _ h => h.2).within
  obtain ⟨r, hr⟩ := hw.exec sched (fun s1 s2 _ => by
    let F : Nat → Store → Outcome DispatchError Bytes × Store :=
      fun i => meaning (((Pool.start env rs db).threads[i]?).getD (.done .stuck)) db.ctrs
    have hshot : ∀ i t, (Pool.start env rs db).threads[i]? = some t → ∃ n, Shot (Kinds K τ) (F i) n t := by
      intro i t ht
      simp only [F, ht, Option.getD_some]
      simp only [Pool.start, List.getElem?_map, Option.map_eq_some_iff] at ht
      obtain ⟨r, hr, rfl⟩ := ht
      exact ⟨1, ((hsing r (List.mem_of_getElem? hr)).imp fun _ h => h.1).shot hc1⟩
    obtain ⟨order0, hl0, -⟩ := Lin.start (Inv := Kinds K τ) (F := F) (p := Pool.start env rs db) hinv hshot
    obtain ⟨order, hl, -⟩ := hl0.exec (Budget.start env rs db hc) s1
    exact hl.inv) hstart (hn i hlt)
  rw [hi] at hr
  simp only [Option.some.injEq] at hr
  exact ⟨r, hr⟩

/-! ## Rearranged lists -/

theorem pick_get {α} (l : List α) (order : List Nat) (ho : ∀ i ∈ order, i < l.length) (j : Nat) :
    (pick l order)[j]? = (order[j]?).bind (l[·]?) := by
  induction order generalizing j with
  | nil => simp [pick]
  | cons i order ih =>
    have hlt := ho i (by simp)
    have hi : l[i]? = some l[i] := List.getElem?_eq_getElem hlt
    have : pick l (i :: order) = l[i] :: pick l order := by simp [pick, hi]
    rw [this]
    cases j with
    | zero => simp [hi]
    | succ j => simpa using ih (fun i hi => ho i (by simp [hi])) j

theorem pick_length {α} (l : List α) (order : List Nat) (ho : ∀ i ∈ order, i < l.length) :
    (pick l order).length = order.length := by
  induction order with
  | nil => rfl
  | cons i order ih =>
    have hlt := ho i (by simp)
    have hi : l[i]? = some l[i] := List.getElem?_eq_getElem hlt
    have : pick l (i :: order) = l[i] :: pick l order := by simp [pick, hi]
    rw [this, List.length_cons, ih (fun i hi => ho i (by simp [hi])), List.length_cons]

theorem pick_perm {α} (l : List α) (order : List Nat) (ho : order.Perm (List.range l.length)) : (pick l order).Perm l := by
  have h1 : (pick l order).Perm (pick l (List.range l.length)) := ho.filterMap _
  have h2 : pick l (List.range l.length) = l := by
    apply List.ext_getElem?
    intro j
    rw [pick_get _ _ (by simp)]
    by_cases hj : j < l.length
    · rw [List.getElem?_range hj]; rfl
    · rw [List.getElem?_eq_none (by simp; omega), List.getElem?_eq_none (by omega)]; rfl
  rwa [h2] at h1

theorem pick_all2 {α β} {R : α → β → Prop} {as : List α} {bs : List β} (h : All2 R as bs) (order : List Nat) :
    All2 R (pick as order) (pick bs order) := by
  have hget : ∀ i : Nat, (as[i]? = none ∧ bs[i]? = none) ∨ ∃ a b, as[i]? = some a ∧ bs[i]? = some b ∧ R a b := by
    induction h with
    | nil => intro i; left; simp
    | cons hr _ ih =>
      intro i
      cases i with
      | zero => right; exact ⟨_, _, rfl, rfl, hr⟩
      | succ i => simpa using ih i
  induction order with
  | nil => exact .nil
  | cons i order ih =>
    rcases hget i with ⟨h1, h2⟩ | ⟨a, b, h1, h2, hr⟩
    · simpa only [pick, List.filterMap_cons, h1, h2] using ih
    · simp only [pick, List.filterMap_cons, h1, h2]
      exact .cons hr ih

theorem sees_all2 {rs : List (Request × Bytes)} {cs : List Call} :
    Sees rs cs ↔ All2 (fun (r : Request × Bytes) (c : Call) => Views r.1 c.cmd c.kt c.args) rs cs := by
  constructor
  · intro h
    induction h with
    | nil => exact .nil
    | cons hv _ ih => exact .cons hv ih
  · intro h
    induction h with
    | nil => exact .nil
    | @cons a b as bs hv _ ih =>
      obtain ⟨r, resp⟩ := a
      exact .cons hv ih

theorem all2_length {α β} {R : α → β → Prop} {as : List α} {bs : List β} (h : All2 R as bs) : as.length = bs.length := by
  induction h with
  | nil => rfl
  | cons _ _ ih => simp [ih]

theorem bystander_keeps {env : Env} {r : Request} {k : Bytes} {c : Call} (hv : Views r c.cmd c.kt c.args)
    (hb : Bystander k c) (resp : Bytes) (db : Db) : ((dispatch env r resp).run db).2.keys k = db.keys k := by
  rcases hb with h | ⟨h1, h2⟩
  · rw [C20_read_only env r resp db (by rw [hv.command]; exact h)]
  · exact C19_frame env r resp db k (by rw [hv.arg 0]; exact h1) (by rw [hv.command, hv.arg 1]; exact h2)

/-! ## C32 Concurrent increments of an existing counter are never lost -/

theorem spells_steady {K : Bytes → Prop} {k : Bytes} {o : CounterOp} {c : Call} (hk : K k) (h : o.Spells k c) : Steady K c := by
  obtain ⟨cmd, kt, args⟩ := c
  cases o with
  | inc => obtain ⟨h1, -, more, h3⟩ := h; simp only at h1 h3; subst h1 h3; intro k' hk'; simp at hk'; exact hk' ▸ hk
  | dec => obtain ⟨h1, -, more, h3⟩ := h; simp only at h1 h3; subst h1 h3; intro k' hk'; simp at hk'; exact hk' ▸ hk
  | incBy n => obtain ⟨h1, junk, more, h3⟩ := h; simp only at h1 h3; subst h1 h3; intro k' hk'; simp at hk'; exact hk' ▸ hk
  | decBy n => obtain ⟨h1, junk, more, h3⟩ := h; simp only at h1 h3; subst h1 h3; intro k' hk'; simp at hk'; exact hk' ▸ hk

/-- Counter operations mixed with requests that do not change the counter, one after the other. -/
theorem serve_counters {env : Env} {K : Bytes → Prop} {k : Bytes} {h : List (Request × Bytes)} {cs : List Call}
    {os : List (Option CounterOp)} (hs : Sees h cs) (hr : All2 (CounterRole K k) os cs) (hu : ¬ unusable env.mode k)
    (x : Int) (db : Db) (hx : db.keys k = some (.integer (Int64.ofInt x))) (hc : Roomy h.length db.ctrs)
    (hov : env.mode = .release ∨ (inRange x ∧ NoOverflow x (present os))) :
    (serveAll env h db).2.keys k = some (.integer (Int64.ofInt (x + total (present os)))) ∧
    ∀ (j : Nat) o resp, os[j]? = some (some o) → h[j]?.map Prod.snd = some resp →
      (serveAll env h db).1[j]? =
        some (.ok (resp ++ frame (.value (.integer (Int64.ofInt (x + total (present (os.take (j + 1))))))))) := by
  induction hs generalizing x db os with
  | nil =>
    cases hr
    refine ⟨by simpa [serveAll, present, total] using hx, by simp⟩
  | @cons r resp c rs cs hv _ ih =>
    simp only [List.length_cons] at hc
    have hroom := dispatch_roomy env r resp db _ hc
    cases hr with
    | @cons o _ os _ ho hos =>
      cases o with
      | none =>
        obtain ⟨-, hb⟩ := ho
        have hk := bystander_keeps (env := env) hv hb resp db
        have e : present (none :: os) = present os := rfl
        rw [e] at hov ⊢
        obtain ⟨h1, h2⟩ := ih hos x ((dispatch env r resp).run db).2 (by rw [hk]; exact hx) hroom hov
        refine ⟨h1, ?_⟩
        intro j o resp' hj hjr
        cases j with
        | zero => simp at hj
        | succ j => exact h2 j o resp' (by simpa using hj) (by simpa using hjr)
      | some o =>
        have e : present (some o :: os) = o :: present os := rfl
        rw [e] at hov ⊢
        have hov1 : env.mode = .release ∨ ∀ n, o = .decBy n → n.toInt ≠ -2 ^ 63 :=
          hov.imp id fun h n hn => h.2.2 n (by rw [hn]; simp)
        have hex : execute env db.ctrs c.cmd c.kt c.args db.keys =
            (.value (.integer (Int64.ofInt (x + o.amount))),
              Store.put db.keys k (some (.integer (Int64.ofInt (x + o.amount))))) := by
          rw [execute_counter ho _ hov1, addInteger, if_neg hu, hx]
          dsimp only [Option.getD]
          rw [if_pos, ofInt_toInt_add]
          refine hov.symm.imp (fun h => ?_) id
          rw [toInt_ofInt h.1]
          exact h.2.1 _ (by simp [totals])
        have hrun := dispatch_delivers (env := env) hv resp db (Roomy.mono hc (by omega)) (by
          simp only [perform, hex]; exact deliverable_int _ _)
        simp only [perform, hex, delivered] at hrun
        have hov' : env.mode = .release ∨ (inRange (x + o.amount) ∧ NoOverflow (x + o.amount) (present os)) := by
          refine hov.imp id fun h => ⟨h.2.1 _ (by simp [totals]), ?_, ?_⟩
          · intro t ht; exact h.2.1 t (by simp [totals, ht])
          · intro n hn; exact h.2.2 n (by simp [hn])
        obtain ⟨h1, h2⟩ := ih hos (x + o.amount) ((dispatch env r resp).run db).2
          (by rw [hrun]; exact put_apply_self _ _ _) hroom hov'
        refine ⟨?_, ?_⟩
        · simp only [serveAll, total, List.map_cons, List.sum_cons] at h1 ⊢
          rw [h1, Int.add_assoc]
        · intro j o' resp' hj hjr
          cases j with
          | zero =>
            simp at hj hjr
            subst hj hjr
            simp only [serveAll, hrun]
            simp [present, total, ordered, orderedValue]
          | succ j =>
            have := h2 j o' resp' (by simpa using hj) (by simpa using hjr)
            simp only [serveAll, List.getElem?_cons_succ]
            rw [this]
            have e : present ((some o :: os).take (j + 1 + 1)) = o :: present (os.take (j + 1)) := rfl
            rw [e]
            simp only [total, List.map_cons, List.sum_cons, Int.add_assoc]

theorem total_perm {os os' : List CounterOp} (h : os.Perm os') : total os = total os' := by
  unfold total
  induction h with
  | nil => rfl
  | cons x _ ih => simp [ih]
  | swap x y l => simp; omega
  | trans _ _ ih1 ih2 => rw [ih1, ih2]

/-- C32. Any number of clients concurrently increment and decrement (by any amounts) an existing integer key
`k`, while others read it or work steadily on other keys. Under every schedule that lets all of them finish,
the final value is the initial value plus all amounts, and there is an order of the requests such that
each counter request succeeded with the running total of the amounts up to and including its own; it
respects real time. In release builds always (totals wrapped to 64 bits), in debug builds if no order of
the operations overflows. -/
theorem C32_concurrent_counters {env : Env} {rs : List (Request × Bytes)} {cs : List Call} {os : List (Option CounterOp)}
    (hs : Sees rs cs) (K : Bytes → Prop) (k : Bytes) (hkK : K k) (hr : All2 (CounterRole K k) os cs)
    (hu : ¬ unusable env.mode k) (start : Int64) (db : Db) (hstart : db.keys k = some (.integer start))
    (hex : ∀ k, K k → db.keys k ≠ none) (hc : Roomy rs.length db.ctrs)
    (hov : env.mode = .release ∨ ∀ os', os'.Perm (present os) → NoOverflow start.toInt os')
    (sched : List Nat) (hf : ((Pool.start env rs db).exec sched).finished) :
    ((Pool.start env rs db).exec sched).db.keys k = some (.integer (Int64.ofInt (start.toInt + total (present os)))) ∧
    ∃ order : List Nat, order.Perm (List.range rs.length) ∧
      (∀ (j i : Nat) o resp, order[j]? = some i → os[i]? = some (some o) → rs[i]?.map Prod.snd = some resp →
        ((Pool.start env rs db).exec sched).threads[i]? = some (.done (.ok (resp ++ frame (.value (.integer
          (Int64.ofInt (start.toInt + total (present ((pick os order).take (j + 1))))))))))) ∧
      (∀ s1 s2, sched = s1 ++ s2 → ∀ a b r, ((Pool.start env rs db).exec s1).threads[a]? = some (.done r) →
        b < rs.length → b ∉ s1 → (∀ r, (Pool.start env rs db).threads[b]? ≠ some (.done r)) → Before a b order) := by
  have hsteady : ∀ c ∈ cs, Steady K c := by
    intro c hcc
    clear hs hc hf hov
    induction hr with
    | nil => simp at hcc
    | @cons o c' os cs ho _ ih =>
      simp only [List.mem_cons] at hcc
      rcases hcc with rfl | hcc
      · cases o with
        | none => exact ho.1
        | some o => exact spells_steady hkK ho
      · exact ih hcc
  obtain ⟨order, hperm, hkeys, hans, hrt⟩ := C58_linearizable (env := env) hs K hsteady db hex hc sched hf
  have hlen : os.length = rs.length := by rw [all2_length hr, ← (Sees.get hs).1]
  have hb : ∀ i ∈ order, i < rs.length := fun i hi => by
    have := hperm.mem_iff.mp hi; simpa using this
  have hsp : Sees (pick rs order) (pick cs order) := sees_all2.mpr (pick_all2 (sees_all2.mp hs) order)
  have hpp : (present (pick os order)).Perm (present os) :=
    (pick_perm os order (by rw [hlen]; exact hperm)).filterMap _
  have hlp : (pick rs order).length = rs.length := by
    rw [pick_length _ _ hb, hperm.length_eq, List.length_range]
  obtain ⟨h1, h2⟩ := serve_counters (env := env) hsp (pick_all2 hr order) hu start.toInt db
    (by rw [hstart, Int64.ofInt_toInt]) (by rw [hlp]; exact hc)
    (hov.imp id fun h => ⟨⟨Int64.le_toInt _, Int64.toInt_lt _⟩, h _ hpp⟩)
  refine ⟨by rw [hkeys, h1, total_perm hpp], order, hperm, ?_, hrt⟩
  intro j i o resp hj hi hresp
  obtain ⟨r, hr1, hr2⟩ := hans j i hj
  have := h2 j o resp (by rw [pick_get _ _ (by rw [hlen]; exact hb), hj]; exact hi)
    (by rw [pick_get _ _ hb, hj]; exact hresp)
  rw [hr2] at this
  rw [hr1]
  simp only [Option.some.injEq] at this
  rw [this]

/-- Beside C32: two clients, one of whom subtracts, and a reader; the second one starts first and the reader
looks in between. -/
example : ((Pool.start (sampleEnv .debug) [(call .increment none [[107]], []), (call .decrementBy none
    [[107], [0, 0, 0, 0, 0, 0, 0, 5]], [7]), (call .get none [[107]], [])] (sampleDb [([107], .integer 40)])).exec
    [1, 2, 0, 0, 1, 2]).threads.map (fun t => match t with | .done r => some r | _ => none) =
    [some (.ok (frame (.value (.integer 36)))), some (.ok (7 :: frame (.value (.integer 35)))),
      some (.ok (frame (.value (.integer 35))))] := by decide +kernel

theorem finished_of_live {α} {p : Pool α} (h : ∀ t ∈ p.threads, live t = false) : p.finished := by
  intro t ht
  have := h t ht
  cases t with
  | done r => exact ⟨r, rfl⟩
  | _ => simp [live] at this

example : ((Pool.start (sampleEnv .debug) [(call .increment none [[107]], []), (call .decrementBy none
    [[107], [0, 0, 0, 0, 0, 0, 0, 5]], [7]), (call .get none [[107]], [])] (sampleDb [([107], .integer 40)])).exec
    [1, 2, 0, 0, 1, 2]).db.keys [107] = some (.integer 36) := by
  have hs : Sees [(call .increment none [[107]], []), (call .decrementBy none
      [[107], [0, 0, 0, 0, 0, 0, 0, 5]], [7]), (call .get none [[107]], [])]
      [⟨.increment, none, [[107]]⟩, ⟨.decrementBy, none, [[107], [0, 0, 0, 0, 0, 0, 0, 5]]⟩, ⟨.get, none, [[107]]⟩] :=
    .cons (call_views _ _ _ (by decide) (by decide) (by decide)) (.cons (call_views _ _ _ (by decide) (by decide) (by decide))
      (.cons (call_views _ _ _ (by decide) (by decide) (by decide)) .nil))
  have hr : All2 (CounterRole (· = [107]) [107]) [some .inc, some (.decBy 5), none]
      [⟨.increment, none, [[107]]⟩, ⟨.decrementBy, none, [[107], [0, 0, 0, 0, 0, 0, 0, 5]]⟩, ⟨.get, none, [[107]]⟩] :=
    .cons ⟨rfl, by decide, [], rfl⟩ (.cons ⟨rfl, [], [], by decide +kernel⟩ (.cons ⟨trivial, Or.inl (by decide)⟩ .nil))
  have hov : (sampleEnv .debug).mode = .release ∨ ∀ os', os'.Perm (present [some .inc, some (.decBy 5), none]) →
      NoOverflow (40 : Int64).toInt os' := by
    right
    intro os' h
    have hl := h.length_eq
    refine ⟨?_, ?_⟩
    · rcases os' with _ | ⟨a, _ | ⟨b, _ | ⟨c, os'⟩⟩⟩ <;> simp [present] at hl
      have ha : a = .inc ∨ a = .decBy 5 := by have := h.mem_iff (a := a); simp [present] at this; exact this
      have hb : b = .inc ∨ b = .decBy 5 := by have := h.mem_iff (a := b); simp [present] at this; exact this
      rcases ha with rfl | rfl <;> rcases hb with rfl | rfl <;>
        (intro t ht; simp only [totals, List.mem_cons, List.not_mem_nil, or_false] at ht;
          rcases ht with rfl | rfl <;> decide +kernel)
    · intro n hn
      have := h.mem_iff.mp hn
      simp [present] at this
      subst this
      decide
  have := (C32_concurrent_counters hs (· = [107]) [107] rfl hr (by decide +kernel) 40 (sampleDb [([107], .integer 40)])
    (by decide +kernel) (by rintro k rfl; decide +kernel) (sampleDb_roomy _ _ (by decide)) hov [1, 2, 0, 0, 1, 2]
    (finished_of_live (by decide +kernel))).1
  rw [this]
  decide +kernel

/-! ## C37 Concurrent appends to an existing key keep every item -/

theorem append_steady {K : Bytes → Prop} {k : Bytes} {t : KeyType} {o : Option (List Bytes)} {c : Call} (hk : K k)
    (h : AppendRole K k t o c) : Steady K c := by
  cases o with
  | none => exact h.1
  | some b =>
    obtain ⟨h1, -, h3⟩ := h
    simp only [Steady, h1, h3]
    intro k' hk'; simp at hk'; exact hk' ▸ hk

/-- Appends mixed with requests that do not change the key, one after the other. -/
theorem serve_appends {env : Env} {K : Bytes → Prop} {k : Bytes} {t : KeyType} {h : List (Request × Bytes)} {cs : List Call}
    {os : List (Option (List Bytes))} (hs : Sees h cs) (hr : All2 (AppendRole K k t) os cs) (hu : ¬ unusable env.mode k)
    (ht : t = .bytes ∨ t = .list ∨ t = .string) (v : Value) (hvt : v.kind = t)
    (db : Db) (hx : db.keys k = some v) (hc : Roomy h.length db.ctrs)
    (hd : Deliverable env.mode (.value (plus v (present os).flatten))) :
    (serveAll env h db).2.keys k = some (plus v (present os).flatten) ∧
    ∀ (j : Nat) b resp, os[j]? = some (some b) → h[j]?.map Prod.snd = some resp →
      (serveAll env h db).1[j]? = some (.ok (resp ++ frame (.value (plus v (present (os.take (j + 1))).flatten)))) := by
  induction hs generalizing v db os with
  | nil =>
    cases hr
    refine ⟨?_, by simp⟩
    simp only [serveAll, hx, present, List.filterMap_nil, List.flatten_nil]
    cases v <;> simp [plus]
  | @cons r resp c rs cs hv _ ih =>
    simp only [List.length_cons] at hc
    have hroom := dispatch_roomy env r resp db _ hc
    cases hr with
    | @cons o _ os _ ho hos =>
      cases o with
      | none =>
        obtain ⟨-, hb⟩ := ho
        have hk := bystander_keeps (env := env) hv hb resp db
        have e : present (none :: os) = present os := rfl
        rw [e] at hd ⊢
        obtain ⟨h1, h2⟩ := ih hos v hvt ((dispatch env r resp).run db).2 (by rw [hk]; exact hx) hroom hd
        refine ⟨h1, ?_⟩
        intro j o resp' hj hjr
        cases j with
        | zero => simp at hj
        | succ j => exact h2 j o resp' (by simpa using hj) (by simpa using hjr)
      | some b =>
        obtain ⟨cmd, kt, args⟩ := c
        obtain ⟨h1, hkt, h3⟩ := ho
        simp only at h1 hkt h3 hv
        subst h1 h3
        have e : (present (some b :: os)).flatten = b ++ (present os).flatten := rfl
        rw [e, ← C26_split] at hd
        rw [e, ← C26_split]
        have heff : effectiveType kt (db.keys k) .bytes = t := by
          rw [hx]
          rcases hkt with rfl | rfl
          · rfl
          · exact hvt
        have hex : execute env db.ctrs .append kt (k :: b) db.keys =
            (.value (plus v b), Store.put db.keys k (some (plus v b))) := by
          simp only [execute, heff]
          rw [if_neg (by rcases ht with h | h | h <;> simp [h]), if_neg hu, hx, Option.getD_some, if_neg (by simp [hvt]),
            appended_eq_plus (by rw [hvt]; exact ht)]
        have hd1 : Deliverable env.mode (.value (plus v b)) := deliverable_plus hd
        have hrun := dispatch_delivers (env := env) (c := ⟨.append, kt, k :: b⟩) hv resp db (Roomy.mono hc (by omega)) (by
          simp only [perform, hex]; exact hd1)
        simp only [perform, hex, delivered] at hrun
        obtain ⟨h1, h2⟩ := ih hos (plus v b) (by rw [plus_kind]; exact hvt) ((dispatch env r resp).run db).2
          (by rw [hrun]; exact put_apply_self _ _ _) hroom hd
        refine ⟨h1, ?_⟩
        intro j o' resp' hj hjr
        cases j with
        | zero =>
          simp at hj hjr
          subst hj hjr
          simp only [serveAll, hrun]
          have ho : ordered env (.value (plus v b)) = .value (plus v b) := by
            rcases ht with rfl | rfl | rfl <;> cases v <;> simp [Value.kind] at hvt <;> rfl
          simp [present, ho]
        | succ j =>
          have := h2 j o' resp' (by simpa using hj) (by simpa using hjr)
          simp only [serveAll, List.getElem?_cons_succ]
          rw [this]
          have e : (present ((some b :: os).take (j + 1 + 1))).flatten = b ++ (present (os.take (j + 1))).flatten := rfl
          rw [e, ← C26_split]

theorem deliverable_perm {m : Mode} {v : Value} {bs bs' : List (List Bytes)} (hp : bs.Perm bs')
    (h : Deliverable m (.value (plus v bs.flatten))) : Deliverable m (.value (plus v bs'.flatten)) := by
  have hp := hp.flatten
  cases v with
  | bytes x =>
    have e : (x ++ bs.flatten.flatten).length = (x ++ bs'.flatten.flatten).length := by
      simp only [List.length_append, hp.flatten.length_eq]
    obtain ⟨h1, h2⟩ := h
    refine ⟨?_, by simp [plus]⟩
    simp only [plus, body, payload, List.length_cons, List.length_append, beBytes_length] at h1 e ⊢
    omega
  | list x =>
    obtain ⟨h1, h2⟩ := h
    have e1 : (x ++ bs.flatten).length = (x ++ bs'.flatten).length := by
      simp only [List.length_append, hp.length_eq]
    have e2 : ((x ++ bs.flatten).flatMap listItem).length = ((x ++ bs'.flatten).flatMap listItem).length :=
      ((hp.append_left x).flatMap_right listItem).length_eq
    refine ⟨?_, ?_⟩
    · simp only [plus, body, payload, List.length_cons, List.length_append, beBytes_length] at h1 e2 ⊢
      rw [← e2]; exact h1
    · intro hm l hl
      simp only [plus, Value.list.injEq] at hl
      subst hl
      rw [← e1]
      exact h2 hm _ rfl
  | string x =>
    obtain ⟨h1, h2⟩ := h
    have e2 : (strBytes (x ++ (bs.flatten.filterMap fromUtf8).flatten)).length =
        (strBytes (x ++ (bs'.flatten.filterMap fromUtf8).flatten)).length := by
      exact ((((hp.filterMap fromUtf8).flatten).append_left x).flatMap_right String.utf8EncodeChar).length_eq
    refine ⟨?_, by simp [plus]⟩
    simp only [plus, body, payload, List.length_cons, List.length_append, beBytes_length] at h1 e2 ⊢
    omega
  | _ => exact h

/-- C37. Any number of clients concurrently append blocks of arguments to an existing bytes, list or string
key (naming the type or not), while others read it or work steadily on other keys. Under every schedule
that lets all of them finish there is an order of the requests, respecting real time, such that the final
content is the initial content followed by all blocks in that order, and every append answers with the
content up to and including its own block. The final content must fit into a response. -/
theorem C37_concurrent_appends {env : Env} {rs : List (Request × Bytes)} {cs : List Call}
    {os : List (Option (List Bytes))} (hs : Sees rs cs) (K : Bytes → Prop) (k : Bytes) (hkK : K k) (t : KeyType)
    (ht : t = .bytes ∨ t = .list ∨ t = .string) (hr : All2 (AppendRole K k t) os cs) (hu : ¬ unusable env.mode k)
    (v : Value) (hvt : v.kind = t) (db : Db) (hstart : db.keys k = some v) (hex : ∀ k, K k → db.keys k ≠ none)
    (hc : Roomy rs.length db.ctrs) (hd : Deliverable env.mode (.value (plus v (present os).flatten)))
    (sched : List Nat) (hf : ((Pool.start env rs db).exec sched).finished) :
    ∃ order : List Nat, order.Perm (List.range rs.length) ∧
      ((Pool.start env rs db).exec sched).db.keys k = some (plus v (present (pick os order)).flatten) ∧
      (∀ (j i : Nat) b resp, order[j]? = some i → os[i]? = some (some b) → rs[i]?.map Prod.snd = some resp →
        ((Pool.start env rs db).exec sched).threads[i]? = some (.done (.ok (resp ++ frame (.value
          (plus v (present ((pick os order).take (j + 1))).flatten)))))) ∧
      (∀ s1 s2, sched = s1 ++ s2 → ∀ a b r, ((Pool.start env rs db).exec s1).threads[a]? = some (.done r) →
        b < rs.length → b ∉ s1 → (∀ r, (Pool.start env rs db).threads[b]? ≠ some (.done r)) → Before a b order) := by
  have hsteady : ∀ c ∈ cs, Steady K c := by
    intro c hcc
    clear hs hc hf hd
    induction hr with
    | nil => simp at hcc
    | @cons o c' os cs ho _ ih =>
      simp only [List.mem_cons] at hcc
      rcases hcc with rfl | hcc
      · exact append_steady hkK ho
      · exact ih hcc
  obtain ⟨order, hperm, hkeys, hans, hrt⟩ := C58_linearizable (env := env) hs K hsteady db hex hc sched hf
  have hlen : os.length = rs.length := by rw [all2_length hr, ← (Sees.get hs).1]
  have hb : ∀ i ∈ order, i < rs.length := fun i hi => by
    have := hperm.mem_iff.mp hi; simpa using this
  have hsp : Sees (pick rs order) (pick cs order) := sees_all2.mpr (pick_all2 (sees_all2.mp hs) order)
  have hpp : (present (pick os order)).Perm (present os) :=
    (pick_perm os order (by rw [hlen]; exact hperm)).filterMap _
  have hlp : (pick rs order).length = rs.length := by
    rw [pick_length _ _ hb, hperm.length_eq, List.length_range]
  obtain ⟨h1, h2⟩ := serve_appends (env := env) hsp (pick_all2 hr order) hu ht v hvt db hstart (by rw [hlp]; exact hc)
    (deliverable_perm hpp.symm hd)
  refine ⟨order, hperm, by rw [hkeys, h1], ?_, hrt⟩
  intro j i o resp hj hi hresp
  obtain ⟨r, hr1, hr2⟩ := hans j i hj
  have := h2 j o resp (by rw [pick_get _ _ (by rw [hlen]; exact hb), hj]; exact hi)
    (by rw [pick_get _ _ hb, hj]; exact hresp)
  rw [hr2] at this
  rw [hr1]
  simp only [Option.some.injEq] at this
  rw [this]

/-- Beside C37 and C58: two clients append to a list while a third one reads its length in between. -/
example : ((Pool.start (sampleEnv .debug) [(call .append (some .list) [[107], [1]], []), (call .append none [[107], [2], [3]], []),
    (call .length none [[107]], [])] (sampleDb [([107], .list [[0]])])).exec [1, 2, 1, 2, 0, 0, 1, 2]).db.keys [107] =
      some (.list [[0], [2], [3], [1]]) ∧
    ((Pool.start (sampleEnv .debug) [(call .append (some .list) [[107], [1]], []), (call .append none [[107], [2], [3]], []),
    (call .length none [[107]], [])] (sampleDb [([107], .list [[0]])])).exec [1, 2, 1, 2, 0, 0, 1, 2]).threads.map
      (fun t => match t with | .done r => some r | _ => none) =
      [some (.ok (frame (.value (.list [[0], [2], [3], [1]])))), some (.ok (frame (.value (.list [[0], [2], [3]])))),
        some (.ok (frame (.value (.integer 3))))] := by decide +kernel

example : ∃ order : List Nat, order.Perm (List.range 3) ∧
    ((Pool.start (sampleEnv .debug) [(call .append (some .list) [[107], [1]], []), (call .append none [[107], [2], [3]], []),
      (call .length none [[107]], [])] (sampleDb [([107], .list [[0]])])).exec [1, 2, 1, 2, 0, 0, 1, 2]).db.keys [107] =
      some (plus (.list [[0]]) (present (pick [some [[1]], some [[2], [3]], none] order)).flatten) := by
  have hs : Sees [(call .append (some .list) [[107], [1]], []), (call .append none [[107], [2], [3]], []),
      (call .length none [[107]], [])] [⟨.append, some .list, [[107], [1]]⟩, ⟨.append, none, [[107], [2], [3]]⟩, ⟨.length, none, [[107]]⟩] :=
    .cons (call_views _ _ _ (by decide) (by decide) (by decide)) (.cons (call_views _ _ _ (by decide) (by decide) (by decide))
      (.cons (call_views _ _ _ (by decide) (by decide) (by decide)) .nil))
  have hr : All2 (AppendRole (· = [107]) [107] .list) [some [[1]], some [[2], [3]], none]
      [⟨.append, some .list, [[107], [1]]⟩, ⟨.append, none, [[107], [2], [3]]⟩, ⟨.length, none, [[107]]⟩] :=
    .cons ⟨rfl, Or.inl rfl, rfl⟩ (.cons ⟨rfl, Or.inr rfl, rfl⟩ (.cons ⟨Or.inr (by simp), Or.inl (by decide)⟩ .nil))
  obtain ⟨order, h1, h2, -⟩ := C37_concurrent_appends (env := sampleEnv .debug) hs (· = [107]) [107] rfl .list
    (Or.inr (Or.inl rfl)) hr (by decide +kernel) (.list [[0]]) rfl (sampleDb [([107], .list [[0]])]) (by decide +kernel)
    (by rintro k rfl; decide +kernel) (sampleDb_roomy _ _ (by decide))
    ⟨by decide +kernel, by intro _ l hl; simp [plus, present] at hl; subst hl; decide⟩ [1, 2, 1, 2, 0, 0, 1, 2]
    (finished_of_live (by decide +kernel))
  exact ⟨order, h1, h2⟩

/-! ## Further concrete cases -/

private theorem three_seen : Sees [(call .increment none [[107]], []), (call .decrementBy none [[107], [0, 0, 0, 0, 0, 0, 0, 5]], [7]),
    (call .get none [[107]], [])]
    [⟨.increment, none, [[107]]⟩, ⟨.decrementBy, none, [[107], [0, 0, 0, 0, 0, 0, 0, 5]]⟩, ⟨.get, none, [[107]]⟩] :=
  .cons (call_views _ _ _ (by decide) (by decide) (by decide)) (.cons (call_views _ _ _ (by decide) (by decide) (by decide))
    (.cons (call_views _ _ _ (by decide) (by decide) (by decide)) .nil))

private theorem three_steady : ∀ c ∈ [(⟨.increment, none, [[107]]⟩ : Call), ⟨.decrementBy, none, [[107], [0, 0, 0, 0, 0, 0, 0, 5]]⟩,
    ⟨.get, none, [[107]]⟩], Steady (· = [107]) c := by
  intro c hc
  simp only [List.mem_cons, List.not_mem_nil, or_false] at hc
  rcases hc with rfl | rfl | rfl
  · intro k h; cases h; rfl
  · intro k h; cases h; rfl
  · trivial

/-- Three rounds suffice. -/
example : ((Pool.start (sampleEnv .debug) [(call .increment none [[107]], []), (call .decrementBy none
    [[107], [0, 0, 0, 0, 0, 0, 0, 5]], [7]), (call .get none [[107]], [])] (sampleDb [([107], .integer 40)])).exec
    [0, 1, 2, 0, 1, 2, 2, 1, 0]).finished :=
  C58_finishes three_seen _ three_steady _ (by rintro k rfl; decide +kernel) (sampleDb_roomy _ _ (by decide)) _ (by decide)

/-- Whatever the schedule, there is an order. -/
example (sched : List Nat) (hf : ((Pool.start (sampleEnv .debug) [(call .increment none [[107]], []), (call .decrementBy none
    [[107], [0, 0, 0, 0, 0, 0, 0, 5]], [7]), (call .get none [[107]], [])] (sampleDb [([107], .integer 40)])).exec sched).finished) :
    ∃ order : List Nat, order.Perm (List.range 3) ∧
      ((Pool.start (sampleEnv .debug) [(call .increment none [[107]], []), (call .decrementBy none
        [[107], [0, 0, 0, 0, 0, 0, 0, 5]], [7]), (call .get none [[107]], [])] (sampleDb [([107], .integer 40)])).exec sched).db.keys =
      (serveAll (sampleEnv .debug) (pick [(call .increment none [[107]], []), (call .decrementBy none
        [[107], [0, 0, 0, 0, 0, 0, 0, 5]], [7]), (call .get none [[107]], [])] order) (sampleDb [([107], .integer 40)])).2.keys := by
  obtain ⟨order, h1, h2, -⟩ := C58_linearizable three_seen _ three_steady _ (by rintro k rfl; decide +kernel) (sampleDb_roomy _ _ (by decide)) sched hf
  exact ⟨order, h1, h2⟩

end Hop
