import Verif.Props.CountersAside
import Verif.Props.Notation
import Verif.Props.Local
import Verif.Props.Interleave

/-!
# Requests that have nothing to do with each other, in another order (C191)
-/

namespace Hop

open Prog Spec

/-- Neither call can change a key the other names. -/
def Spec.Apart (c c' : Call) : Prop := (∀ k ∈ named c, Bystander k c') ∧ ∀ k ∈ named c', Bystander k c

/-- The second history is the first in another order: neighbours that are apart may change places, again and again. -/
inductive Spec.Reordered : List (Request × Bytes) → List (Request × Bytes) → Prop
  | refl (h : List (Request × Bytes)) : Reordered h h
  | swap {h before after : List (Request × Bytes)} {x y : Request × Bytes} {c c' : Call} : Reordered h (before ++ x :: y :: after) →
      Views x.1 c.cmd c.kt c.args → Views y.1 c'.cmd c'.kt c'.args → Apart c c' → Reordered h (before ++ y :: x :: after)

/-- The requests that are not Stats, with their answers. -/
def Spec.answered (env : Env) (h : List (Request × Bytes)) (db : Db) : List ((Request × Bytes) × Outcome DispatchError Bytes) :=
  (h.zip (serveAll env h db).1).filter fun x => x.1.1.commandId ≠ .stats

/-- With the same values under the keys it names, a request does the same. -/
private theorem dispatch_agree {env : Env} {r : Request} {c : Call} (hv : Views r c.cmd c.kt c.args) (resp : Bytes) {db db' : Db}
    (hr : Roomy 1 db.ctrs) (hr' : Roomy 1 db'.ctrs) (hk : ∀ k ∈ named c, db.keys k = db'.keys k) :
    isOk ((dispatch env r resp).run db).1 = isOk ((dispatch env r resp).run db').1 ∧
    isErr ((dispatch env r resp).run db).1 = isErr ((dispatch env r resp).run db').1 ∧
    (r.commandId ≠ .stats → ((dispatch env r resp).run db).1 = ((dispatch env r resp).run db').1) ∧
    (∀ k ∈ named c, ((dispatch env r resp).run db).2.keys k = ((dispatch env r resp).run db').2.keys k) ∧
    ∀ k, k ∉ named c → ((dispatch env r resp).run db).2.keys k = db.keys k := by
  obtain ⟨h1, -, h3, h4⟩ := (touches_named (env := env) hv resp).run_agree (db := db) (db' := ⟨db'.keys, db.ctrs⟩) hk rfl
  obtain ⟨g1, g2, g3, g4⟩ := command_blind env r resp ⟨db'.keys, db.ctrs⟩ db' rfl
  obtain ⟨f1, f2, -⟩ := dispatch_ctrs env r resp ⟨db'.keys, db.ctrs⟩ hr
  obtain ⟨e1, e2, -⟩ := dispatch_ctrs env r resp db' hr'
  rw [← f1, ← e1] at g2 g3
  rw [← f2, ← e2] at g1
  rw [← f1, ← e1] at g4
  exact ⟨by rw [h1, g2], by rw [h1, g3], fun hs => by rw [h1, g4 hs], fun k hkn => by rw [h3 k hkn, g1], h4⟩

/-- What an outcome adds to the counters. -/
private def countedAs (ok err : Bool) (ctrs : Metric → Option Nat) : Metric → Option Nat :=
  if ok then counted ctrs .commandsSuccessful else if err then counted ctrs .commandsErrored else ctrs

private theorem ctrs_after {env : Env} {r : Request} {resp : Bytes} {db : Db} (hr : Roomy 1 db.ctrs) :
    ((dispatch env r resp).run db).2.ctrs =
      countedAs (isOk ((dispatch env r resp).run db).1) (isErr ((dispatch env r resp).run db).1) db.ctrs := by
  rw [(dispatch_ctrs env r resp db hr).2.2]
  cases ((dispatch env r resp).run db).1 <;> rfl

private theorem counted_comm (ctrs : Metric → Option Nat) (m m' : Metric) : counted (counted ctrs m) m' = counted (counted ctrs m') m := by
  funext x
  by_cases h : m = m'
  · rw [h]
  · simp only [counted]
    by_cases h1 : x = m <;> by_cases h2 : x = m' <;> simp_all

private theorem countedAs_comm (a b a' b' : Bool) (ctrs : Metric → Option Nat) :
    countedAs a b (countedAs a' b' ctrs) = countedAs a' b' (countedAs a b ctrs) := by
  cases a <;> cases b <;> cases a' <;> cases b' <;> simp only [countedAs, if_true, Bool.false_eq_true, if_false] <;>
    first | rfl | exact counted_comm _ _ _

/-- Two requests that are apart, one after the other: in which order does not matter. -/
theorem swap_two {env : Env} {r r' : Request} {c c' : Call} (hv : Views r c.cmd c.kt c.args) (hv' : Views r' c'.cmd c'.kt c'.args)
    (ha : Apart c c') (resp resp' : Bytes) {db : Db} (hr : Roomy 2 db.ctrs) :
    let a := (dispatch env r resp).run db
    let ab := (dispatch env r' resp').run a.2
    let b := (dispatch env r' resp').run db
    let ba := (dispatch env r resp).run b.2
    ab.2 = ba.2 ∧ (r.commandId ≠ .stats → a.1 = ba.1) ∧ (r'.commandId ≠ .stats → b.1 = ab.1) := by
  intro a ab b ba
  have hr1 : Roomy 1 db.ctrs := Roomy.mono hr (by omega)
  have hra : Roomy 1 a.2.ctrs := dispatch_roomy env r resp db 1 hr
  have hrb : Roomy 1 b.2.ctrs := dispatch_roomy env r' resp' db 1 hr
  have wa : ∀ (db : Db) k, k ∈ named c' → ((dispatch env r resp).run db).2.keys k = db.keys k := fun db k hk =>
    (bystander_writes (env := env) (K := (· ∈ named c')) hv ha.2 resp).run db k (not_not_intro hk)
  have wb : ∀ (db : Db) k, k ∈ named c → ((dispatch env r' resp').run db).2.keys k = db.keys k := fun db k hk =>
    (bystander_writes (env := env) (K := (· ∈ named c)) hv' ha.1 resp').run db k (not_not_intro hk)
  obtain ⟨a1, a2, a3, a4, a5⟩ := dispatch_agree (env := env) hv resp hr1 hrb fun k hk => (wb db k hk).symm
  obtain ⟨b1, b2, b3, b4, b5⟩ := dispatch_agree (env := env) hv' resp' hr1 hra fun k hk => (wa db k hk).symm
  have na := (dispatch_agree (env := env) hv resp hrb hrb fun k _ => rfl).2.2.2.2
  have nb := (dispatch_agree (env := env) hv' resp' hra hra fun k _ => rfl).2.2.2.2
  refine ⟨?_, a3, b3⟩
  have hkeys : ab.2.keys = ba.2.keys := by
    funext k
    by_cases h1 : k ∈ named c
    · rw [show ab.2.keys k = a.2.keys k from wb a.2 k h1]
      exact a4 k h1
    · by_cases h2 : k ∈ named c'
      · rw [show ba.2.keys k = b.2.keys k from wa b.2 k h2]
        exact (b4 k h2).symm
      · rw [show ab.2.keys k = a.2.keys k from nb k h2, show ba.2.keys k = b.2.keys k from na k h1]
        exact (a5 k h1).trans (b5 k h2).symm
  have hctrs : ab.2.ctrs = ba.2.ctrs := by
    rw [show ab.2.ctrs = _ from ctrs_after hra, show ba.2.ctrs = _ from ctrs_after hrb, show a.2.ctrs = _ from ctrs_after hr1,
      show b.2.ctrs = _ from ctrs_after hr1, ← b1, ← b2, ← a1, ← a2, countedAs_comm]
  cases hab : ab.2
  cases hba : ba.2
  rw [hab, hba] at hkeys hctrs
  simp only at hkeys hctrs
  rw [hkeys, hctrs]

private theorem reordered_pair {env : Env} {x y : Request × Bytes} {c c' : Call} (hv : Views x.1 c.cmd c.kt c.args)
    (hv' : Views y.1 c'.cmd c'.kt c'.args) (ha : Apart c c') (after : List (Request × Bytes)) :
    ∀ (before : List (Request × Bytes)) (db : Db), Roomy (before.length + 2) db.ctrs →
      (serveAll env (before ++ x :: y :: after) db).2 = (serveAll env (before ++ y :: x :: after) db).2 ∧
      (answered env (before ++ x :: y :: after) db).Perm (answered env (before ++ y :: x :: after) db)
  | [], db, hr => by
    obtain ⟨h1, h2, h3⟩ := swap_two (env := env) hv hv' ha x.2 y.2 hr
    refine ⟨by simp only [List.nil_append, serveAll]; rw [h1], ?_⟩
    simp only [answered, List.nil_append, serveAll, List.zip_cons_cons, List.filter_cons]
    rw [h1]
    by_cases g1 : x.1.commandId = .stats <;> by_cases g2 : y.1.commandId = .stats
    · simp only [g1, g2]
      exact List.Perm.refl _
    · simp only [g1, g2]
      rw [h3 g2]
      exact List.Perm.refl _
    · simp only [g1, g2]
      rw [h2 g1]
      exact List.Perm.refl _
    · simp only [ne_eq, g1, g2, not_false_eq_true, decide_true, if_true]
      rw [h2 g1, h3 g2]
      exact List.Perm.swap _ _ _
  | z :: before, db, hr => by
    obtain ⟨h1, h2⟩ := reordered_pair hv hv' ha after before ((dispatch env z.1 z.2).run db).2
      (dispatch_roomy env z.1 z.2 db _ (Roomy.mono hr (by simp)))
    refine ⟨h1, ?_⟩
    simp only [answered, List.cons_append, serveAll, List.zip_cons_cons, List.filter_cons] at h2 ⊢
    split
    · exact h2.cons _
    · exact h2

theorem Spec.Reordered.length {h h' : List (Request × Bytes)} (hr : Reordered h h') : h'.length = h.length := by
  induction hr with
  | refl => rfl
  | swap _ _ _ _ ih => rw [← ih]; simp

/-- **C191.** A history in another order, in which only requests that are apart have passed each other: the database ends
up the same, statistics included, and every request but Stats is given the answer it is given in the first order. -/
theorem C191_reordered {env : Env} {h h' : List (Request × Bytes)} (hre : Reordered h h') (db : Db) (hr : Roomy h.length db.ctrs) :
    (serveAll env h' db).2 = (serveAll env h db).2 ∧ (answered env h' db).Perm (answered env h db) := by
  induction hre with
  | refl => exact ⟨rfl, List.Perm.refl _⟩
  | @swap before after x y c c' h0 hv hv' ha ih =>
    have hl := Reordered.length h0
    obtain ⟨h1, h2⟩ := reordered_pair (env := env) hv hv' ha after before db (Roomy.mono hr (by rw [← hl]; simp))
    exact ⟨h1.symm.trans ih.1, h2.symm.trans ih.2⟩

theorem Spec.Reordered.trans {a b c : List (Request × Bytes)} (h1 : Reordered a b) (h2 : Reordered b c) : Reordered a c := by
  induction h2 with
  | refl => exact h1
  | swap _ hv hv' ha ih => exact ih.swap hv hv' ha

theorem Spec.Reordered.cons (x : Request × Bytes) {a b : List (Request × Bytes)} (h : Reordered a b) : Reordered (x :: a) (x :: b) := by
  induction h with
  | refl => exact .refl _
  | @swap before after x' y c c' _ hv hv' ha ih => exact .swap (before := x :: before) ih hv hv' ha

/-- The requests are apart, as seen through their accessors. -/
def Spec.RequestsApart (x y : Request × Bytes) : Prop :=
  ∃ c c' : Call, Views x.1 c.cmd c.kt c.args ∧ Views y.1 c'.cmd c'.kt c'.args ∧ Apart c c'

private theorem requestsApart_symm {x y : Request × Bytes} : RequestsApart x y → RequestsApart y x
  | ⟨c, c', h, h', ha⟩ => ⟨c', c, h', h, ha.2, ha.1⟩

private theorem perm_reordered {h h' : List (Request × Bytes)} (hp : h.Perm h') : h.Pairwise RequestsApart → Reordered h h' := by
  induction hp with
  | nil => exact fun _ => .refl _
  | cons x _ ih => exact fun hw => (ih (List.pairwise_cons.mp hw).2).cons x
  | swap x y l =>
    intro hw
    obtain ⟨c, c', hv, hv', ha⟩ := (List.pairwise_cons.mp hw).1 x (List.mem_cons_self ..)
    exact .swap (before := []) (.refl _) hv hv' ha
  | trans h1 _ ih1 ih2 => exact fun hw => (ih1 hw).trans (ih2 (h1.pairwise hw requestsApart_symm))

/-- **C191, any order.** If all requests of a history are apart from each other, they may be served in any order. -/
theorem C191_any_order {env : Env} {h h' : List (Request × Bytes)} (hw : h.Pairwise RequestsApart) (hp : h.Perm h') (db : Db)
    (hr : Roomy h.length db.ctrs) :
    (serveAll env h' db).2 = (serveAll env h db).2 ∧ (answered env h' db).Perm (answered env h db) :=
  C191_reordered (perm_reordered hp hw) db hr

private theorem named_of_not_bystander {k : Bytes} {c : Call} (h : ¬ Bystander k c) : k ∈ named c ∧ c.cmd ≠ .stats := by
  obtain ⟨cmd, kt, args⟩ := c
  simp only [Bystander, not_or] at h
  obtain ⟨h1, h2⟩ := h
  have h3 : args[0]? = some k ∨ (cmd = .rename ∧ args[1]? = some k) := by
    by_cases h : args[0]? = some k
    · exact .inl h
    · by_cases h' : cmd = .rename ∧ args[1]? = some k
      · exact .inr h'
      · exact absurd ⟨h, fun hr hk => h' ⟨hr, hk⟩⟩ h2
  refine ⟨?_, by rintro rfl; exact h1 (by decide)⟩
  rcases h3 with h3 | ⟨rfl, h3⟩
  · match args, h3 with
    | a :: more, h3 =>
      simp only [List.getElem?_cons_zero, Option.some.injEq] at h3
      subst h3
      cases cmd <;> first | exact absurd (by decide) h1 | simp [named]
  · match args, h3 with
    | a :: b :: more, h3 =>
      simp only [List.getElem?_cons_succ, List.getElem?_cons_zero, Option.some.injEq] at h3
      subst h3
      simp [named]

private theorem serveAll_untouched {env : Env} {k : Bytes} {h : List (Request × Bytes)} {cs : List Call} (hs : Sees h cs)
    (hb : ∀ c ∈ cs, Bystander k c) (db : Db) : (serveAll env h db).2.keys k = db.keys k := by
  induction hs generalizing db with
  | nil => rfl
  | @cons r resp c rs cs hv _ ih =>
    refine (ih (fun c hc => hb c (List.mem_cons_of_mem _ hc)) _).trans ?_
    exact (bystander_writes (env := env) (K := (· = k)) hv (by rintro _ rfl; exact hb c (List.mem_cons_self ..)) resp).run db k
      (not_not_intro rfl)

/-- Served one after the other, requests that are apart do what they do alone. -/
private theorem serveAll_alone {env : Env} {h : List (Request × Bytes)} {cs : List Call} (hs : Sees h cs) (hw : cs.Pairwise Apart) (db : Db)
    (hr : Roomy h.length db.ctrs) :
    ∀ (i : Nat) r resp c, h[i]? = some (r, resp) → cs[i]? = some c →
      (r.commandId ≠ .stats → (serveAll env h db).1[i]? = some ((dispatch env r resp).run db).1) ∧
      ∀ k ∈ named c, (serveAll env h db).2.keys k = ((dispatch env r resp).run db).2.keys k := by
  induction hs generalizing db with
  | nil => intro i r resp c hi; simp at hi
  | @cons r0 resp0 c0 rs cs hv hs ih =>
    obtain ⟨hw0, hw1⟩ := List.pairwise_cons.mp hw
    intro i r resp c hi hc
    cases i with
    | zero =>
      simp only [List.getElem?_cons_zero, Option.some.injEq, Prod.mk.injEq] at hi hc
      obtain ⟨rfl, rfl⟩ := hi
      subst hc
      exact ⟨fun _ => rfl, fun k hk => serveAll_untouched hs (fun c' hc' => (hw0 c' hc').1 k hk) _⟩
    | succ i =>
      simp only [List.getElem?_cons_succ] at hi hc
      have hr1 : Roomy rs.length ((dispatch env r0 resp0).run db).2.ctrs := dispatch_roomy env r0 resp0 db _ (by simpa using hr)
      obtain ⟨h1, h2⟩ := ih hw1 _ hr1 i r resp c hi hc
      have hlen : 0 < rs.length := by have := (List.getElem?_eq_some_iff.mp hi).1; omega
      obtain ⟨c', hc', hvc⟩ := (Sees.get hs).2 i _ hi
      rw [hc] at hc'
      cases hc'
      obtain ⟨-, -, a3, a4, -⟩ := dispatch_agree (env := env) hvc resp (db := ((dispatch env r0 resp0).run db).2) (db' := db)
        (Roomy.mono hr1 hlen) (Roomy.mono hr (by simp)) fun k hk =>
          (bystander_writes (env := env) (K := (· ∈ named c)) hv (hw0 c (List.mem_of_getElem? hc)).2 resp0).run db k (not_not_intro hk)
      refine ⟨fun hst => ?_, fun k hk => (h2 k hk).trans (a4 k hk)⟩
      simp only [serveAll, List.getElem?_cons_succ]
      rw [h1 hst, a3 hst]

/-- **C191, concurrently.** Requests that are apart from each other, served at the same time: under every schedule, once all
have their answers, the keys are as if they had been served one after the other, and so are the answers, but for Stats. -/
theorem C191_concurrent {env : Env} {rs : List (Request × Bytes)} {cs : List Call} (hs : Sees rs cs) (hw : cs.Pairwise Apart) (db : Db)
    (hr : Roomy rs.length db.ctrs) (sched : List Nat)
    (hd : ∀ i < rs.length, ∃ out, ((Pool.start env rs db).exec sched).threads[i]? = some (.done out)) :
    ((Pool.start env rs db).exec sched).db.keys = (serveAll env rs db).2.keys ∧
    ∀ (i : Nat) (r : Request × Bytes), rs[i]? = some r → r.1.commandId ≠ .stats →
      ((Pool.start env rs db).exec sched).threads[i]? = (serveAll env rs db).1[i]?.map Prog.done := by
  have hpair : ∀ (i j : Nat) c c', cs[i]? = some c → cs[j]? = some c' → j ≠ i → ∀ k ∈ named c, Bystander k c' := by
    intro i j c c' hi hj hne k hk
    obtain ⟨hi1, rfl⟩ := List.getElem?_eq_some_iff.mp hi
    obtain ⟨hj1, rfl⟩ := List.getElem?_eq_some_iff.mp hj
    rcases Nat.lt_or_gt_of_ne hne with h | h
    · exact (List.pairwise_iff_getElem.mp hw j i hj1 hi1 h).2 k hk
    · exact (List.pairwise_iff_getElem.mp hw i j hi1 hj1 h).1 k hk
  refine ⟨?_, ?_⟩
  · funext k
    by_cases hb : ∀ c ∈ cs, Bystander k c
    · rw [C54_untouched hs db k hb sched, serveAll_untouched hs hb]
    · obtain ⟨c, hc, hb⟩ : ∃ c ∈ cs, ¬ Bystander k c := by
        apply Classical.byContradiction
        intro h
        exact hb fun c hc => Classical.byContradiction fun hn => h ⟨c, hc, hn⟩
      obtain ⟨hk, hst⟩ := named_of_not_bystander hb
      obtain ⟨i, hi, rfl⟩ := List.getElem_of_mem hc
      have hi' : i < rs.length := by rw [(Sees.get hs).1]; exact hi
      obtain ⟨out, ho⟩ := hd i hi'
      have hci : cs[i]? = some cs[i] := List.getElem?_eq_getElem hi
      have hri : rs[i]? = some (rs[i].1, rs[i].2) := List.getElem?_eq_getElem hi'
      rw [(C34_no_interference hs i _ _ _ hri hci hst (fun j c' hj hne => hpair i j _ _ hci hj hne) db hr sched out ho).2 k hk,
        (serveAll_alone hs hw db hr i _ _ _ hri hci).2 k hk]
  · rintro i ⟨r, resp⟩ hri hst
    obtain ⟨c, hci, hv⟩ := (Sees.get hs).2 i _ hri
    obtain ⟨out, ho⟩ := hd i (List.getElem?_eq_some_iff.mp hri).1
    have hst' : c.cmd ≠ .stats := by rw [← hv.1]; exact hst
    rw [ho, (serveAll_alone hs hw db hr i _ _ _ hri hci).1 hst]
    rw [(C34_no_interference hs i _ _ _ hri hci hst' (fun j c' hj hne => hpair i j _ _ hci hj hne) db hr sched out ho).1]
    rfl

/-! ## Concrete cases -/

private def three : List (Request × Bytes) :=
  [(call .increment none [[107]], []), (call .get none [[108]], [9]), (call .rename none [[109], [110]], [])]

private def threeCalls : List Call := [⟨.increment, none, [[107]]⟩, ⟨.get, none, [[108]]⟩, ⟨.rename, none, [[109], [110]]⟩]

private theorem three_sees : Sees three threeCalls :=
  .cons (call_views _ _ _ (by decide) (by decide) (by decide)) (.cons (call_views _ _ _ (by decide) (by decide) (by decide))
    (.cons (call_views _ _ _ (by decide) (by decide) (by decide)) .nil))

private theorem three_apart : threeCalls.Pairwise Apart := by
  simp only [threeCalls, List.pairwise_cons, List.mem_cons, List.not_mem_nil, or_false, forall_eq_or_imp, forall_eq, List.Pairwise.nil, and_true]
  refine ⟨⟨⟨?_, ?_⟩, ⟨?_, ?_⟩⟩, ⟨⟨?_, ?_⟩, fun _ h => absurd h (by simp)⟩⟩ <;> simp [named, Bystander]

private def threeDb : Db := sampleDb [([108], .string ['A']), ([109], .boolean true)]

/-- The last request first: the two it passes are apart from it. -/
example : (serveAll (sampleEnv .debug) [(call .rename none [[109], [110]], []), (call .increment none [[107]], []), (call .get none [[108]], [9])]
    threeDb).2 = (serveAll (sampleEnv .debug) three threeDb).2 :=
  (C191_reordered (h := three)
    (.swap (before := []) (after := [(call .get none [[108]], [9])]) (c := ⟨.increment, none, [[107]]⟩) (c' := ⟨.rename, none, [[109], [110]]⟩)
      (.swap (before := [(call .increment none [[107]], [])]) (after := []) (c := ⟨.get, none, [[108]]⟩) (c' := ⟨.rename, none, [[109], [110]]⟩)
        (.refl _) (call_views _ _ _ (by decide) (by decide) (by decide)) (call_views _ _ _ (by decide) (by decide) (by decide))
        (by constructor <;> simp [named, Bystander]))
      (call_views _ _ _ (by decide) (by decide) (by decide)) (call_views _ _ _ (by decide) (by decide) (by decide))
      (by constructor <;> simp [named, Bystander]))
    threeDb (sampleDb_roomy _ _ (by decide))).1

private theorem three_requests_apart : three.Pairwise RequestsApart := by
  have h := three_apart
  have hs := three_sees
  simp only [threeCalls, three, List.pairwise_cons, List.mem_cons, List.not_mem_nil, or_false, forall_eq_or_imp, forall_eq, List.Pairwise.nil,
    and_true] at h hs ⊢
  obtain ⟨⟨h1, h2⟩, h3, -⟩ := h
  have v1 : Views (call .increment none [[107]]) .increment none [[107]] := call_views _ _ _ (by decide) (by decide) (by decide)
  have v2 : Views (call .get none [[108]]) .get none [[108]] := call_views _ _ _ (by decide) (by decide) (by decide)
  have v3 : Views (call .rename none [[109], [110]]) .rename none [[109], [110]] := call_views _ _ _ (by decide) (by decide) (by decide)
  exact ⟨⟨⟨_, _, v1, v2, h1⟩, ⟨_, _, v1, v3, h2⟩⟩, ⟨_, _, v2, v3, h3⟩, fun _ h => absurd h (by simp)⟩

/-- All three in reverse: each is answered as before. -/
example : (answered (sampleEnv .release) three.reverse threeDb).Perm (answered (sampleEnv .release) three threeDb) ∧
    (answered (sampleEnv .release) three threeDb).map Prod.snd =
      [.ok (frame (.value (.integer 1))), .ok ([9] ++ frame (.value (.string ['A']))), .ok (frame (.value (.bytes [110])))] :=
  ⟨(C191_any_order three_requests_apart (List.reverse_perm _).symm threeDb (sampleDb_roomy _ _ (by decide))).2, by decide +kernel⟩

/-- All three at once. -/
example : ((Pool.start (sampleEnv .release) three threeDb).exec [2, 0, 1, 2, 0, 1, 2, 0, 1, 2, 0, 1, 2, 0, 1, 2, 0, 1]).db.keys =
    (serveAll (sampleEnv .release) three threeDb).2.keys :=
  (C191_concurrent three_sees three_apart threeDb (sampleDb_roomy _ _ (by decide)) _ (by
    intro i hi
    have h : ∀ i < 3, (match ((Pool.start (sampleEnv .release) three threeDb).exec
        [2, 0, 1, 2, 0, 1, 2, 0, 1, 2, 0, 1, 2, 0, 1, 2, 0, 1]).threads[i]? with
      | some (.done _) => true
      | _ => false) = true := by decide +kernel
    have := h i hi
    split at this
    · exact ⟨_, by assumption⟩
    · cases this)).1

/-- **C191, the others.** Requests that are not apart may not pass each other: of two Sets of one key the last one counts,
and a Get tells whether it was served before or after a Set. -/
theorem C191_needed (m : Mode) :
    (serveAll (sampleEnv m) [(call .set (some .bytes) [[107], [1]], []), (call .set (some .bytes) [[107], [2]], [])] (sampleDb [])).2.keys [107] ≠
      (serveAll (sampleEnv m) [(call .set (some .bytes) [[107], [2]], []), (call .set (some .bytes) [[107], [1]], [])] (sampleDb [])).2.keys [107] ∧
    ¬ (answered (sampleEnv m) [(call .set (some .bytes) [[107], [1]], []), (call .get none [[107]], [])] (sampleDb [])).Perm
      (answered (sampleEnv m) [(call .get none [[107]], []), (call .set (some .bytes) [[107], [1]], [])] (sampleDb [])) := by
  refine ⟨by cases m <;> decide +kernel, fun h => ?_⟩
  have h1 := (h.map Prod.snd).mem_iff (a := Outcome.err .keyNonexistent)
  revert h1
  cases m <;> decide +kernel

end Hop
