import Verif.Spec.Sessions
import Verif.Lemmas.Lists

/-! # C38 and C61: sessions -/

namespace Hop

open Spec

theorem adds_snoc (h : List SessionOp) (o : SessionOp) :
    adds (h ++ [o]) = adds h + (match o with | .add _ => 1 | _ => 0) := by
  unfold adds
  rw [List.countP_append]
  cases o <;> simp

theorem append_cons_snoc {α : Type} {h pre post : List α} {o a : α} (e : h ++ [o] = pre ++ a :: post) :
    (post = [] ∧ h = pre ∧ o = a) ∨ ∃ q, post = q ++ [o] ∧ h = pre ++ a :: q := by
  rcases List.eq_nil_or_concat post with rfl | ⟨q, x, rfl⟩
  · left
    have := List.append_inj' e (by simp)
    simp at this
    exact ⟨rfl, this.1, this.2⟩
  · right
    rw [List.concat_eq_append] at e ⊢
    have h2 : h ++ [o] = (pre ++ a :: q) ++ [x] := by simpa using e
    have := List.append_inj' h2 (by simp)
    simp at this
    exact ⟨q, by rw [this.2], this.1⟩

theorem Active.lt {h : List SessionOp} {n : Nat} {t : Bytes} (ha : Active h n t) : n < adds h := by
  obtain ⟨pre, post, rfl, hn, _⟩ := ha
  unfold adds at *
  rw [List.countP_append, List.countP_cons]
  simp
  omega

theorem Active.add {h : List SessionOp} {n : Nat} {t tok : Bytes} :
    Active (h ++ [.add tok]) n t ↔ Active h n t ∨ (n = adds h ∧ t = tok) := by
  constructor
  · rintro ⟨pre, post, e, hn, hp⟩
    rcases append_cons_snoc e with ⟨rfl, rfl, ho⟩ | ⟨q, rfl, rfl⟩
    · right; cases ho; exact ⟨hn.symm, rfl⟩
    · left; exact ⟨pre, q, rfl, hn, fun hm => hp (by simp [hm])⟩
  · rintro (⟨pre, post, rfl, hn, hp⟩ | ⟨rfl, rfl⟩)
    · exact ⟨pre, post ++ [.add tok], by simp, hn, by simp [hp]⟩
    · exact ⟨h, [], by simp, rfl, by simp⟩

theorem Active.remove {h : List SessionOp} {n : Nat} {t : Bytes} {id : UInt32} :
    Active (h ++ [.remove id]) n t ↔ Active h n t ∧ UInt32.ofNat n ≠ id := by
  constructor
  · rintro ⟨pre, post, e, hn, hp⟩
    rcases append_cons_snoc e with ⟨rfl, rfl, ho⟩ | ⟨q, rfl, rfl⟩
    · cases ho
    · exact ⟨⟨pre, q, rfl, hn, fun hm => hp (by simp [hm])⟩, fun e => hp (by simp [e])⟩
  · rintro ⟨⟨pre, post, rfl, hn, hp⟩, hne⟩
    exact ⟨pre, post ++ [.remove id], by simp, hn, by simp [hp, hne]⟩

/-- The manager after fewer than 2^32 additions. -/
theorem sessions_state (mode : Mode) (h : List SessionOp) (hb : adds h ≤ 2 ^ 32) :
    let s := sessionsAfter mode h
    s.nextId = UInt32.ofNat (adds h) ∧ 
    (∃ m, s.metrics.live = some m ∧ (m.counters .sessionsStarted).getD 0 = adds h) ∧
    ∀ n, n < 2 ^ 32 → ∀ x, s.sessions (UInt32.ofNat n) = some x ↔ ∃ t, Active h n t ∧ x = ⟨t, UInt32.ofNat n⟩ := by
  induction h using snoc_ind with
  | h0 =>
    refine ⟨rfl, ⟨_, rfl, rfl⟩, ?_⟩
    intro n hn x
    simp only [sessionsAfter, List.foldl_nil, SessionMgr.new]
    constructor
    · intro e; cases e
    · rintro ⟨t, ha, _⟩; exact absurd (Active.lt ha) (by simp [adds])
  | h1 h o ih =>
    rw [adds_snoc] at hb
    have hs : sessionsAfter mode (h ++ [o]) = o.apply mode (sessionsAfter mode h) := by simp [sessionsAfter]
    obtain ⟨i1, ⟨m, i2, i3⟩, i4⟩ := ih (by omega)
    intro s
    have hs : s = o.apply mode (sessionsAfter mode h) := hs
    cases o with
    | remove id =>
      rw [hs, adds_snoc]
      refine ⟨i1, ⟨m, i2, i3⟩, ?_⟩
      intro n hn x
      simp only [SessionOp.apply, SessionMgr.remove, Active.remove]
      by_cases e : UInt32.ofNat n = id
      · simp [e]
      · rw [if_neg e, i4 n hn]; simp [e]
    | add tok =>
      have hlt : adds h < 2 ^ 32 := by simp at hb; omega
      have hfree : (sessionsAfter mode h).sessions (sessionsAfter mode h).nextId = none := by
        rw [i1]
        cases hx : (sessionsAfter mode h).sessions (UInt32.ofNat (adds h)) with
        | none => rfl
        | some x => obtain ⟨t, ha, _⟩ := (i4 _ hlt x).mp hx; exact absurd (Active.lt ha) (by omega)
      have hadd : addU mode 64 ((m.counters .sessionsStarted).getD 0) 1 = some (adds h + 1) := by
        rw [i3]; unfold addU; rw [if_pos (by omega)]
      rw [hs, adds_snoc]
      simp only [SessionOp.apply, SessionMgr.add, hfree, MetricCell.increment, i2, hadd]
      refine ⟨?_, ⟨_, rfl, by simp⟩, ?_⟩
      · rw [i1]; exact (UInt32.ofNat_add _ _).symm
      · intro n hn x
        rw [i1]
        simp only [Active.add]
        by_cases e : n = adds h
        · subst e
          rw [if_pos rfl]
          constructor
          · intro hx; cases hx; exact ⟨tok, .inr ⟨rfl, rfl⟩, rfl⟩
          · rintro ⟨t, ha | ⟨_, rfl⟩, rfl⟩
            · exact absurd (Active.lt ha) (by omega)
            · rfl
        · have hne : UInt32.ofNat n ≠ UInt32.ofNat (adds h) := by
            intro he
            have := congrArg UInt32.toNat he
            simp at this
            omega
          rw [if_neg hne, i4 n hn]
          simp [e]

/-- **C38.** While fewer than 2^32 sessions have been added to a new engine: the next `add` does not
panic, its session gets the number of sessions added before as its identifier, under which it is stored
and which it carries itself, with the given token (so identifiers are given in order from 0, and no two
sessions get the same); and `remove` answers true exactly if the session with that identifier was added
and has not been removed since. -/
theorem C38_sessions (mode : Mode) (h : List SessionOp) (hb : adds h < 2 ^ 32) :
    (∀ token, ((sessionsAfter mode h).add mode token).1 =
      some (UInt32.ofNat (adds h), ⟨token, UInt32.ofNat (adds h)⟩)) ∧
    ∀ id, ((sessionsAfter mode h).remove id).1 = true ↔ ∃ token, Active h id.toNat token := by
  obtain ⟨i1, ⟨m, i2, i3⟩, i4⟩ := sessions_state mode h (by omega)
  constructor
  · intro tok
    have hfree : (sessionsAfter mode h).sessions (sessionsAfter mode h).nextId = none := by
      rw [i1]
      cases hx : (sessionsAfter mode h).sessions (UInt32.ofNat (adds h)) with
      | none => rfl
      | some x => obtain ⟨t, ha, _⟩ := (i4 _ hb x).mp hx; exact absurd (Active.lt ha) (by omega)
    have hadd : addU mode 64 ((m.counters .sessionsStarted).getD 0) 1 = some (adds h + 1) := by
      rw [i3]; unfold addU; rw [if_pos (by omega)]
    simp only [SessionMgr.add, hfree, MetricCell.increment, i2, hadd]
    rw [i1]
  · intro id
    have h4 := i4 id.toNat id.toNat_lt
    rw [UInt32.ofNat_toNat] at h4
    simp only [SessionMgr.remove]
    constructor
    · intro hx
      obtain ⟨x, hx⟩ := Option.isSome_iff_exists.mp hx
      obtain ⟨t, ha, _⟩ := (h4 x).mp hx
      exact ⟨t, ha⟩
    · rintro ⟨t, ha⟩
      rw [(h4 _).mpr ⟨t, ha, rfl⟩]; rfl

theorem addAnswers_append (mode : Mode) (s : SessionMgr) (h g : List SessionOp) :
    addAnswers mode s (h ++ g) = addAnswers mode s h ++ addAnswers mode (h.foldl (SessionOp.apply mode) s) g := by
  induction h generalizing s with
  | nil => rfl
  | cons o h ih => cases o <;> simp [addAnswers, ih, SessionOp.apply]

theorem tokens_length (h : List SessionOp) : (tokens h).length = adds h := by
  unfold tokens adds
  induction h with
  | nil => rfl
  | cons o h ih => cases o <;> simp [ih]

/-- **C38, in order.** The `i`-th addition answers with identifier `i`, and a session with its token. -/
theorem C38_in_order (mode : Mode) (h : List SessionOp) (hb : adds h ≤ 2 ^ 32) :
    addAnswers mode (.new .new) h = (tokens h).mapIdx fun i t => some (UInt32.ofNat i, ⟨t, UInt32.ofNat i⟩) := by
  induction h using snoc_ind with
  | h0 => rfl
  | h1 h o ih =>
    rw [adds_snoc] at hb
    rw [addAnswers_append, ih (by omega)]
    unfold tokens
    rw [List.filterMap_append, List.mapIdx_append]
    cases o with
    | remove id => simp [addAnswers]
    | add t =>
      have := (C38_sessions mode h (by simp at hb; omega)).1 t
      unfold sessionsAfter at this
      have hl := tokens_length h
      unfold tokens at hl
      simp [addAnswers, this, hl]

/-- **C38, all different.** No two additions answer with the same identifier. -/
theorem C38_distinct (mode : Mode) (h : List SessionOp) (hb : adds h ≤ 2 ^ 32) :
    (addAnswers mode (.new .new) h).Pairwise fun a b => ∃ i j, a = some i ∧ b = some j ∧ i.1 ≠ j.1 := by
  rw [C38_in_order mode h hb, List.pairwise_iff_getElem]
  intro i j hi hj hij
  simp only [List.length_mapIdx, tokens_length] at hi hj
  refine ⟨_, _, by simp; rfl, by simp; rfl, ?_⟩
  intro he
  have := congrArg UInt32.toNat he
  simp at this
  omega

/-- **C38, once.** Removing the same session again answers false. -/
theorem C38_once (s : SessionMgr) (id : UInt32) : ((s.remove id).2.remove id).1 = false := by
  simp [SessionMgr.remove]

/-- **C38, counted.** The statistics count the additions. -/
theorem C38_counted (mode : Mode) (h : List SessionOp) (hb : adds h ≤ 2 ^ 32) :
    ((sessionsAfter mode h).metrics.readCounter .sessionsStarted).getD 0 = adds h := by
  obtain ⟨_, ⟨m, i2, i3⟩, _⟩ := sessions_state mode h hb
  simpa [MetricCell.readCounter, i2] using i3

/-- **C38, the limit.** After 2^32 additions identifiers start over, and the next addition panics exactly
if the very first session still exists. -/
theorem C38_wraps (mode : Mode) (h : List SessionOp) (hb : adds h = 2 ^ 32) (token : Bytes) :
    ((sessionsAfter mode h).add mode token).1 = none ↔ ∃ t, Active h 0 t := by
  obtain ⟨i1, ⟨m, i2, i3⟩, i4⟩ := sessions_state mode h (by omega)
  have hz : UInt32.ofNat (adds h) = UInt32.ofNat 0 := by rw [hb]; decide +kernel
  rw [hz] at i1
  have i4 := i4 0 (by omega)
  have hadd : addU mode 64 ((m.counters .sessionsStarted).getD 0) 1 = some (adds h + 1) := by
    rw [i3]; unfold addU; rw [if_pos (by omega)]
  simp only [SessionMgr.add, MetricCell.increment, i2, hadd, i1]
  cases hx : (sessionsAfter mode h).sessions (UInt32.ofNat 0) with
  | none =>
    simp
    intro t ha
    have := (i4 _).mpr ⟨t, ha, rfl⟩
    rw [hx] at this
    cases this
  | some x =>
    obtain ⟨t, ha, _⟩ := (i4 x).mp hx
    simp
    exact ⟨t, ha⟩

/-- Two additions with a removal between them. -/
example : addAnswers .debug (.new .new) [.add [1], .remove 0, .add [2]] = [some (0, ⟨[1], 0⟩), some (1, ⟨[2], 1⟩)] :=
  C38_in_order .debug [.add [1], .remove 0, .add [2]] (by decide)

example : ((sessionsAfter .debug [.add [1], .add [2], .remove 0]).remove 1).1 = true :=
  ((C38_sessions .debug [.add [1], .add [2], .remove 0] (by decide)).2 1).mpr
    ⟨[2], [.add [1]], [.remove 0], rfl, rfl, by simp⟩

theorem adds_replicate (n : Nat) (t : Bytes) : adds (List.replicate n (.add t)) = n := by
  induction n with
  | zero => rfl
  | succ n ih => rw [List.replicate_succ', adds_snoc, ih]

/-- 2^32 sessions that stay: the next one panics. -/
example (n : Nat) (hn : n + 1 = 2 ^ 32) :
    ((sessionsAfter .release (List.replicate (n + 1) (.add []))).add .release []).1 = none :=
  (C38_wraps .release (List.replicate (n + 1) (.add [])) ((adds_replicate _ _).trans hn) []).mpr
    ⟨[], [], List.replicate n (.add []), List.replicate_succ, rfl, by
      intro h; cases List.eq_of_mem_replicate h⟩

/-! ## Several threads -/

/-- **C61 as one would want it:** however additions and removals from several threads are interleaved, no
addition panics, sessions are stored under the identifier they carry, and no two additions answer with
the same identifier. -/
def C61_Statement : Prop :=
  ∀ mode ts p, ts.length < 2 ^ 32 → (∀ t ∈ ts, Fresh t) → Reaches mode ts p →
    (∀ t ∈ p.threads, t ≠ .panicked) ∧
    (∀ k s, .added k s ∈ p.threads → s.id = k) ∧
    ∀ i j : Nat, ∀ k s s', i ≠ j → p.threads[i]? = some (.added k s) → p.threads[j]? = some (.added k s') → False

/-- Two additions at once: the second reads the next identifier before the first has advanced it, and
panics. -/
theorem C61_panics (mode : Mode) (a b : Bytes) :
    ∃ p, Reaches mode [.add a, .add b] p ∧ .panicked ∈ p.threads := by
  refine ⟨_, ⟨[0, 1, 0, 1, 0, 0, 0, 0, 1], rfl⟩, ?_⟩
  cases mode <;> simp [SessionPool.exec, SessionPool.stepAt, SessionThread.step, SessionPool.free, SessionThread.holds,
    SessionMgr.new, MetricCell.new, MetricCell.increment, addU]

/-- Two additions at once: the second makes its session before the first advances the identifier and
stores it afterwards, so the session is stored under identifier 1 and carries 0. -/
theorem C61_wrong_id (mode : Mode) (a b : Bytes) :
    ∃ p, Reaches mode [.add a, .add b] p ∧ p.threads = [.added 0 ⟨a, 0⟩, .added 1 ⟨b, 0⟩] := by
  refine ⟨_, ⟨[1, 0, 0, 0, 0, 0, 0, 1, 1, 1, 1, 1], rfl⟩, ?_⟩
  cases mode <;> simp [SessionPool.exec, SessionPool.stepAt, SessionThread.step, SessionPool.free, SessionThread.holds,
    SessionMgr.new, MetricCell.new, MetricCell.increment, addU]

/-- Two additions and a removal at once: the second addition reads identifier 0 twice, and inserts after
the first one's session was removed again. Both answer with identifier 0. -/
theorem C61_reused (mode : Mode) (a b : Bytes) :
    ∃ p, Reaches mode [.add a, .add b, .remove 0] p ∧
      p.threads = [.added 0 ⟨a, 0⟩, .added 0 ⟨b, 0⟩, .removed true] := by
  refine ⟨_, ⟨[1, 1, 0, 0, 0, 0, 0, 0, 2, 1, 1, 1, 1], rfl⟩, ?_⟩
  cases mode <;> simp [SessionPool.exec, SessionPool.stepAt, SessionThread.step, SessionPool.free, SessionThread.holds,
    SessionMgr.new, MetricCell.new, MetricCell.increment, addU, SessionMgr.remove]

/-- Four additions and a removal at once: the first addition advances the identifier from a number it has read
before two others advanced it, so the identifier goes back to one in use. From then on, with nothing running at the
same time any more, every addition panics and changes nothing. -/
theorem C61_stuck (mode : Mode) (a b c d : Bytes) :
    ∃ p, Reaches mode [.add a, .add d, .remove 0, .add b, .add c] p ∧
      p.threads = [.added 0 ⟨a, 0⟩, .added 0 ⟨d, 0⟩, .removed true, .added 1 ⟨b, 1⟩, .added 2 ⟨c, 2⟩] ∧
      ∀ token, p.mgr.add mode token = (none, p.mgr) := by
  refine ⟨_, ⟨[0, 0, 1, 1, 1, 1, 1, 1, 2, 0, 0, 3, 3, 3, 3, 3, 0, 3, 4, 4, 4, 4, 4, 4, 0], rfl⟩, ?_⟩
  cases mode <;> simp [SessionPool.exec, SessionPool.stepAt, SessionThread.step, SessionPool.free, SessionThread.holds,
    SessionMgr.new, MetricCell.new, MetricCell.increment, addU, SessionMgr.remove, SessionMgr.add]

theorem C61_false : ¬ C61_Statement := by
  intro h
  obtain ⟨p, hr, hm⟩ := C61_panics .debug [1] [2]
  exact (h .debug _ p (by decide) (by simp [Fresh]) hr).1 _ hm rfl

/-- The entry a thread has put its session into. -/
def SessionThread.owns : SessionThread → Option (UInt32 × Session)
  | .inserted s k | .counted s k | .advancing s k _ => some (k, s)
  | .added k s => some (k, s)
  | _ => none

/-- Threads that only add. -/
def SessionThread.adder : SessionThread → Prop
  | .remove _ => False
  | .removed _ => False
  | _ => True

/-- What holds throughout when threads only add. -/
structure Owned (p : SessionPool) : Prop where
  adders : ∀ t ∈ p.threads, t.adder
  stored : ∀ t ∈ p.threads, ∀ k s, t.owns = some (k, s) → p.mgr.sessions k = some s
  apart : ∀ i j : Nat, ∀ t t' k s s', i ≠ j → p.threads[i]? = some t → p.threads[j]? = some t' →
    t.owns = some (k, s) → t'.owns = some (k, s') → False

theorem Owned.keep {p : SessionPool} (h : Owned p) {i : Nat} {t t' : SessionThread} {m : SessionMgr}
    (hi : p.threads[i]? = some t) (ha : t'.adder) (ho : t'.owns = none ∨ t'.owns = t.owns)
    (hm : m.sessions = p.mgr.sessions) : Owned { threads := p.threads.set i t', mgr := m } := by
  have hmem : t ∈ p.threads := List.mem_of_getElem? hi
  refine ⟨?_, ?_, ?_⟩
  · intro u hu
    rcases List.mem_or_eq_of_mem_set hu with hu | rfl
    · exact h.adders u hu
    · exact ha
  · intro u hu k s e
    rw [show ({ threads := p.threads.set i t', mgr := m } : SessionPool).mgr.sessions = p.mgr.sessions from hm]
    rcases List.mem_or_eq_of_mem_set hu with hu | rfl
    · exact h.stored u hu k s e
    · rcases ho with ho | ho
      · rw [ho] at e; cases e
      · rw [ho] at e; exact h.stored t hmem k s e
  · have key : ∀ (a : Nat) (u : SessionThread) (k : UInt32) (s : Session), (p.threads.set i t')[a]? = some u → u.owns = some (k, s) →
        ∃ v, p.threads[a]? = some v ∧ v.owns = some (k, s) := by
      intro a u k s hu e
      rw [List.getElem?_set] at hu
      split at hu
      · rename_i hai
        subst hai
        split at hu
        · cases hu
          rcases ho with ho | ho
          · rw [ho] at e; cases e
          · exact ⟨t, hi, by rw [← ho]; exact e⟩
        · cases hu
      · exact ⟨u, hu, e⟩
    intro a b u u' k s s' hab hu hu' e e'
    obtain ⟨v, hv, hve⟩ := key a u k s hu e
    obtain ⟨v', hv', hve'⟩ := key b u' k s' hu' e'
    exact h.apart a b v v' k s s' hab hv hv' hve hve'

theorem Owned.step {p : SessionPool} (h : Owned p) (mode : Mode) (i : Nat) : Owned (p.stepAt mode i) := by
  unfold SessionPool.stepAt
  split
  · exact h
  · rename_i t hi
    have hmem : t ∈ p.threads := List.mem_of_getElem? hi
    cases t with
    | add token => exact h.keep hi trivial (.inl rfl) rfl
    | made s => exact h.keep hi trivial (.inl rfl) rfl
    | inserted s k =>
      simp only [SessionThread.step]
      split
      · rename_i c _ e; exact h.keep hi trivial (.inl rfl) rfl
      · exact h.keep hi trivial (.inr rfl) rfl
    | counted s k => exact h.keep hi trivial (.inr rfl) rfl
    | advancing s k old => exact h.keep hi trivial (.inr rfl) rfl
    | added k s => exact h.keep hi trivial (.inr rfl) rfl
    | panicked => exact h.keep hi trivial (.inr rfl) rfl
    | remove id => exact (h.adders _ hmem).elim
    | removed b => exact (h.adders _ hmem).elim
    | keyed s k =>
      simp only [SessionThread.step]
      split
      · split
        · exact h.keep hi trivial (.inl rfl) rfl
        · rename_i hfree hnone
          have hno : ∀ u ∈ p.threads, ∀ s', u.owns ≠ some (k, s') := by
            intro u hu s' e
            have := h.stored u hu k s' e
            rw [hnone] at this
            cases this
          refine ⟨?_, ?_, ?_⟩
          · intro u hu
            rcases List.mem_or_eq_of_mem_set hu with hu | rfl
            · exact h.adders u hu
            · trivial
          · intro u hu k' s' e
            rcases List.mem_or_eq_of_mem_set hu with hu1 | rfl
            · have hne : k' ≠ k := by rintro rfl; exact hno u hu1 s' e
              simp only [if_neg hne]
              exact h.stored u hu1 k' s' e
            · simp only [SessionThread.owns, Option.some.injEq, Prod.mk.injEq] at e
              obtain ⟨rfl, rfl⟩ := e
              simp
          · intro a b u u' k' s1 s2 hab hu hu' e e'
            simp only [List.getElem?_set] at hu hu'
            split at hu <;> split at hu'
            · omega
            · split at hu
              · cases hu
                simp only [SessionThread.owns, Option.some.injEq, Prod.mk.injEq] at e
                obtain ⟨rfl, rfl⟩ := e
                exact hno u' (List.mem_of_getElem? hu') s2 e'
              · cases hu
            · split at hu'
              · cases hu'
                simp only [SessionThread.owns, Option.some.injEq, Prod.mk.injEq] at e'
                obtain ⟨rfl, rfl⟩ := e'
                exact hno u (List.mem_of_getElem? hu) s1 e
              · cases hu'
            · exact h.apart a b u u' k' s1 s2 hab hu hu' e e'
      · exact h.keep hi trivial (.inl rfl) rfl

/-- **C61, what does hold.** If threads only add sessions, then however they are interleaved, every
addition that answers has stored its session, under an identifier that no other addition answers with.
Missing from the statement above: that no addition panics and that the session carries the identifier it
is stored under (both false), and distinctness in the presence of removals (false). -/
theorem C61_distinct_partial (mode : Mode) (ts : List SessionThread) (hts : ∀ t ∈ ts, Adding t) (p : SessionPool)
    (hr : Reaches mode ts p) :
    (∀ k s, .added k s ∈ p.threads → p.mgr.sessions k = some s) ∧
    ∀ i j : Nat, ∀ k s s', i ≠ j → p.threads[i]? = some (.added k s) → p.threads[j]? = some (.added k s') → False := by
  obtain ⟨sched, rfl⟩ := hr
  have ho : Owned (SessionPool.exec mode { threads := ts, mgr := .new .new } sched) := by
    induction sched using snoc_ind with
    | h0 =>
      have ha : ∀ t ∈ ts, t.owns = none := by
        intro t ht
        have := hts t ht
        cases t <;> first | rfl | exact this.elim
      refine ⟨?_, ?_, ?_⟩
      · intro t ht
        have := hts t ht
        cases t <;> first | trivial | exact this.elim
      · intro t ht k s e
        rw [ha t ht] at e; cases e
      · intro i j t t' k s s' _ hi _ e _
        rw [ha t (List.mem_of_getElem? hi)] at e; cases e
    | h1 sched i ih =>
      have : ∀ p, SessionPool.exec mode p (sched ++ [i]) = (SessionPool.exec mode p sched).stepAt mode i := by
        intro p; simp [SessionPool.exec]
      rw [this]
      exact ih.step mode i
  exact ⟨fun k s hm => ho.stored _ hm k s rfl, fun i j k s s' hij hi hj => ho.apart i j _ _ k s s' hij hi hj rfl rfl⟩

/-- Three additions. -/
example (p : SessionPool) (hr : Reaches .debug [.add [1], .add [2], .add [3]] p) :
    ∀ i j : Nat, ∀ k s s', i ≠ j → p.threads[i]? = some (.added k s) → p.threads[j]? = some (.added k s') → False :=
  (C61_distinct_partial .debug _ (by simp [Adding]) p hr).2

/-! ## Further concrete cases -/

example : ((sessionsAfter .debug [.add [1], .remove 0, .add [2]]).metrics.readCounter .sessionsStarted).getD 0 = 2 :=
  (C38_counted .debug [.add [1], .remove 0, .add [2]] (by decide)).trans rfl

example : (addAnswers .debug (.new .new) [.add [1], .remove 0, .add [1]]).Pairwise fun a b => ∃ i j, a = some i ∧ b = some j ∧ i.1 ≠ j.1 :=
  C38_distinct .debug [.add [1], .remove 0, .add [1]] (by decide)

end Hop
