import Verif.Model.SessionLocks
import Verif.Props.SessionGuards
import Verif.Props.Fair

/-! # C167, C168: the locks of the session manager -/

namespace Hop
open Spec

/-- Threads that have not begun. -/
def Spec.arriving (progs : List SProg) (m : SessionMgr) : SLPool :=
  { threads := progs.map fun q => ⟨⟨[], none, q⟩, none⟩, mgr := m }

/-! ## What an access does -/

theorem SessionMgr.put_self (m : SessionMgr) (k : UInt32) : m.put k (m.sessions k) = m := by
  have : (fun i => if i = k then m.sessions k else m.sessions i) = m.sessions := by
    funext i
    by_cases h : i = k
    · simp [h]
    · simp [h]
  simp only [SessionMgr.put, this]

theorem SThread.step_wants {t : SThread} {k : UInt32} (h : t.wants = some k) (mode : Mode) (o : Option Session) :
    ∃ t' v, ∀ (free : UInt32 → Bool) (m : SessionMgr), free k = true → m.sessions k = o →
      t.step mode free m = (t', m.put k v) := by
  obtain ⟨held, call, prog⟩ := t
  cases prog with
  | add token next =>
    cases call with
    | none => simp [SThread.wants] at h
    | some c =>
      cases c with
      | keyed s k' =>
        simp only [SThread.wants, Option.some.injEq] at h
        subst h
        cases o with
        | some x =>
          refine ⟨⟨[], none, .done⟩, some x, fun free m hf hm => ?_⟩
          simp only [SThread.step, Option.getD_some, SessionThread.step, hf, if_true, hm]
          rw [← hm, SessionMgr.put_self]
        | none =>
          refine ⟨⟨held, some (.inserted s k'), .add token next⟩, some s, fun free m hf hm => ?_⟩
          simp only [SThread.step, Option.getD_some, SessionThread.step, hf, if_true, hm, SessionMgr.put]
      | _ => simp [SThread.wants] at h
  | remove id next =>
    simp only [SThread.wants, Option.some.injEq] at h
    subst h
    refine ⟨⟨held, call, next o.isSome⟩, none, fun free m hf hm => ?_⟩
    simp only [SThread.step, SessionThread.step, hf, if_true, SessionMgr.remove, hm, SessionMgr.put]
  | _ => simp [SThread.wants] at h

theorem SThread.step_writes {t : SThread} {k : UInt32} (h : t.writes = some k) :
    k ∈ t.held ∧ ∃ t' v, ∀ (mode : Mode) (free : UInt32 → Bool) (m : SessionMgr), t.step mode free m = (t', m.put k v) := by
  obtain ⟨held, call, prog⟩ := t
  cases prog with
  | write id s next =>
    simp only [SThread.writes] at h
    by_cases hc : held.contains id = true
    · rw [if_pos hc, Option.some.injEq] at h
      subst h
      refine ⟨by simpa using hc, ⟨held, call, next⟩, some s, fun mode free m => ?_⟩
      simp only [SThread.step, hc, if_true, SessionMgr.put]
    · rw [if_neg hc] at h; cases h
  | _ => simp [SThread.writes] at h

/-- A change of the entry `k` that the thread found to be `o`. -/
theorem SThread.step_busy {t : SThread} {k : UInt32} (h : t.wants = some k ∨ t.writes = some k) (mode : Mode) (o : Option Session) :
    ∃ t' v, ∀ (free : UInt32 → Bool) (m : SessionMgr), (t.wants = some k → free k = true) → m.sessions k = o →
      t.step mode free m = (t', m.put k v) := by
  rcases h with h | h
  · obtain ⟨t', v, he⟩ := SThread.step_wants h mode o
    exact ⟨t', v, fun free m hf hm => he free m (hf h) hm⟩
  · obtain ⟨-, t', v, he⟩ := SThread.step_writes h
    exact ⟨t', v, fun free m _ _ => he mode free m⟩

theorem SThread.step_waits {t : SThread} {k : UInt32} (h : t.wants = some k) (mode : Mode) (free : UInt32 → Bool) (m : SessionMgr)
    (hf : free k = false) : t.step mode free m = (t, m) := by
  obtain ⟨held, call, prog⟩ := t
  cases prog with
  | add token next =>
    cases call with
    | none => simp [SThread.wants] at h
    | some c =>
      cases c with
      | keyed s k' =>
        simp only [SThread.wants, Option.some.injEq] at h
        subst h
        simp [SThread.step, SessionThread.step, hf]
      | _ => simp [SThread.wants] at h
  | remove id next =>
    simp only [SThread.wants, Option.some.injEq] at h
    subst h
    simp [SThread.step, SessionThread.step, hf]
  | _ => simp [SThread.wants] at h

/-- Other accesses change no session, and depend on none but those of the thread's guards. -/
theorem SThread.step_plain {t : SThread} (hwf : t.Wf) (h : t.wants = none) (h' : t.writes = none) (mode : Mode)
    (m : SessionMgr) :
    ∃ t' c n, ∀ (free : UInt32 → Bool) (sessions : UInt32 → Option Session), (∀ g ∈ t.held, sessions g = m.sessions g) →
      t.step mode free { m with sessions } = (t', { metrics := c, nextId := n, sessions }) := by
  cases hwf with
  | idle =>
    rename_i held prog
    cases prog with
    | done => exact ⟨_, m.metrics, m.nextId, fun free s _ => rfl⟩
    | add token next => exact ⟨⟨held, some (.made ⟨token, m.nextId⟩), .add token next⟩, m.metrics, m.nextId, fun free s _ => rfl⟩
    | remove id next => simp [SThread.wants] at h
    | look id next =>
      refine ⟨⟨held, none, next (if held.contains id then m.sessions id else none)⟩, m.metrics, m.nextId, fun free s hs => ?_⟩
      simp only [SThread.step]
      by_cases hc : held.contains id = true
      · rw [if_pos hc, if_pos hc, hs id (by simpa using hc)]
      · rw [if_neg hc, if_neg hc]
    | write id s next =>
      simp only [SThread.writes] at h'
      by_cases hc : held.contains id = true
      · rw [if_pos hc] at h'; cases h'
      · refine ⟨⟨held, none, next⟩, m.metrics, m.nextId, fun free s _ => ?_⟩
        simp only [SThread.step]
        rw [if_neg hc]
    | drop id next => exact ⟨_, m.metrics, m.nextId, fun free s _ => rfl⟩
  | made =>
    rename_i held token next i
    exact ⟨⟨held, some (.keyed ⟨token, i⟩ m.nextId), .add token next⟩, m.metrics, m.nextId, fun free s _ => rfl⟩
  | keyed => simp [SThread.wants] at h
  | inserted =>
    rename_i held token next i k
    cases hr : (m.metrics.increment mode .sessionsStarted).1 with
    | none =>
      refine ⟨⟨[], none, .done⟩, (m.metrics.increment mode .sessionsStarted).2, m.nextId, fun free s _ => ?_⟩
      simp only [SThread.step, Option.getD_some, SessionThread.step]
      generalize m.metrics.increment mode .sessionsStarted = r at *
      obtain ⟨a, b⟩ := r
      dsimp only at hr ⊢
      subst hr
      rfl
    | some b =>
      refine ⟨⟨held, some (.counted ⟨token, i⟩ k), .add token next⟩, (m.metrics.increment mode .sessionsStarted).2, m.nextId,
        fun free s _ => ?_⟩
      simp only [SThread.step, Option.getD_some, SessionThread.step]
      generalize m.metrics.increment mode .sessionsStarted = r at *
      obtain ⟨a, b⟩ := r
      dsimp only at hr ⊢
      subst hr
      rfl
  | counted =>
    rename_i held token next i k
    exact ⟨⟨held, some (.advancing ⟨token, i⟩ k m.nextId), .add token next⟩, m.metrics, m.nextId, fun free s _ => rfl⟩
  | advancing => rename_i old; exact ⟨_, m.metrics, old + 1, fun free s _ => rfl⟩

/-! ## The execution whose accesses take no time -/

/-- What holds of a situation with locks and the corresponding one without. -/
structure InStep (shard : UInt32 → Nat) (p : SLPool) (q : SPool) : Prop where
  threads : q.threads = p.threads.map (·.base)
  attended : Attended shard q
  nextId : q.mgr.nextId = p.mgr.nextId
  metrics : q.mgr.metrics = p.mgr.metrics
  found : ∀ (n : Nat) t k o, p.threads[n]? = some ⟨t, some (k, o)⟩ → q.mgr.sessions k = o
  others : ∀ k, (∀ (n : Nat) t k' o, p.threads[n]? = some ⟨t, some (k', o)⟩ → k' ≠ k) → q.mgr.sessions k = p.mgr.sessions k
  busy : ∀ (n : Nat) t k o, p.threads[n]? = some ⟨t, some (k, o)⟩ →
    (t.wants = some k ∧ ∀ (j : Nat) u, p.threads[j]? = some u → ∀ g ∈ u.base.locks, shard g ≠ shard k) ∨ t.writes = some k
  apart : ∀ (n j : Nat) t t' k k' o o', n ≠ j → p.threads[n]? = some ⟨t, some (k, o)⟩ → p.threads[j]? = some ⟨t', some (k', o')⟩ →
    shard k ≠ shard k'

theorem InStep.base {shard : UInt32 → Nat} {p : SLPool} {q : SPool} (h : InStep shard p q) {n : Nat} {t : SLThread}
    (ht : p.threads[n]? = some t) : q.threads[n]? = some t.base := by
  rw [h.threads, List.getElem?_map, ht]; rfl

theorem InStep.locked {shard : UInt32 → Nat} {p : SLPool} {q : SPool} (h : InStep shard p q) {n : Nat} {t : SThread} {k : UInt32}
    {o : Option Session} (ht : p.threads[n]? = some ⟨t, some (k, o)⟩) {j : Nat} (hj : j ≠ n) {u : SLThread}
    (hu : p.threads[j]? = some u) : ∀ g ∈ u.base.locks, shard g ≠ shard k := by
  intro g hg
  rcases h.busy n t k o ht with ⟨-, h1⟩ | h1
  · exact h1 j u hu g hg
  · exact h.attended.apart j n _ _ hj (h.base hu) (h.base ht) g hg k
      (List.mem_append_right _ (SThread.step_writes h1).1)

/-- The sessions in both, but for what is being changed. -/
theorem InStep.mgr_put {shard : UInt32 → Nat} {p : SLPool} {q : SPool} (h : InStep shard p q) (k : UInt32) (v : Option Session) :
    (q.mgr.put k v).nextId = (p.mgr.put k v).nextId ∧ (q.mgr.put k v).metrics = (p.mgr.put k v).metrics := ⟨h.nextId, h.metrics⟩

theorem SessionMgr.put_put (m : SessionMgr) (k : UInt32) (a b : Option Session) : (m.put k a).put k b = m.put k b := by
  have : (fun i => if i = k then b else if i = k then a else m.sessions i) = fun i => if i = k then b else m.sessions i := by
    funext i
    by_cases h : i = k <;> simp [h]
  simp only [SessionMgr.put, this]

theorem SessionMgr.put_at (m : SessionMgr) (k : UInt32) (a : Option Session) : (m.put k a).sessions k = a := by simp [SessionMgr.put]

theorem SessionMgr.put_ne (m : SessionMgr) {k i : UInt32} (h : i ≠ k) (a : Option Session) : (m.put k a).sessions i = m.sessions i := by
  simp [SessionMgr.put, h]

private theorem map_set_base (l : List SLThread) (n : Nat) (t : SLThread) : (l.set n t).map (·.base) = (l.map (·.base)).set n t.base := by
  rw [List.map_set]

/-- Beginning a change. -/
theorem InStep.begin {shard : UInt32 → Nat} {p : SLPool} {q : SPool} (h : InStep shard p q) {n : Nat} {t : SThread} {k : UInt32}
    (ht : p.threads[n]? = some ⟨t, none⟩)
    (hb : (t.wants = some k ∧ ∀ (j : Nat) u, p.threads[j]? = some u → ∀ g ∈ u.locks, shard g ≠ shard k) ∨ t.writes = some k) :
    InStep shard { p with threads := p.threads.set n ⟨t, some (k, p.mgr.sessions k)⟩ } q := by
  have hlt := (List.getElem?_eq_some_iff.mp ht).1
  -- nobody else is changing an entry with the same lock
  have hfree : ∀ (j : Nat) u k' o, p.threads[j]? = some ⟨u, some (k', o)⟩ → shard k' ≠ shard k := by
    intro j u k' o hu
    rcases hb with ⟨-, h1⟩ | h1
    · exact h1 j _ hu k' (by simp [SLThread.locks])
    · have hj : n ≠ j := fun e => by subst e; rw [ht] at hu; cases hu
      exact (h.locked hu hj ht k (List.mem_append_right _ (SThread.step_writes h1).1)).symm
  have hself : q.mgr.sessions k = p.mgr.sessions k := h.others k fun j u k' o hu e => hfree j u k' o hu (by rw [e])
  refine ⟨?_, h.attended, h.nextId, h.metrics, ?_, ?_, ?_, ?_⟩
  · rw [map_set_base, h.threads]
    exact (set_same (by rw [List.getElem?_map, ht]; rfl)).symm
  · intro j u k' o hu
    rcases getElem?_set_cases hu with ⟨-, e⟩ | ⟨-, hu⟩
    · cases e; exact hself
    · exact h.found j u k' o hu
  · intro k' hk'
    refine h.others k' fun j u k'' o hu => ?_
    by_cases hj : n = j
    · subst hj; rw [ht] at hu; cases hu
    · exact hk' j u k'' o (by rw [List.getElem?_set_ne hj]; exact hu)
  · intro j u k' o hu
    have hbase : ∀ (i : Nat) x, (p.threads.set n ⟨t, some (k, p.mgr.sessions k)⟩)[i]? = some x →
        ∃ y, p.threads[i]? = some y ∧ y.base = x.base := by
      intro i x hx
      rcases getElem?_set_cases hx with ⟨rfl, rfl⟩ | ⟨-, hx⟩
      · exact ⟨_, ht, rfl⟩
      · exact ⟨x, hx, rfl⟩
    rcases getElem?_set_cases hu with ⟨-, e⟩ | ⟨-, hu⟩
    · cases e
      rcases hb with ⟨h1, h2⟩ | h1
      · refine .inl ⟨h1, fun i x hx g hg => ?_⟩
        obtain ⟨y, hy, e⟩ := hbase i x hx
        exact h2 i y hy g (List.mem_append_right _ (e ▸ hg))
      · exact .inr h1
    · rcases h.busy j u k' o hu with ⟨h1, h2⟩ | h1
      · refine .inl ⟨h1, fun i x hx g hg => ?_⟩
        obtain ⟨y, hy, e⟩ := hbase i x hx
        exact h2 i y hy g (e ▸ hg)
      · exact .inr h1
  · intro i j u u' k1 k2 o1 o2 hij hu hu'
    rcases getElem?_set_cases hu with ⟨hi, e⟩ | ⟨hi, hu⟩
    · rcases getElem?_set_cases hu' with ⟨hj, -⟩ | ⟨-, hu'⟩
      · exact absurd (hi.trans hj.symm) hij
      · cases e
        exact (hfree j _ _ _ hu').symm
    · rcases getElem?_set_cases hu' with ⟨-, e⟩ | ⟨-, hu'⟩
      · cases e; exact hfree i _ _ _ hu
      · exact h.apart i j _ _ _ _ _ _ hij hu hu'

/-- One step with locks is at most one without. -/
theorem InStep.step {mode : Mode} {shard : UInt32 → Nat} {p p' : SLPool} {q : SPool} {n : Nat} (h : InStep shard p q)
    (hs : SLStep mode shard p n p') : ∃ sched, InStep shard p' (q.exec mode shard sched) := by
  cases hs with
  | lock ht hw hf => exact ⟨[], h.begin ht (.inl ⟨hw, hf⟩)⟩
  | edit ht hw => exact ⟨[], h.begin ht (.inr hw)⟩
  | @draft t k o v ht =>
    refine ⟨[], h.threads, h.attended, h.nextId, h.metrics, h.found, ?_, h.busy, h.apart⟩
    intro k' hk'
    have hne : k' ≠ k := (hk' n t k o ht).symm
    show q.mgr.sessions k' = _
    rw [h.others k' hk', SessionMgr.put_ne _ hne]
  | @commit t k o ht =>
    have hlt := (List.getElem?_eq_some_iff.mp ht).1
    have hb := h.busy n t k o ht
    obtain ⟨t', v, he⟩ := SThread.step_busy (hb.imp_left And.left) mode o
    have hfree : t.wants = some k → q.free shard k = true := by
      intro hw
      rw [SPool.free_iff]
      intro j u hu g hg
      rw [h.threads, List.getElem?_map, Option.map_eq_some_iff] at hu
      obtain ⟨x, hx, rfl⟩ := hu
      rcases hb with ⟨-, h1⟩ | h1
      · exact h1 j x hx g hg
      · obtain ⟨held, call, prog⟩ := t
        cases prog <;> simp [SThread.wants, SThread.writes] at hw h1
    have e1 := he (fun _ => true) (p.mgr.put k o) (fun _ => rfl) (SessionMgr.put_at _ _ _)
    have e2 := he (q.free shard) q.mgr hfree (h.found n t k o ht)
    rw [SessionMgr.put_put] at e1
    have hq : q.exec mode shard [n] = ⟨q.threads.set n t', q.mgr.put k v⟩ := by
      show q.stepAt mode shard n = _
      simp only [SPool.stepAt, h.base ht, e2]
    refine ⟨[n], ?_⟩
    have hatt := h.attended.exec (mode := mode) [n]
    rw [hq] at hatt ⊢
    rw [e1]
    -- the locks the thread has now
    have hlocks : ∀ g ∈ t'.locks, g ∈ t.locks ∨ g = k := by
      have hm := (h.attended.wf n t (h.base ht)).move mode (fun i => i == k) q.mgr
      rw [he (fun i => i == k) q.mgr (by simp) (h.found n t k o ht)] at hm
      intro g hg
      rcases hm.locks with hsub | ⟨w, h1, h2, -⟩
      · exact .inl (hsub.subset hg)
      · rw [h2, List.mem_cons] at hg
        rcases hg with rfl | hg
        · exact .inr (by simpa using h1)
        · exact .inl hg
    refine ⟨?_, hatt, h.nextId, h.metrics, ?_, ?_, ?_, ?_⟩
    · rw [map_set_base, h.threads]
    · intro j u k' o' hu
      rcases getElem?_set_cases hu with ⟨-, e⟩ | ⟨hj, hu⟩
      · cases e
      · have hne : k' ≠ k := fun e => h.apart j n _ _ _ _ _ _ hj hu ht (by rw [e])
        rw [SessionMgr.put_ne _ hne]
        exact h.found j u k' o' hu
    · intro k' hk'
      by_cases hkk : k' = k
      · subst hkk; rw [SessionMgr.put_at, SessionMgr.put_at]
      · rw [SessionMgr.put_ne _ hkk, SessionMgr.put_ne _ hkk]
        refine h.others k' fun j u k'' o' hu e => ?_
        by_cases hj : n = j
        · subst hj; rw [ht] at hu; cases hu; exact hkk e.symm
        · exact hk' j u k'' o' (by rw [List.getElem?_set_ne hj]; exact hu) e
    · intro j u k' o' hu
      rcases getElem?_set_cases hu with ⟨-, e⟩ | ⟨hj, hu⟩
      · cases e
      · have gu := hu
        rcases h.busy j u k' o' hu with ⟨h1, h2⟩ | h1
        · refine .inl ⟨h1, fun i x hx g hg => ?_⟩
          rcases getElem?_set_cases hx with ⟨rfl, rfl⟩ | ⟨-, hx⟩
          · rcases hlocks g hg with hg | rfl
            · exact h2 _ _ ht g hg
            · exact h.apart _ j _ _ _ _ _ _ (fun e => hj e.symm) ht gu
          · exact h2 i x hx g hg
        · exact .inr h1
    · intro i j u u' k1 k2 o1 o2 hij hu hu'
      rcases getElem?_set_cases hu with ⟨-, e⟩ | ⟨-, hu⟩
      · cases e
      · rcases getElem?_set_cases hu' with ⟨-, e⟩ | ⟨-, hu'⟩
        · cases e
        · exact h.apart i j _ _ _ _ _ _ hij hu hu'
  | @plain t ht hw hw' =>
    have hwf := h.attended.wf n t (h.base ht)
    obtain ⟨t', c, k, he⟩ := SThread.step_plain hwf hw hw' mode p.mgr
    have hheld : ∀ g ∈ t.held, q.mgr.sessions g = p.mgr.sessions g := by
      intro g hg
      refine h.others g fun j u k' o hu e => ?_
      have hj : n ≠ j := fun e => by subst e; rw [ht] at hu; cases hu
      exact h.locked hu hj ht g (List.mem_append_right _ hg) (by rw [e])
    have e1 := he (fun _ => true) p.mgr.sessions (fun _ _ => rfl)
    have e2 := he (q.free shard) q.mgr.sessions hheld
    have hmq : ({ metrics := p.mgr.metrics, nextId := p.mgr.nextId, sessions := q.mgr.sessions } : SessionMgr) = q.mgr := by
      rw [← h.nextId, ← h.metrics]
    rw [hmq] at e2
    have hq : q.exec mode shard [n] = ⟨q.threads.set n t', { metrics := c, nextId := k, sessions := q.mgr.sessions }⟩ := by
      show q.stepAt mode shard n = _
      simp only [SPool.stepAt, h.base ht, e2]
    refine ⟨[n], ?_⟩
    have hatt := h.attended.exec (mode := mode) [n]
    rw [hq] at hatt ⊢
    rw [show ({ p.mgr with sessions := p.mgr.sessions } : SessionMgr) = p.mgr from rfl] at e1
    rw [e1]
    have hlocks : ∀ g ∈ t'.locks, g ∈ t.locks := by
      have hm := hwf.move mode (fun _ => false) q.mgr
      have e3 := he (fun _ => false) q.mgr.sessions hheld
      rw [hmq] at e3
      rw [e3] at hm
      intro g hg
      rcases hm.locks with hsub | ⟨w, h1, -⟩
      · exact hsub.subset hg
      · cases h1
    refine ⟨?_, hatt, rfl, rfl, ?_, ?_, ?_, ?_⟩
    · rw [map_set_base, h.threads]
    · intro j u k' o' hu
      rcases getElem?_set_cases hu with ⟨-, e⟩ | ⟨hj, hu⟩
      · cases e
      · exact h.found j u k' o' hu
    · intro k' hk'
      refine h.others k' fun j u k'' o' hu => ?_
      by_cases hj : n = j
      · subst hj; rw [ht] at hu; cases hu
      · exact hk' j u k'' o' (by rw [List.getElem?_set_ne hj]; exact hu)
    · intro j u k' o' hu
      rcases getElem?_set_cases hu with ⟨-, e⟩ | ⟨hj, hu⟩
      · cases e
      · rcases h.busy j u k' o' hu with ⟨h1, h2⟩ | h1
        · refine .inl ⟨h1, fun i x hx g hg => ?_⟩
          rcases getElem?_set_cases hx with ⟨rfl, rfl⟩ | ⟨-, hx⟩
          · exact h2 _ _ ht g (hlocks g hg)
          · exact h2 i x hx g hg
        · exact .inr h1
    · intro i j u u' k1 k2 o1 o2 hij hu hu'
      rcases getElem?_set_cases hu with ⟨-, e⟩ | ⟨-, hu⟩
      · cases e
      · rcases getElem?_set_cases hu' with ⟨-, e⟩ | ⟨-, hu'⟩
        · cases e
        · exact h.apart i j _ _ _ _ _ _ hij hu hu'

theorem InStep.steps {mode : Mode} {shard : UInt32 → Nat} {p p' : SLPool} {q : SPool} (h : InStep shard p q)
    (hs : SLSteps mode shard p p') : ∃ sched, InStep shard p' (q.exec mode shard sched) := by
  induction hs with
  | refl => exact ⟨[], h⟩
  | tail _ hstep ih =>
    obtain ⟨s, hs⟩ := ih
    obtain ⟨s', hs'⟩ := hs.step hstep
    exact ⟨s ++ s', by rw [SPool.exec_append]; exact hs'⟩

theorem InStep.start (shard : UInt32 → Nat) (progs : List SProg) (m : SessionMgr) : InStep shard (arriving progs m) (attending progs m) := by
  have hno : ∀ (n : Nat) t b, (arriving progs m).threads[n]? = some ⟨t, some b⟩ → False := by
    intro n t b h
    simp only [arriving, List.getElem?_map, Option.map_eq_some_iff] at h
    obtain ⟨x, -, e⟩ := h
    cases e
  refine ⟨?_, Attended.attending shard progs m, rfl, rfl, ?_, ?_, ?_, ?_⟩
  · simp [arriving, attending]
  · intro n t k o h; exact (hno n t _ h).elim
  · intro k _; rfl
  · intro n t k o h; exact (hno n t _ h).elim
  · intro n j t t' k k' o o' _ h; exact (hno n t _ h).elim

/-- C167. The accesses of threads that add, remove and use sessions take any time, in any order, and the entries look like
anything meanwhile. Then at every moment the threads are where they would be in an execution of the same programs in which
every access is made at one moment; the metrics, the next number and all sessions that nobody is just changing are as they
are there, and those being changed are there as they were found. -/
theorem C167_moments (mode : Mode) (shard : UInt32 → Nat) (progs : List SProg) (m : SessionMgr) (p : SLPool)
    (h : SLSteps mode shard (arriving progs m) p) :
    ∃ sched q, q = (attending progs m).exec mode shard sched ∧ q.threads = p.threads.map (·.base) ∧
      q.mgr.nextId = p.mgr.nextId ∧ q.mgr.metrics = p.mgr.metrics ∧
      (∀ k, (∀ t ∈ p.threads, ∀ k' o, t.busy = some (k', o) → k' ≠ k) → p.mgr.sessions k = q.mgr.sessions k) ∧
      ∀ t ∈ p.threads, ∀ k o, t.busy = some (k, o) → q.mgr.sessions k = o := by
  obtain ⟨sched, hs⟩ := (InStep.start shard progs m).steps h
  refine ⟨sched, _, rfl, hs.threads, hs.nextId, hs.metrics, ?_, ?_⟩
  · intro k hk
    refine (hs.others k fun n t k' o ht => ?_).symm
    exact hk _ (List.mem_of_getElem? ht) k' o rfl
  · intro t ht k o hb
    obtain ⟨n, hn⟩ := List.getElem?_of_mem ht
    obtain ⟨b, c⟩ := t
    dsimp only at hb
    subst hb
    exact hs.found n b k o hn

/-- C167: when nobody is changing anything the whole situation is one of an execution in which every access is made at one
moment. -/
theorem C167_one_step (mode : Mode) (shard : UInt32 → Nat) (progs : List SProg) (m : SessionMgr) (p : SLPool)
    (h : SLSteps mode shard (arriving progs m) p) (hq : ∀ t ∈ p.threads, t.busy = none) :
    ∃ sched, (attending progs m).exec mode shard sched = ⟨p.threads.map (·.base), p.mgr⟩ := by
  obtain ⟨sched, q, e, h1, h2, h3, h4, -⟩ := C167_moments mode shard progs m p h
  refine ⟨sched, ?_⟩
  rw [← e]
  have hs : q.mgr.sessions = p.mgr.sessions := by
    funext k
    exact (h4 k fun t ht k' o hb => by rw [hq t ht] at hb; cases hb).symm
  obtain ⟨th, mt, ni, ss⟩ := q
  dsimp only at *
  subst h1 h2 h3 hs
  rfl

/-- The same situation, with nobody in the middle of a change. -/
def Spec.unhurried (q : SPool) : SLPool := { threads := q.threads.map fun t => ⟨t, none⟩, mgr := q.mgr }

theorem SLSteps.trans {mode : Mode} {shard : UInt32 → Nat} {p q r : SLPool} (h : SLSteps mode shard p q) (h' : SLSteps mode shard q r) :
    SLSteps mode shard p r := by
  induction h' with
  | refl => exact h
  | tail _ hs ih => exact .tail ih hs

theorem unhurried_step (mode : Mode) (shard : UInt32 → Nat) {q : SPool} (h : Attended shard q) (n : Nat) :
    SLSteps mode shard (unhurried q) (unhurried (q.stepAt mode shard n)) := by
  rcases SPool.stepAt_cases mode shard q n with e | ⟨t, ht, e⟩
  · rw [e]; exact .refl
  rw [e]
  have hlt := (List.getElem?_eq_some_iff.mp ht).1
  have hn : (unhurried q).threads[n]? = some ⟨t, none⟩ := by
    simp only [unhurried, List.getElem?_map, ht]; rfl
  have hset : ∀ t', (unhurried q).threads.set n ⟨t', none⟩ = (q.threads.set n t').map fun t => (⟨t, none⟩ : SLThread) := by
    intro t'; simp only [unhurried]; rw [List.map_set]
  -- a change: begin and end it
  have hbusy : ∀ k, (t.wants = some k ∨ t.writes = some k) → (t.wants = some k → q.free shard k = true) →
      SLSteps mode shard (unhurried q) ⟨(q.threads.set n (t.step mode (q.free shard) q.mgr).1).map (⟨·, none⟩),
        (t.step mode (q.free shard) q.mgr).2⟩ := by
    intro k hk hf
    have h1 : SLStep mode shard (unhurried q) n
        { unhurried q with threads := (unhurried q).threads.set n ⟨t, some (k, (unhurried q).mgr.sessions k)⟩ } := by
      rcases hk with hk | hk
      · refine .lock hn hk fun j u hu g hg => ?_
        simp only [unhurried, List.getElem?_map, Option.map_eq_some_iff] at hu
        obtain ⟨x, hx, rfl⟩ := hu
        exact SPool.free_iff.mp (hf hk) j x hx g (by simpa [SLThread.locks] using hg)
      · exact .edit hn hk
    have h2 := SLStep.commit (mode := mode) (shard := shard)
      (p := { unhurried q with threads := (unhurried q).threads.set n ⟨t, some (k, (unhurried q).mgr.sessions k)⟩ }) (n := n)
      (t := t) (k := k) (o := (unhurried q).mgr.sessions k)
      (by show ((unhurried q).threads.set n _)[n]? = _; rw [List.getElem?_set_self (by simpa [unhurried] using hlt)])
    obtain ⟨t', v, he⟩ := SThread.step_busy hk mode (q.mgr.sessions k)
    have e1 := he (q.free shard) q.mgr hf rfl
    have e2 := he (fun _ => true) q.mgr (fun _ => rfl) rfl
    have e3 : (unhurried q).mgr.put k ((unhurried q).mgr.sessions k) = q.mgr := SessionMgr.put_self _ _
    dsimp only at h2
    rw [e3, e2, List.set_set, hset] at h2
    rw [e1]
    exact .tail (.tail .refl h1) h2
  cases hw : t.wants with
  | some k =>
    by_cases hf : q.free shard k = true
    · exact hbusy k (.inl hw) fun _ => hf
    · rw [SThread.step_waits hw mode (q.free shard) q.mgr (by simpa using hf)]
      dsimp only
      rw [set_same ht]
      exact .refl
  | none =>
    cases hw' : t.writes with
    | some k => exact hbusy k (.inr hw') fun hk => by rw [hw] at hk; cases hk
    | none =>
      have h1 := SLStep.plain (mode := mode) (shard := shard) hn hw hw'
      obtain ⟨t', c, k, he⟩ := SThread.step_plain (h.wf n t ht) hw hw' mode q.mgr
      have e1 := he (fun _ => true) q.mgr.sessions (fun _ _ => rfl)
      have e2 := he (q.free shard) q.mgr.sessions (fun _ _ => rfl)
      have e3 : t.step mode (fun _ => true) (unhurried q).mgr = t.step mode (q.free shard) q.mgr := e1.trans e2.symm
      rw [e3, hset] at h1
      exact .tail .refl h1

theorem unhurried_exec (mode : Mode) (shard : UInt32 → Nat) {q : SPool} (h : Attended shard q) (sched : List Nat) :
    SLSteps mode shard (unhurried q) (unhurried (q.exec mode shard sched)) := by
  induction sched generalizing q with
  | nil => exact .refl
  | cons n ns ih => exact (unhurried_step mode shard h n).trans (ih (h.step n))

theorem unhurried_attending (progs : List SProg) (m : SessionMgr) : unhurried (attending progs m) = arriving progs m := by
  simp [unhurried, attending, arriving]

/-- C167: conversely, every execution in which every access is made at one moment is possible. -/
theorem C167_all_possible (mode : Mode) (shard : UInt32 → Nat) (progs : List SProg) (m : SessionMgr) (sched : List Nat) :
    SLSteps mode shard (arriving progs m) (unhurried ((attending progs m).exec mode shard sched)) := by
  have := unhurried_exec mode shard (Attended.attending shard progs m) sched
  rwa [unhurried_attending] at this

/-! ## Who can go on -/

/-- Thread `n` can go on. -/
def Spec.Advances (mode : Mode) (shard : UInt32 → Nat) (p : SLPool) (n : Nat) : Prop :=
  ∃ p', SLStep mode shard p n p' ∧ p'.threads[n]? ≠ p.threads[n]?

/-- C168: threads that wait for locks of each other's guards do so for ever. -/
theorem C168_deadlock (mode : Mode) (shard : UInt32 → Nat) (progs : List SProg) (m : SessionMgr) (p p' : SLPool)
    (h : SLSteps mode shard (arriving progs m) p) (h' : SLSteps mode shard p p') (s : List Nat)
    (hs : Entangled shard ⟨p.threads.map (·.base), p.mgr⟩ s) :
    ∀ i ∈ s, ∃ t t', p.threads[i]? = some t ∧ p'.threads[i]? = some t' ∧ t'.base = t.base := by
  obtain ⟨sched, ha⟩ := (InStep.start shard progs m).steps h
  obtain ⟨more, hb⟩ := ha.steps h'
  have hs' : Entangled shard ((attending progs m).exec mode shard sched) s := by
    intro i hi
    obtain ⟨t, w, j, u, g, h1, h2, h3, h4, h5, h6⟩ := hs i hi
    exact ⟨t, w, j, u, g, by rw [ha.threads]; exact h1, h2, h3, by rw [ha.threads]; exact h4, h5, h6⟩
  intro i hi
  have e := C136_deadlock mode shard progs m sched more s hs' i hi
  rw [SPool.exec_append, hb.threads, ha.threads, List.getElem?_map, List.getElem?_map] at e
  obtain ⟨t, w, j, u, g, h1, -⟩ := hs i hi
  simp only [List.getElem?_map, Option.map_eq_some_iff] at h1
  obtain ⟨x, hx, rfl⟩ := h1
  rw [hx, Option.map_some, Option.map_eq_some_iff] at e
  obtain ⟨y, hy, e⟩ := e
  exact ⟨x, y, hx, hy, e⟩

theorem SThread.wants_needs {t : SThread} {k : UInt32} (hwf : t.Wf) : t.wants = some k ↔ Needs t k := by
  constructor
  · intro h
    cases hwf with
    | idle =>
      rename_i held prog
      cases prog with
      | remove id next => simp only [SThread.wants, Option.some.injEq] at h; subst h; exact .remove
      | _ => simp [SThread.wants] at h
    | keyed => simp only [SThread.wants, Option.some.injEq] at h; subst h; exact .add
    | _ => simp [SThread.wants] at h
  · intro h
    cases h <;> rfl

/-- How a thread goes on. -/
inductive SLLater : SLThread → SLThread → Prop
  | onward {t t' b b'} : Onward t' t → SLLater ⟨t', b'⟩ ⟨t, b⟩
  | begun {t b} : SLLater ⟨t, some b⟩ ⟨t, none⟩

theorem SLLater.acc (a : SLThread) : Acc SLLater a := by
  obtain ⟨t, b⟩ := a
  have ht : Acc Onward t := Onward.acc t.prog t.held t.call
  induction ht generalizing b with
  | intro t _ ih =>
    have hsome : ∀ c, Acc SLLater ⟨t, some c⟩ := fun c => ⟨_, fun x hx => by
      cases hx with
      | onward h => exact ih _ h _⟩
    cases b with
    | some c => exact hsome c
    | none =>
      refine ⟨_, fun x hx => ?_⟩
      cases hx with
      | onward h => exact ih _ h _
      | begun => exact hsome _

theorem SThread.not_departed {t : SThread} {k : UInt32} (h : t.wants = some k ∨ t.writes = some k) : ¬ Departed t := by
  rintro ⟨h1, -, -⟩
  obtain ⟨held, call, prog⟩ := t
  dsimp only at h1
  subst h1
  simp [SThread.wants, SThread.writes] at h

theorem SThread.Wf.goes_on {t : SThread} (h : t.Wf) (mode : Mode) (m : SessionMgr) (hd : ¬ Departed t) :
    Onward (t.step mode (fun _ => true) m).1 t :=
  (h.move mode (fun _ => true) m).onward hd fun _ _ => rfl

theorem SThread.step_departed {t : SThread} (h : Departed t) (mode : Mode) (free : UInt32 → Bool) (m : SessionMgr) :
    (t.step mode free m).1 = t := by
  obtain ⟨held, call, prog⟩ := t
  obtain ⟨h1, h2, h3⟩ := h
  dsimp only at h1 h2 h3
  subst h1 h2 h3
  rfl

theorem SLStep.later {mode : Mode} {shard : UInt32 → Nat} {p p' : SLPool} {q : SPool} {n : Nat} (ha : InStep shard p q)
    (h : SLStep mode shard p n p') : p'.threads = p.threads ∨ OneOf SLLater p'.threads p.threads := by
  cases h with
  | lock ht _ _ => exact .inr (OneOf.set ht .begun)
  | edit ht _ => exact .inr (OneOf.set ht .begun)
  | draft => exact .inl rfl
  | @commit t k o ht =>
    exact .inr (OneOf.set ht (.onward ((ha.attended.wf n t (ha.base ht)).goes_on mode _
      (SThread.not_departed ((ha.busy n t k o ht).imp_left And.left)))))
  | @plain t ht _ _ =>
    by_cases hd : Departed t
    · left
      show p.threads.set n _ = _
      rw [SThread.step_departed hd]
      exact set_same ht
    · exact .inr (OneOf.set ht (.onward ((ha.attended.wf n t (ha.base ht)).goes_on mode _ hd)))

theorem Onward.ne {t t' : SThread} (h : Onward t' t) : t' ≠ t := fun e => by
  subst e
  exact acc_irrefl (Onward.acc t'.prog t'.held t'.call) h

/-- Whether a thread can go on depends on the threads only. -/
theorem advances_iff {mode : Mode} {shard : UInt32 → Nat} {p : SLPool} {q : SPool} {n : Nat} (ha : InStep shard p q) :
    Advances mode shard p n ↔ ∃ t, p.threads[n]? = some t ∧ (t.busy ≠ none ∨ (¬ Departed t.base ∧
      ∀ k, t.base.wants = some k → ∀ (j : Nat) u, p.threads[j]? = some u → ∀ g ∈ u.locks, shard g ≠ shard k)) := by
  constructor
  · rintro ⟨p', hs, hne⟩
    cases hs with
    | @lock t k ht hw hf =>
      exact ⟨_, ht, .inr ⟨SThread.not_departed (.inl hw), fun k' hk => by rw [hw] at hk; cases hk; exact hf⟩⟩
    | @edit t k ht hw =>
      refine ⟨_, ht, .inr ⟨SThread.not_departed (.inr hw), fun k' hk => ?_⟩⟩
      obtain ⟨held, call, prog⟩ := t
      cases prog <;> simp [SThread.wants, SThread.writes] at hw hk
    | draft => exact absurd rfl hne
    | commit ht => exact ⟨_, ht, .inl (by simp)⟩
    | @plain t ht hw _ =>
      refine ⟨_, ht, .inr ⟨fun hd => hne ?_, fun k hk => by rw [hw] at hk; cases hk⟩⟩
      show (p.threads.set n _)[n]? = _
      rw [SThread.step_departed hd, set_same ht]
  · rintro ⟨⟨t, b⟩, ht, h⟩
    have hlt := (List.getElem?_eq_some_iff.mp ht).1
    have hself : ∀ x, (p.threads.set n x)[n]? = some x := fun x => List.getElem?_set_self hlt
    cases b with
    | some b =>
      refine ⟨_, .commit (k := b.1) (o := b.2) ht, ?_⟩
      rw [hself, ht]
      simp
    | none =>
      obtain ⟨hd, hf⟩ := h.resolve_left (by simp)
      dsimp only at hd hf
      cases hw : t.wants with
      | some k =>
        refine ⟨_, .lock ht hw (hf k hw), ?_⟩
        rw [hself, ht]; simp
      | none =>
        cases hw' : t.writes with
        | some k =>
          refine ⟨_, .edit ht hw', ?_⟩
          rw [hself, ht]; simp
        | none =>
          refine ⟨_, .plain ht hw hw', ?_⟩
          rw [hself, ht]
          intro e
          simp only [Option.some.injEq, SLThread.mk.injEq, and_true] at e
          exact ((ha.attended.wf n t (ha.base ht)).goes_on mode _ hd).ne e

/-- The thread has come to its end, keeps no guard and is changing nothing. -/
def Spec.Away (t : SLThread) : Prop := Departed t.base ∧ t.busy = none

/-- Some thread can go on, unless all are gone. -/
theorem InStep.able {mode : Mode} {shard : UInt32 → Nat} {p : SLPool} {q : SPool} (ha : InStep shard p q) (hc : AllConsiderate q)
    (hne : ¬ ∀ t ∈ p.threads, Away t) : ∃ n, Advances mode shard p n := by
  by_cases hb : ∃ (n : Nat) (t : SLThread), p.threads[n]? = some t ∧ t.busy ≠ none
  · obtain ⟨n, t, ht, hb⟩ := hb
    exact ⟨n, (advances_iff ha).mpr ⟨t, ht, .inl hb⟩⟩
  · have hnone : ∀ (n : Nat) t, p.threads[n]? = some t → t.busy = none := fun n t ht =>
      Classical.byContradiction fun h => hb ⟨n, t, ht, h⟩
    have hne' : ¬ ∀ t ∈ q.threads, Departed t := by
      intro h
      apply hne
      intro t ht
      obtain ⟨n, hn⟩ := List.getElem?_of_mem ht
      refine ⟨h t.base ?_, hnone n t hn⟩
      rw [ha.threads]
      exact List.mem_map_of_mem ht
    obtain ⟨n, t, hn, hd, hw⟩ := ha.attended.able hc hne'
    have hn' := hn
    rw [ha.threads, List.getElem?_map, Option.map_eq_some_iff] at hn'
    obtain ⟨x, hx, rfl⟩ := hn'
    refine ⟨n, (advances_iff ha).mpr ⟨x, hx, .inr ⟨hd, fun k hk j u hu g hg => ?_⟩⟩⟩
    have := SPool.free_iff.mp (hw k ((SThread.wants_needs (ha.attended.wf n _ hn)).mp hk)) j u.base (ha.base hu) g
    rw [SLThread.locks, hnone j u hu] at hg
    exact this (by simpa using hg)

theorem InStep.considerate {mode : Mode} {shard : UInt32 → Nat} {progs : List SProg} (hq : ∀ q ∈ progs, Considerate [] q)
    {m : SessionMgr} {p : SLPool} (h : SLSteps mode shard (arriving progs m) p) :
    ∃ q, InStep shard p q ∧ AllConsiderate q := by
  obtain ⟨sched, ha⟩ := (InStep.start shard progs m).steps h
  refine ⟨_, ha, AllConsiderate.exec (Attended.attending shard progs m) ?_ sched⟩
  intro i t ht
  simp only [attending, List.getElem?_map, Option.map_eq_some_iff] at ht
  obtain ⟨q, hqm, rfl⟩ := ht
  exact hq q (List.mem_of_getElem? hqm)

/-- C168: if every thread makes calls only while it keeps no guard, then from every situation all can come to their end. -/
theorem C168_can_finish (mode : Mode) (shard : UInt32 → Nat) (progs : List SProg) (hq : ∀ q ∈ progs, Considerate [] q)
    (m : SessionMgr) (p : SLPool) (h : SLSteps mode shard (arriving progs m) p) :
    ∃ p', SLSteps mode shard p p' ∧ ∀ t ∈ p'.threads, Away t := by
  have main : ∀ l, Acc (OneOf SLLater) l → ∀ p, p.threads = l → SLSteps mode shard (arriving progs m) p →
      ∃ p', SLSteps mode shard p p' ∧ ∀ t ∈ p'.threads, Away t := by
    intro l hl
    induction hl with
    | intro l _ ih =>
      intro p hp h
      by_cases hne : ∀ t ∈ p.threads, Away t
      · exact ⟨p, .refl, hne⟩
      · obtain ⟨q, ha, hc⟩ := InStep.considerate hq h
        obtain ⟨n, p1, hs, hch⟩ := ha.able (mode := mode) hc hne
        rcases hs.later ha with e | e
        · exact absurd (by rw [e]) hch
        · obtain ⟨p', h1, h2⟩ := ih _ (hp ▸ e) p1 rfl (.tail h hs)
          exact ⟨p', (SLSteps.tail .refl hs).trans h1, h2⟩
  exact main _ (OneOf.acc SLLater.acc _) p rfl h

/-- An infinite execution in which no thread that can go on is passed over for ever. -/
structure Spec.AttendedRun (mode : Mode) (shard : UInt32 → Nat) (progs : List SProg) (m : SessionMgr) (run : Nat → SLPool) : Prop where
  start : run 0 = arriving progs m
  steps : ∀ k, run (k + 1) = run k ∨ ∃ n, SLStep mode shard (run k) n (run (k + 1))
  fair : ∀ (n k : Nat), ∃ k', k ≤ k' ∧ (¬ Advances mode shard (run k') n ∨ (run (k' + 1)).threads[n]? ≠ (run k').threads[n]?)

/-- C168: and they do come to their end, if no thread that can go on is passed over for ever. -/
theorem C168_all_finish (mode : Mode) (shard : UInt32 → Nat) (progs : List SProg) (hq : ∀ q ∈ progs, Considerate [] q)
    (m : SessionMgr) (run : Nat → SLPool) (h : AttendedRun mode shard progs m run) :
    ∃ N, ∀ k, N ≤ k → ∀ t ∈ (run k).threads, Away t := by
  have hreach : ∀ k, SLSteps mode shard (arriving progs m) (run k) := by
    intro k
    induction k with
    | zero => rw [h.start]; exact .refl
    | succ k ih =>
      rcases h.steps k with e | ⟨n, e⟩
      · rw [e]; exact ih
      · exact .tail ih e
  obtain ⟨N, hN⟩ := settles (r := OneOf SLLater) (fun k => (run k).threads) (OneOf.acc SLLater.acc _) (by
    intro k
    rcases h.steps k with e | ⟨n, e⟩
    · left; show (run (k + 1)).threads = _; rw [e]
    · obtain ⟨q, ha, -⟩ := InStep.considerate hq (hreach k)
      exact e.later ha)
  refine ⟨N, fun k hk => Classical.byContradiction fun hne => ?_⟩
  obtain ⟨q, ha, hc⟩ := InStep.considerate hq (hreach k)
  obtain ⟨n, hn⟩ := ha.able (mode := mode) hc hne
  obtain ⟨k', hk', h2⟩ := h.fair n N
  have hth : (run k').threads = (run k).threads := (hN k' hk').trans (hN k hk).symm
  rcases h2 with h2 | h2
  · obtain ⟨q', ha', -⟩ := InStep.considerate hq (hreach k')
    refine h2 ((advances_iff ha').mpr ?_)
    rw [hth]
    exact (advances_iff ha).mp hn
  · exact h2 (by rw [show (run (k' + 1)).threads = _ from hN (k' + 1) (by omega), show (run k').threads = _ from hN k' hk'])

/-! ## Concrete cases -/

/-- Two threads that remove two sessions. -/
private def removers : List SProg := [.remove 0 fun _ => .done, .remove 1 fun _ => .done]

/-- Beside C167: both are in the middle of a removal, and the entry of the first looks like something it never is between
accesses. -/
example : ∃ p, SLSteps .debug (·.toNat) (arriving removers (.new .new)) p ∧
    p.threads.map (·.busy) = [some (0, none), some (1, none)] ∧ p.mgr.sessions 0 = some ⟨[9], 9⟩ := by
  have h1 := SLStep.lock (mode := .debug) (shard := (·.toNat)) (p := arriving removers (.new .new)) (n := 0)
    (t := ⟨[], none, .remove 0 fun _ => .done⟩) (k := 0) rfl rfl (by
      intro j u hu g hg
      simp only [arriving, List.getElem?_map, Option.map_eq_some_iff] at hu
      obtain ⟨x, -, rfl⟩ := hu
      simp [SLThread.locks, SThread.locks] at hg)
  refine ⟨_, .tail (.tail (.tail .refl h1) (.draft (n := 0) (t := ⟨[], none, .remove 0 fun _ => .done⟩) (k := 0) (o := none)
    (some ⟨[9], 9⟩) rfl)) (.lock (n := 1) (t := ⟨[], none, .remove 1 fun _ => .done⟩) (k := 1) rfl rfl ?_), rfl, rfl⟩
  intro j u hu g hg
  match j with
  | 0 =>
    cases hu
    simp only [SLThread.locks, SThread.locks, Option.map_some, Option.toList_some, Option.bind_none, Option.toList_none,
      List.append_nil, List.mem_singleton] at hg
    subst hg
    decide
  | 1 => cases hu; simp [SLThread.locks, SThread.locks] at hg
  | j + 2 => cases hu

/-- Beside C168_deadlock: two threads that each keep a guard and remove the session of the other. -/
private def opponents : List SProg :=
  [.add [1] fun _ _ => .remove 1 fun _ => .done, .add [2] fun _ _ => .remove 0 fun _ => .done]

example : ∃ p, SLSteps .debug (·.toNat) (arriving opponents (.new .new)) p ∧
    Entangled (·.toNat) ⟨p.threads.map (·.base), p.mgr⟩ [0, 1] := by
  refine ⟨_, C167_all_possible .debug (·.toNat) opponents (.new .new) [0, 0, 0, 0, 0, 0, 1, 1, 1, 1, 1, 1], ?_⟩
  intro i hi
  rcases List.mem_cons.mp hi with rfl | hi
  · exact ⟨_, 1, 1, _, 1, rfl, .remove, by simp, rfl, .head _, rfl⟩
  · obtain rfl := List.mem_singleton.mp hi
    exact ⟨_, 0, 0, _, 0, rfl, .remove, by simp, rfl, .head _, rfl⟩

/-- A thread alone that removes a session there is not. -/
private def solitary : Nat → SLPool
  | 0 => arriving [.remove 0 fun _ => .done] (.new .new)
  | 1 => { threads := [⟨⟨[], none, .remove 0 fun _ => .done⟩, some (0, none)⟩], mgr := .new .new }
  | _ + 2 => { threads := [⟨⟨[], none, .done⟩, none⟩], mgr := (((SessionMgr.new .new).put 0 none).remove 0).2 }

/-- Beside C168_all_finish: a fair execution of programs that keep no guards. -/
example : AttendedRun .debug (·.toNat) [.remove 0 fun _ => .done] (.new .new) solitary ∧
    ∀ q ∈ [SProg.remove 0 fun _ => .done], Considerate [] q := by
  refine ⟨⟨rfl, ?_, ?_⟩, by simp [Considerate]⟩
  · intro k
    match k with
    | 0 =>
      refine .inr ⟨0, .lock (t := ⟨[], none, .remove 0 fun _ => .done⟩) (k := 0) rfl rfl ?_⟩
      intro j u hu g hg
      match j with
      | 0 => cases hu; simp [SLThread.locks, SThread.locks] at hg
      | j + 1 => cases hu
    | 1 => exact .inr ⟨0, SLStep.commit (mode := .debug) (shard := (·.toNat)) (p := solitary 1) (n := 0) (t := ⟨[], none, .remove 0 fun _ => .done⟩) (k := 0) (o := none) rfl⟩
    | k + 2 => exact .inl rfl
  · intro n k
    refine ⟨k + 2, by omega, .inl ?_⟩
    rintro ⟨p', hs, hne⟩
    have hone : ∀ t, (solitary (k + 2)).threads[n]? = some t → n = 0 ∧ t = ⟨⟨[], none, .done⟩, none⟩ := by
      intro t ht
      match n with
      | 0 => cases ht; exact ⟨rfl, rfl⟩
      | n + 1 => cases ht
    cases hs with
    | lock ht hw _ => cases (hone _ ht).2; cases hw
    | edit ht hw => cases (hone _ ht).2; cases hw
    | draft => exact hne rfl
    | commit ht => cases (hone _ ht).2
    | plain ht _ _ =>
      obtain ⟨rfl, e⟩ := hone _ ht
      cases e
      exact hne rfl

end Hop
