import Verif.Model.EngineGuards
import Verif.Props.SessionGuards

/-! # C183, C184: guards of keys and of sessions in the same hands -/

namespace Hop
open Spec

/-- Threads that have not begun, holding nothing. -/
def Spec.starting (progs : List EProg) (h : HopEngine) : EPool :=
  { threads := progs.map fun q => { keys := [], held := [], call := none, prog := q }, engine := h }

/-- The thread has ended and keeps no guard. -/
def Spec.AllDone (t : EThread) : Prop := t.prog = .done ∧ t.keys = [] ∧ t.held = [] ∧ t.call = none

/-- The thread can do nothing before it gets this access to this key. -/
inductive Spec.NeedsKey : EThread → Bytes × Bool → Prop
  | access {keys held call k e upd next} : NeedsKey ⟨keys, held, call, .access k e upd next⟩ (k, e)
  | acquire {keys held call k e next} : NeedsKey ⟨keys, held, call, .acquire k e next⟩ (k, e)

/-- The thread can do nothing before it gets the lock of this session. -/
inductive Spec.NeedsSession : EThread → UInt32 → Prop
  | remove {keys held call id next} : NeedsSession ⟨keys, held, call, .remove id next⟩ id
  | add {keys held token next s k} : NeedsSession ⟨keys, held, some (.keyed s k), .add token next⟩ k

/-- A program that uses a key only when `okKey` allows it and the session manager only when `okSession` does, given the
keys and the sessions of the guards it keeps (what number an addition is to use is not known beforehand). -/
def Spec.Minding (okKey : List Bytes → List UInt32 → Bytes → Prop) (okSession : List Bytes → List UInt32 → UInt32 → Prop) :
    List Bytes → List UInt32 → EProg → Prop
  | _, _, .done => True
  | ks, ss, .access k _ _ next => okKey ks ss k ∧ ∀ o, Minding okKey okSession ks ss (next o)
  | ks, ss, .acquire k _ next =>
    okKey ks ss k ∧ Minding okKey okSession ks ss (next none) ∧ ∀ v, Minding okKey okSession (k :: ks) ss (next (some v))
  | ks, ss, .look _ next => ∀ o, Minding okKey okSession ks ss (next o)
  | ks, ss, .write _ _ next => Minding okKey okSession ks ss next
  | ks, ss, .drop k next => Minding okKey okSession (ks.erase k) ss next
  | ks, ss, .count _ _ next => ∀ o, Minding okKey okSession ks ss (next o)
  | ks, ss, .add _ next => (∀ k, okSession ks ss k) ∧ ∀ k s, Minding okKey okSession ks (k :: ss) (next k s)
  | ks, ss, .remove id next => okSession ks ss id ∧ ∀ b, Minding okKey okSession ks ss (next b)
  | ks, ss, .lookSession _ next => ∀ o, Minding okKey okSession ks ss (next o)
  | ks, ss, .writeSession _ _ next => Minding okKey okSession ks ss next
  | ks, ss, .dropSession id next => Minding okKey okSession ks (ss.erase id) next

/-- All locks asked for rank higher than all locks held, whatever the ranks of the locks of keys and of sessions. -/
def Spec.aboveKey (rk : Bytes → Nat) (rs : UInt32 → Nat) (ks : List Bytes) (ss : List UInt32) (k : Bytes) : Prop :=
  (∀ g ∈ ks, rk g < rk k) ∧ ∀ g ∈ ss, rs g < rk k

/-- The same of a session asked for. -/
def Spec.aboveSession (rk : Bytes → Nat) (rs : UInt32 → Nat) (ks : List Bytes) (ss : List UInt32) (id : UInt32) : Prop :=
  (∀ g ∈ ks, rk g < rs id) ∧ ∀ g ∈ ss, rs g < rs id

/-! ## The steps of a thread, one by one -/

/-- The thread is within an addition only if it is making one. -/
inductive EThread.Wf : EThread → Prop
  | idle {keys held prog} : Wf ⟨keys, held, none, prog⟩
  | made {keys held token next i} : Wf ⟨keys, held, some (.made ⟨token, i⟩), .add token next⟩
  | keyed {keys held token next i k} : Wf ⟨keys, held, some (.keyed ⟨token, i⟩ k), .add token next⟩
  | inserted {keys held token next i k} : Wf ⟨keys, held, some (.inserted ⟨token, i⟩ k), .add token next⟩
  | counted {keys held token next i k} : Wf ⟨keys, held, some (.counted ⟨token, i⟩ k), .add token next⟩
  | advancing {keys held token next i k old} : Wf ⟨keys, held, some (.advancing ⟨token, i⟩ k old), .add token next⟩

/-- What a step does to the thread, to the keys, and to the sessions. -/
inductive EMove (fk : Bytes × Bool → Bool) (fs : UInt32 → Bool) (h : HopEngine) :
    EThread → EThread → (Bytes → Option Value) → (UInt32 → Option Session) → Prop
  | ended {keys held} : EMove fk fs h ⟨keys, held, none, .done⟩ ⟨[], [], none, .done⟩ h.db.keys h.sessions
  | waitKey {t w} : NeedsKey t w → fk w = false → EMove fk fs h t t h.db.keys h.sessions
  | change {keys held k upd next} : fk (k, true) = true → EMove fk fs h ⟨keys, held, none, .access k true upd next⟩
      ⟨keys, held, none, next (h.db.keys k)⟩ (fun j => if j = k then upd (h.db.keys k) else h.db.keys j) h.sessions
  | read {keys held k upd next} : fk (k, false) = true → EMove fk fs h ⟨keys, held, none, .access k false upd next⟩
      ⟨keys, held, none, next (h.db.keys k)⟩ h.db.keys h.sessions
  | missed {keys held k e next} : fk (k, e) = true → EMove fk fs h ⟨keys, held, none, .acquire k e next⟩
      ⟨keys, held, none, next none⟩ h.db.keys h.sessions
  | acquired {keys held k e next v} : fk (k, e) = true → h.db.keys k = some v → EMove fk fs h
      ⟨keys, held, none, .acquire k e next⟩ ⟨(k, e) :: keys, held, none, next (some v)⟩ h.db.keys h.sessions
  | look {keys held k next o} : EMove fk fs h ⟨keys, held, none, .look k next⟩ ⟨keys, held, none, next o⟩ h.db.keys h.sessions
  | write {keys held k v next} : (k, true) ∈ keys → EMove fk fs h ⟨keys, held, none, .write k v next⟩ ⟨keys, held, none, next⟩
      (fun j => if j = k then some v else h.db.keys j) h.sessions
  | skip {keys held k v next} : EMove fk fs h ⟨keys, held, none, .write k v next⟩ ⟨keys, held, none, next⟩ h.db.keys h.sessions
  | drop {keys held k next} : EMove fk fs h ⟨keys, held, none, .drop k next⟩
      ⟨keys.eraseP (·.1 == k), held, none, next⟩ h.db.keys h.sessions
  | count {keys held m upd next o} : EMove fk fs h ⟨keys, held, none, .count m upd next⟩ ⟨keys, held, none, next o⟩ h.db.keys h.sessions
  | make {keys held token next i} : EMove fk fs h ⟨keys, held, none, .add token next⟩
      ⟨keys, held, some (.made ⟨token, i⟩), .add token next⟩ h.db.keys h.sessions
  | number {keys held token next i k} : EMove fk fs h ⟨keys, held, some (.made ⟨token, i⟩), .add token next⟩
      ⟨keys, held, some (.keyed ⟨token, i⟩ k), .add token next⟩ h.db.keys h.sessions
  | waitSession {t w} : NeedsSession t w → fs w = false → EMove fk fs h t t h.db.keys h.sessions
  | taken {keys held token next i k} : fs k = true → EMove fk fs h ⟨keys, held, some (.keyed ⟨token, i⟩ k), .add token next⟩
      ⟨[], [], none, .done⟩ h.db.keys h.sessions
  | insert {keys held token next i k} : fs k = true → EMove fk fs h ⟨keys, held, some (.keyed ⟨token, i⟩ k), .add token next⟩
      ⟨keys, held, some (.inserted ⟨token, i⟩ k), .add token next⟩ h.db.keys
      (fun j => if j = k then some ⟨token, i⟩ else h.sessions j)
  | overflow {keys held token next i k} : EMove fk fs h ⟨keys, held, some (.inserted ⟨token, i⟩ k), .add token next⟩
      ⟨[], [], none, .done⟩ h.db.keys h.sessions
  | counted {keys held token next i k} : EMove fk fs h ⟨keys, held, some (.inserted ⟨token, i⟩ k), .add token next⟩
      ⟨keys, held, some (.counted ⟨token, i⟩ k), .add token next⟩ h.db.keys h.sessions
  | reread {keys held token next i k old} : EMove fk fs h ⟨keys, held, some (.counted ⟨token, i⟩ k), .add token next⟩
      ⟨keys, held, some (.advancing ⟨token, i⟩ k old), .add token next⟩ h.db.keys h.sessions
  | finish {keys held token next i k old} : EMove fk fs h ⟨keys, held, some (.advancing ⟨token, i⟩ k old), .add token next⟩
      ⟨keys, k :: held, none, next k ⟨token, i⟩⟩ h.db.keys h.sessions
  | removed {keys held id next b} : fs id = true → EMove fk fs h ⟨keys, held, none, .remove id next⟩
      ⟨keys, held, none, next b⟩ h.db.keys (fun j => if j = id then none else h.sessions j)
  | lookSession {keys held id next o} : EMove fk fs h ⟨keys, held, none, .lookSession id next⟩ ⟨keys, held, none, next o⟩
      h.db.keys h.sessions
  | writeSession {keys held id s next} : id ∈ held → EMove fk fs h ⟨keys, held, none, .writeSession id s next⟩
      ⟨keys, held, none, next⟩ h.db.keys (fun j => if j = id then some s else h.sessions j)
  | skipSession {keys held id s next} : EMove fk fs h ⟨keys, held, none, .writeSession id s next⟩ ⟨keys, held, none, next⟩
      h.db.keys h.sessions
  | dropSession {keys held id next} : EMove fk fs h ⟨keys, held, none, .dropSession id next⟩
      ⟨keys, held.erase id, none, next⟩ h.db.keys h.sessions

theorem EThread.Wf.move {t : EThread} (hw : t.Wf) (mode : Mode) (fk : Bytes × Bool → Bool) (fs : UInt32 → Bool) (h : HopEngine) :
    EMove fk fs h t (t.step mode fk fs h).1 (t.step mode fk fs h).2.db.keys (t.step mode fk fs h).2.sessions := by
  cases hw with
  | idle =>
    rename_i keys held prog
    cases prog with
    | done => exact .ended
    | access k e upd next =>
      by_cases hf : fk (k, e) = true
      · cases e with
        | true =>
          have e : EThread.step mode fk fs h ⟨keys, held, none, .access k true upd next⟩ =
              (⟨keys, held, none, next (h.db.keys k)⟩, { h with db := h.db.setKey k (upd (h.db.keys k)) }) := by
            simp only [EThread.step, if_pos hf, if_true]
          rw [e]; exact .change hf
        | false =>
          have e : EThread.step mode fk fs h ⟨keys, held, none, .access k false upd next⟩ =
              (⟨keys, held, none, next (h.db.keys k)⟩, h) := by
            simp only [EThread.step, if_pos hf]; rfl
          rw [e]; exact .read hf
      · have e : EThread.step mode fk fs h ⟨keys, held, none, .access k e upd next⟩ =
            (⟨keys, held, none, .access k e upd next⟩, h) := by
          simp only [EThread.step, if_neg hf]
        rw [e]; exact .waitKey .access (by simpa using hf)
    | acquire k e next =>
      by_cases hf : fk (k, e) = true
      · cases hk : h.db.keys k with
        | none =>
          have e : EThread.step mode fk fs h ⟨keys, held, none, .acquire k e next⟩ = (⟨keys, held, none, next none⟩, h) := by
            simp only [EThread.step, if_pos hf, hk]
          rw [e]; exact .missed hf
        | some v =>
          have e : EThread.step mode fk fs h ⟨keys, held, none, .acquire k e next⟩ =
              (⟨(k, e) :: keys, held, none, next (some v)⟩, h) := by
            simp only [EThread.step, if_pos hf, hk]
          rw [e]; exact .acquired hf hk
      · have e : EThread.step mode fk fs h ⟨keys, held, none, .acquire k e next⟩ = (⟨keys, held, none, .acquire k e next⟩, h) := by
          simp only [EThread.step, if_neg hf]
        rw [e]; exact .waitKey .acquire (by simpa using hf)
    | look k next => exact .look
    | write k v next =>
      by_cases hc : keys.contains (k, true) = true
      · have e : EThread.step mode fk fs h ⟨keys, held, none, .write k v next⟩ =
            (⟨keys, held, none, next⟩, { h with db := h.db.setKey k (some v) }) := by
          simp only [EThread.step, if_pos hc]
        rw [e]; exact .write (by simpa using hc)
      · have e : EThread.step mode fk fs h ⟨keys, held, none, .write k v next⟩ = (⟨keys, held, none, next⟩, h) := by
          simp only [EThread.step, if_neg hc]
        rw [e]; exact .skip
    | drop k next => exact .drop
    | count m upd next => exact .count
    | add token next => exact .make
    | remove id next =>
      by_cases hf : fs id = true
      · have e : EThread.step mode fk fs h ⟨keys, held, none, .remove id next⟩ =
            (⟨keys, held, none, next (h.mgr.sessions id).isSome⟩, h.setMgr (h.mgr.remove id).2) := by
          simp only [EThread.step, SessionThread.step, if_pos hf]; rfl
        rw [e]; exact .removed hf
      · have e : EThread.step mode fk fs h ⟨keys, held, none, .remove id next⟩ =
            (⟨keys, held, none, .remove id next⟩, h.setMgr h.mgr) := by
          simp only [EThread.step, SessionThread.step, if_neg hf]
        rw [e]; exact .waitSession .remove (by simpa using hf)
    | lookSession id next => exact .lookSession
    | writeSession id s next =>
      by_cases hc : held.contains id = true
      · have e : EThread.step mode fk fs h ⟨keys, held, none, .writeSession id s next⟩ =
            (⟨keys, held, none, next⟩, { h with sessions := fun i => if i = id then some s else h.sessions i }) := by
          simp only [EThread.step, if_pos hc]
        rw [e]; exact .writeSession (by simpa using hc)
      · have e : EThread.step mode fk fs h ⟨keys, held, none, .writeSession id s next⟩ = (⟨keys, held, none, next⟩, h) := by
          simp only [EThread.step, if_neg hc]
        rw [e]; exact .skipSession
    | dropSession id next => exact .dropSession
  | made => exact .number
  | keyed =>
    rename_i keys held token next i k
    by_cases hf : fs k = true
    · cases hs : h.mgr.sessions k with
      | none =>
        have e : EThread.step mode fk fs h ⟨keys, held, some (.keyed ⟨token, i⟩ k), .add token next⟩ =
            (⟨keys, held, some (.inserted ⟨token, i⟩ k), .add token next⟩,
              h.setMgr { h.mgr with sessions := fun j => if j = k then some ⟨token, i⟩ else h.mgr.sessions j }) := by
          simp only [EThread.step, Option.getD_some, SessionThread.step, if_pos hf, hs]
        rw [e]; exact .insert hf
      | some o =>
        have e : EThread.step mode fk fs h ⟨keys, held, some (.keyed ⟨token, i⟩ k), .add token next⟩ =
            (⟨[], [], none, .done⟩, h.setMgr h.mgr) := by
          simp only [EThread.step, Option.getD_some, SessionThread.step, if_pos hf, hs]
        rw [e]; exact .taken hf
    · have e : EThread.step mode fk fs h ⟨keys, held, some (.keyed ⟨token, i⟩ k), .add token next⟩ =
          (⟨keys, held, some (.keyed ⟨token, i⟩ k), .add token next⟩, h.setMgr h.mgr) := by
        simp only [EThread.step, Option.getD_some, SessionThread.step, if_neg hf]
      rw [e]; exact .waitSession .add (by simpa using hf)
  | inserted =>
    rename_i keys held token next i k
    cases hr : (h.mgr.metrics.increment mode .sessionsStarted).1 with
    | none =>
      have e : EThread.step mode fk fs h ⟨keys, held, some (.inserted ⟨token, i⟩ k), .add token next⟩ = (⟨[], [], none, .done⟩,
          h.setMgr { h.mgr with metrics := (h.mgr.metrics.increment mode .sessionsStarted).2 }) := by
        simp only [EThread.step, Option.getD_some, SessionThread.step, hr]
      rw [e]; exact .overflow
    | some b =>
      have e : EThread.step mode fk fs h ⟨keys, held, some (.inserted ⟨token, i⟩ k), .add token next⟩ =
          (⟨keys, held, some (.counted ⟨token, i⟩ k), .add token next⟩,
          h.setMgr { h.mgr with metrics := (h.mgr.metrics.increment mode .sessionsStarted).2 }) := by
        simp only [EThread.step, Option.getD_some, SessionThread.step, hr]
      rw [e]; exact .counted
  | counted => exact .reread
  | advancing => exact .finish

theorem EMove.wf {fk : Bytes × Bool → Bool} {fs : UInt32 → Bool} {h : HopEngine} {t t' : EThread} {ks ss} (hm : EMove fk fs h t t' ks ss)
    (hw : t.Wf) : t'.Wf := by
  cases hm with
  | waitKey => exact hw
  | waitSession => exact hw
  | _ => constructor

theorem EPool.stepAt_cases (mode : Mode) (sk : Bytes → Nat) (ss : UInt32 → Nat) (p : EPool) (i : Nat) :
    p.stepAt mode sk ss i = p ∨ ∃ t, p.threads[i]? = some t ∧ p.stepAt mode sk ss i =
      { threads := p.threads.set i (t.step mode (p.freeKey sk) (p.freeSession ss) p.engine).1,
        engine := (t.step mode (p.freeKey sk) (p.freeSession ss) p.engine).2 } := by
  unfold EPool.stepAt
  split
  · exact .inl rfl
  · rename_i t ht; exact .inr ⟨t, ht, rfl⟩

theorem EPool.stepAt_other {mode : Mode} {sk : Bytes → Nat} {ss : UInt32 → Nat} {p : EPool} {i j : Nat} (h : i ≠ j) :
    (p.stepAt mode sk ss i).threads[j]? = p.threads[j]? := by
  rcases EPool.stepAt_cases mode sk ss p i with e | ⟨t, -, e⟩
  · rw [e]
  · rw [e]; exact List.getElem?_set_ne h

theorem EPool.freeKey_iff {shard : Bytes → Nat} {p : EPool} {w : Bytes × Bool} :
    p.freeKey shard w = true ↔ ∀ (i : Nat) t, p.threads[i]? = some t → ∀ g ∈ t.keys, conflicts shard g w = false := by
  simp only [EPool.freeKey, List.all_eq_true, Bool.not_eq_true']
  constructor
  · intro h i t ht
    exact h t (List.mem_of_getElem? ht)
  · intro h t ht
    obtain ⟨i, hi⟩ := List.getElem?_of_mem ht
    exact h i t hi

theorem EPool.freeSession_iff {shard : UInt32 → Nat} {p : EPool} {w : UInt32} : p.freeSession shard w = true ↔
    ∀ (i : Nat) t, p.threads[i]? = some t → ∀ g ∈ t.locks, shard g ≠ shard w := by
  simp only [EPool.freeSession, List.all_eq_true, bne_iff_ne, ne_eq]
  constructor
  · intro h i t ht; exact h t (List.mem_of_getElem? ht)
  · intro h t ht
    obtain ⟨i, hi⟩ := List.getElem?_of_mem ht
    exact h i t hi

theorem EPool.exec_append (mode : Mode) (sk : Bytes → Nat) (ss : UInt32 → Nat) (p : EPool) (s s' : List Nat) :
    p.exec mode sk ss (s ++ s') = (p.exec mode sk ss s).exec mode sk ss s' := by
  induction s generalizing p with
  | nil => rfl
  | cons i is ih => exact ih _

/-! ## What guards protect -/

/-- The guards of keys after a step: some of those the thread had, and possibly the one it asked for. -/
theorem EMove.keys {fk : Bytes × Bool → Bool} {fs : UInt32 → Bool} {h : HopEngine} {t t' : EThread} {ks ss} (hm : EMove fk fs h t t' ks ss) :
    t'.keys.Sublist t.keys ∨ ∃ w, fk w = true ∧ t'.keys = w :: t.keys ∧ (ks w.1).isSome := by
  cases hm with
  | acquired hf hk => right; exact ⟨_, hf, rfl, by simp [hk]⟩
  | ended => left; exact List.nil_sublist _
  | taken => left; exact List.nil_sublist _
  | overflow => left; exact List.nil_sublist _
  | drop => left; exact List.eraseP_sublist
  | _ => left; exact List.Sublist.refl _

/-- The locks of sessions after a step. -/
theorem EMove.locks {fk : Bytes × Bool → Bool} {fs : UInt32 → Bool} {h : HopEngine} {t t' : EThread} {ks ss} (hm : EMove fk fs h t t' ks ss) :
    t'.locks.Sublist t.locks ∨ ∃ k, fs k = true ∧ t'.locks = k :: t.locks ∧ (ss k).isSome := by
  cases hm with
  | insert hf => right; exact ⟨_, hf, rfl, by simp⟩
  | ended => left; exact List.nil_sublist _
  | taken => left; exact List.nil_sublist _
  | overflow => left; exact List.nil_sublist _
  | dropSession => left; exact List.erase_sublist
  | _ => left; exact List.Sublist.refl _

/-- A step changes no key but one it has exclusive access to, or one it keeps an exclusive guard of, which it leaves
present. -/
theorem EMove.changesKey {fk : Bytes × Bool → Bool} {fs : UInt32 → Bool} {h : HopEngine} {t t' : EThread} {ks ss}
    (hm : EMove fk fs h t t' ks ss) (k : Bytes) :
    ks k = h.db.keys k ∨ fk (k, true) = true ∨ ((k, true) ∈ t.keys ∧ (ks k).isSome) := by
  cases hm with
  | change hf =>
    rename_i keys held k' upd next
    by_cases hk : k = k'
    · subst hk; exact .inr (.inl hf)
    · left; simp [hk]
  | write hc =>
    rename_i keys held k' v next
    by_cases hk : k = k'
    · subst hk; exact .inr (.inr ⟨hc, by simp⟩)
    · left; simp [hk]
  | _ => exact .inl rfl

/-- A step changes no session but one whose lock is free, or one it keeps a guard of, which it leaves present. -/
theorem EMove.changesSession {fk : Bytes × Bool → Bool} {fs : UInt32 → Bool} {h : HopEngine} {t t' : EThread} {ks ss}
    (hm : EMove fk fs h t t' ks ss) (g : UInt32) :
    ss g = h.sessions g ∨ fs g = true ∨ (g ∈ t.locks ∧ (ss g).isSome) := by
  cases hm with
  | insert hf =>
    rename_i keys held token next i k
    by_cases hk : g = k
    · subst hk; exact .inr (.inl hf)
    · left; simp [hk]
  | removed hf =>
    rename_i keys held id next b
    by_cases hk : g = id
    · subst hk; exact .inr (.inl hf)
    · left; simp [hk]
  | writeSession hc =>
    rename_i keys held id s next
    by_cases hk : g = id
    · subst hk; exact .inr (.inr ⟨List.mem_append_right _ hc, by simp⟩)
    · left; simp [hk]
  | _ => exact .inl rfl

/-- What holds at every moment. -/
structure Engaged (sk : Bytes → Nat) (ss : UInt32 → Nat) (p : EPool) : Prop where
  wf : ∀ (i : Nat) t, p.threads[i]? = some t → t.Wf
  keys : ∀ (i j : Nat) t u, i ≠ j → p.threads[i]? = some t → p.threads[j]? = some u → ∀ g ∈ t.keys, ∀ h ∈ u.keys,
    conflicts sk g h = false
  ownKeys : ∀ (i : Nat) t, p.threads[i]? = some t → t.keys.Pairwise fun g h => conflicts sk g h = false
  apart : ∀ (i j : Nat) t u, i ≠ j → p.threads[i]? = some t → p.threads[j]? = some u →
    ∀ g ∈ t.locks, ∀ h ∈ u.locks, ss g ≠ ss h
  own : ∀ (i : Nat) t, p.threads[i]? = some t → (t.locks.map ss).Nodup
  keyPresent : ∀ (i : Nat) t, p.threads[i]? = some t → ∀ g ∈ t.keys, (p.engine.db.keys g.1).isSome
  present : ∀ (i : Nat) t, p.threads[i]? = some t → ∀ g ∈ t.locks, (p.engine.sessions g).isSome

theorem conflicts_self_true (sk : Bytes → Nat) (k : Bytes) (e : Bool) : conflicts sk (k, e) (k, true) = true := by
  simp [conflicts]

theorem Engaged.keepsKey {mode : Mode} {sk : Bytes → Nat} {ss : UInt32 → Nat} {p : EPool} (h : Engaged sk ss p) {i j : Nat} (hij : i ≠ j)
    {t : EThread} (ht : p.threads[i]? = some t) {g : Bytes × Bool} (hg : g ∈ t.keys) :
    (p.stepAt mode sk ss j).engine.db.keys g.1 = p.engine.db.keys g.1 := by
  rcases EPool.stepAt_cases mode sk ss p j with e | ⟨u, hu, e⟩
  · rw [e]
  · rw [e]
    rcases ((h.wf j u hu).move mode (p.freeKey sk) (p.freeSession ss) p.engine).changesKey g.1 with h1 | h1 | ⟨h1, -⟩
    · exact h1
    · have := EPool.freeKey_iff.mp h1 i t ht g hg
      rw [conflicts_self_true sk g.1 g.2] at this; cases this
    · have := h.keys i j t u hij ht hu g hg _ h1
      rw [conflicts_self_true sk g.1 g.2] at this; cases this

theorem Engaged.keeps {mode : Mode} {sk : Bytes → Nat} {ss : UInt32 → Nat} {p : EPool} (h : Engaged sk ss p) {i j : Nat} (hij : i ≠ j)
    {t : EThread} (ht : p.threads[i]? = some t) {g : UInt32} (hg : g ∈ t.locks) :
    (p.stepAt mode sk ss j).engine.sessions g = p.engine.sessions g := by
  rcases EPool.stepAt_cases mode sk ss p j with e | ⟨u, hu, e⟩
  · rw [e]
  · rw [e]
    rcases ((h.wf j u hu).move mode (p.freeKey sk) (p.freeSession ss) p.engine).changesSession g with h1 | h1 | ⟨h1, -⟩
    · exact h1
    · exact absurd rfl (EPool.freeSession_iff.mp h1 i t ht g hg)
    · exact absurd rfl (h.apart i j t u hij ht hu g hg g h1)

theorem Engaged.step {mode : Mode} {sk : Bytes → Nat} {ss : UInt32 → Nat} {p : EPool} (h : Engaged sk ss p) (i : Nat) :
    Engaged sk ss (p.stepAt mode sk ss i) := by
  have hkeepK : ∀ (j : Nat) u, i ≠ j → p.threads[j]? = some u → ∀ g ∈ u.keys,
      (p.stepAt mode sk ss i).engine.db.keys g.1 = p.engine.db.keys g.1 := fun j u hij hu g hg => h.keepsKey (Ne.symm hij) hu hg
  have hkeep : ∀ (j : Nat) u, i ≠ j → p.threads[j]? = some u → ∀ g ∈ u.locks,
      (p.stepAt mode sk ss i).engine.sessions g = p.engine.sessions g := fun j u hij hu g hg => h.keeps (Ne.symm hij) hu hg
  rcases EPool.stepAt_cases mode sk ss p i with e | ⟨t, ht, e⟩
  · rw [e]; exact h
  rw [e] at hkeep hkeepK ⊢
  have hm := (h.wf i t ht).move mode (p.freeKey sk) (p.freeSession ss) p.engine
  generalize t.step mode (p.freeKey sk) (p.freeSession ss) p.engine = r at *
  obtain ⟨t', h'⟩ := r
  dsimp only at hm hkeep hkeepK ⊢
  have hnewK : ∀ g ∈ t'.keys, g ∈ t.keys ∨ p.freeKey sk g = true := by
    intro g hg
    rcases hm.keys with hs | ⟨w, h1, h2, -⟩
    · exact .inl (hs.subset hg)
    · rw [h2, List.mem_cons] at hg
      rcases hg with rfl | hg
      · exact .inr h1
      · exact .inl hg
  have hnew : ∀ g ∈ t'.locks, g ∈ t.locks ∨ p.freeSession ss g = true := by
    intro g hg
    rcases hm.locks with hs | ⟨w, h1, h2, -⟩
    · exact .inl (hs.subset hg)
    · rw [h2, List.mem_cons] at hg
      rcases hg with rfl | hg
      · exact .inr h1
      · exact .inl hg
  have presentK : ∀ g ∈ t.keys, (h'.db.keys g.1).isSome := by
    intro g hg
    rcases hm.changesKey g.1 with h4 | h4 | ⟨-, h4⟩
    · rw [h4]; exact h.keyPresent _ t ht g hg
    · have := EPool.freeKey_iff.mp h4 _ t ht g hg
      rw [conflicts_self_true sk g.1 g.2] at this; cases this
    · exact h4
  have presentS : ∀ g ∈ t.locks, (h'.sessions g).isSome := by
    intro g hg
    rcases hm.changesSession g with h4 | h4 | ⟨-, h4⟩
    · rw [h4]; exact h.present _ t ht g hg
    · exact absurd rfl (EPool.freeSession_iff.mp h4 _ t ht g hg)
    · exact h4
  refine ⟨?_, ?_, ?_, ?_, ?_, ?_, ?_⟩
  · intro a x hx
    rcases getElem?_set_cases hx with ⟨rfl, rfl⟩ | ⟨ha, hx⟩
    · exact hm.wf (h.wf _ t ht)
    · exact h.wf a x hx
  · intro a b x y hab hx hy g hg g' hg'
    rcases getElem?_set_cases hx with ⟨ha, hxt⟩ | ⟨ha, hx'⟩
    · rcases getElem?_set_cases hy with ⟨hb, -⟩ | ⟨hb, hy'⟩
      · exact absurd (ha.trans hb.symm) hab
      · subst hxt
        rcases hnewK g hg with h1 | h1
        · exact h.keys i b t y (fun e => hb e.symm) ht hy' g h1 g' hg'
        · rw [conflicts_comm]; exact EPool.freeKey_iff.mp h1 b y hy' g' hg'
    · rcases getElem?_set_cases hy with ⟨hb, hyt⟩ | ⟨hb, hy'⟩
      · subst hyt
        rcases hnewK g' hg' with h1 | h1
        · exact h.keys a i x t ha hx' ht g hg g' h1
        · exact EPool.freeKey_iff.mp h1 a x hx' g hg
      · exact h.keys a b x y hab hx' hy' g hg g' hg'
  · intro a x hx
    rcases getElem?_set_cases hx with ⟨rfl, rfl⟩ | ⟨ha, hx⟩
    · rcases hm.keys with hs | ⟨w, h1, h2, -⟩
      · exact (h.ownKeys _ t ht).sublist hs
      · rw [h2, List.pairwise_cons]
        refine ⟨fun g hg => ?_, h.ownKeys _ t ht⟩
        rw [conflicts_comm]; exact EPool.freeKey_iff.mp h1 _ t ht g hg
    · exact h.ownKeys a x hx
  · intro a b x y hab hx hy g hg g' hg'
    rcases getElem?_set_cases hx with ⟨ha, hxt⟩ | ⟨ha, hx'⟩
    · rcases getElem?_set_cases hy with ⟨hb, -⟩ | ⟨hb, hy'⟩
      · exact absurd (ha.trans hb.symm) hab
      · subst hxt
        rcases hnew g hg with h1 | h1
        · exact h.apart i b t y (fun e => hb e.symm) ht hy' g h1 g' hg'
        · exact Ne.symm (EPool.freeSession_iff.mp h1 b y hy' g' hg')
    · rcases getElem?_set_cases hy with ⟨hb, hyt⟩ | ⟨hb, hy'⟩
      · subst hyt
        rcases hnew g' hg' with h1 | h1
        · exact h.apart a i x t ha hx' ht g hg g' h1
        · exact EPool.freeSession_iff.mp h1 a x hx' g hg
      · exact h.apart a b x y hab hx' hy' g hg g' hg'
  · intro a x hx
    rcases getElem?_set_cases hx with ⟨rfl, rfl⟩ | ⟨ha, hx⟩
    · rcases hm.locks with hs | ⟨w, h1, h2, -⟩
      · exact (h.own _ t ht).sublist (hs.map ss)
      · rw [h2, List.map_cons, List.nodup_cons]
        refine ⟨?_, h.own _ t ht⟩
        intro hmem
        obtain ⟨g, hg, he⟩ := List.mem_map.mp hmem
        exact EPool.freeSession_iff.mp h1 _ t ht g hg he
    · exact h.own a x hx
  · intro a x hx g hg
    rcases getElem?_set_cases hx with ⟨rfl, rfl⟩ | ⟨ha, hx⟩
    · rcases hm.keys with hs | ⟨w, h1, h2, h3⟩
      · exact presentK g (hs.subset hg)
      · rw [h2, List.mem_cons] at hg
        rcases hg with rfl | hg
        · exact h3
        · exact presentK g hg
    · show (h'.db.keys g.1).isSome
      rw [hkeepK a x (Ne.symm ha) hx g hg]; exact h.keyPresent a x hx g hg
  · intro a x hx g hg
    rcases getElem?_set_cases hx with ⟨rfl, rfl⟩ | ⟨ha, hx⟩
    · rcases hm.locks with hs | ⟨w, h1, h2, h3⟩
      · exact presentS g (hs.subset hg)
      · rw [h2, List.mem_cons] at hg
        rcases hg with rfl | hg
        · exact h3
        · exact presentS g hg
    · show (h'.sessions g).isSome
      rw [hkeep a x (Ne.symm ha) hx g hg]; exact h.present a x hx g hg

theorem Engaged.exec {mode : Mode} {sk : Bytes → Nat} {ss : UInt32 → Nat} {p : EPool} (h : Engaged sk ss p) (sched : List Nat) :
    Engaged sk ss (p.exec mode sk ss sched) := by
  induction sched generalizing p with
  | nil => exact h
  | cons i is ih => exact ih (h.step i)

theorem Engaged.starting (sk : Bytes → Nat) (ss : UInt32 → Nat) (progs : List EProg) (h : HopEngine) : Engaged sk ss (starting progs h) := by
  have hq : ∀ (i : Nat) t, (Spec.starting progs h).threads[i]? = some t → ∃ q, t = ⟨[], [], none, q⟩ := by
    intro i t ht
    simp only [Spec.starting, List.getElem?_map, Option.map_eq_some_iff] at ht
    obtain ⟨q, -, rfl⟩ := ht
    exact ⟨q, rfl⟩
  refine ⟨?_, ?_, ?_, ?_, ?_, ?_, ?_⟩
  · intro i t ht; obtain ⟨q, rfl⟩ := hq i t ht; exact .idle
  · intro i j t u _ ht _ g hg; obtain ⟨q, rfl⟩ := hq i t ht; cases hg
  · intro i t ht; obtain ⟨q, rfl⟩ := hq i t ht; exact .nil
  · intro i j t u _ ht _ g hg; obtain ⟨q, rfl⟩ := hq i t ht; cases hg
  · intro i t ht; obtain ⟨q, rfl⟩ := hq i t ht; exact .nil
  · intro i t ht g hg; obtain ⟨q, rfl⟩ := hq i t ht; cases hg
  · intro i t ht g hg; obtain ⟨q, rfl⟩ := hq i t ht; cases hg

/-- C183. At every moment, whatever any number of threads do with one engine and with the guards of keys and of sessions
they are given: of two guards of keys that share a lock, held by two threads, neither is exclusive, nor is any of two
such guards of the same thread; no two guards of sessions share a lock; and the keys and the sessions of all guards
exist. -/
theorem C183_guards (mode : Mode) (sk : Bytes → Nat) (ss : UInt32 → Nat) (progs : List EProg) (h : HopEngine) (sched : List Nat) (i : Nat)
    (t : EThread) (ht : ((starting progs h).exec mode sk ss sched).threads[i]? = some t) :
    (∀ (j : Nat) u, i ≠ j → ((starting progs h).exec mode sk ss sched).threads[j]? = some u →
      (∀ g ∈ t.keys, ∀ h ∈ u.keys, sk g.1 = sk h.1 → g.2 = false ∧ h.2 = false) ∧
      ∀ g ∈ t.held, ∀ h ∈ u.held, ss g ≠ ss h) ∧
    (∀ (a b : Nat) g h, a ≠ b → t.keys[a]? = some g → t.keys[b]? = some h → sk g.1 = sk h.1 → g.2 = false ∧ h.2 = false) ∧
    (t.held.map ss).Nodup ∧
    (∀ g ∈ t.keys, (((starting progs h).exec mode sk ss sched).engine.db.keys g.1).isSome) ∧
    ∀ g ∈ t.held, (((starting progs h).exec mode sk ss sched).engine.sessions g).isSome := by
  have hp := (Engaged.starting sk ss progs h).exec (mode := mode) sched
  have hsub : ∀ u : EThread, u.held.Sublist u.locks := fun u => List.sublist_append_right _ _
  have two : ∀ g h : Bytes × Bool, conflicts sk g h = false → sk g.1 = sk h.1 → g.2 = false ∧ h.2 = false := by
    intro g h hc he
    simpa [conflicts, he] using hc
  refine ⟨fun j u hij hu => ⟨fun g hg k hk => two g k (hp.keys i j t u hij ht hu g hg k hk), fun g hg k hk =>
    hp.apart i j t u hij ht hu g ((hsub t).subset hg) k ((hsub u).subset hk)⟩, ?_, ?_, ?_, ?_⟩
  · intro a b g k hab ha hb he
    obtain ⟨ha1, ha2⟩ := List.getElem?_eq_some_iff.mp ha
    obtain ⟨hb1, hb2⟩ := List.getElem?_eq_some_iff.mp hb
    have hpw := List.pairwise_iff_getElem.mp (hp.ownKeys i t ht)
    rcases Nat.lt_or_gt_of_ne hab with hlt | hlt
    · have := hpw a b ha1 hb1 hlt
      rw [ha2, hb2] at this
      exact two g k this he
    · have := hpw b a hb1 ha1 hlt
      rw [ha2, hb2] at this
      exact (two k g this he.symm).symm
  · exact (hp.own i t ht).sublist ((hsub t).map ss)
  · exact hp.keyPresent i t ht
  · exact fun g hg => hp.present i t ht g ((hsub t).subset hg)

/-- C183. While a thread keeps guards, nothing the other threads do with the engine, in any order, changes or removes what
they are guards of, be it a key or a session. -/
theorem C183_protects (mode : Mode) (sk : Bytes → Nat) (ss : UInt32 → Nat) (progs : List EProg) (h : HopEngine) (before after : List Nat)
    (i : Nat) (t : EThread) (ht : ((starting progs h).exec mode sk ss before).threads[i]? = some t) (hi : i ∉ after) :
    (∀ g ∈ t.keys, ((starting progs h).exec mode sk ss (before ++ after)).engine.db.keys g.1 =
      ((starting progs h).exec mode sk ss before).engine.db.keys g.1) ∧
    (∀ g ∈ t.held, ((starting progs h).exec mode sk ss (before ++ after)).engine.sessions g =
      ((starting progs h).exec mode sk ss before).engine.sessions g) ∧
    ((starting progs h).exec mode sk ss (before ++ after)).threads[i]? = some t := by
  rw [EPool.exec_append]
  have hp := (Engaged.starting sk ss progs h).exec (mode := mode) before
  generalize (starting progs h).exec mode sk ss before = p at *
  induction after generalizing p with
  | nil => exact ⟨fun _ _ => rfl, fun _ _ => rfl, ht⟩
  | cons j js ih =>
    simp only [List.mem_cons, not_or] at hi
    have hj : i ≠ j := hi.1
    obtain ⟨h1, h2, h3⟩ := ih hi.2 (p.stepAt mode sk ss j) (by rw [EPool.stepAt_other (Ne.symm hj)]; exact ht) (hp.step j)
    exact ⟨fun g hg => (h1 g hg).trans (hp.keepsKey hj ht hg), fun g hg => (h2 g hg).trans (hp.keeps hj ht (List.mem_append_right _ hg)), h3⟩

/-! ## What guards lead to -/

/-- C183. A thread reads through the guard of a key what is stored, and nothing without one. -/
theorem C183_reads_key (mode : Mode) (sk : Bytes → Nat) (ss : UInt32 → Nat) (progs : List EProg) (h : HopEngine) (before : List Nat) (i : Nat)
    (keys : List (Bytes × Bool)) (held : List UInt32) (c : Option SessionThread) (k : Bytes) (next : Option Value → EProg)
    (ht : ((starting progs h).exec mode sk ss before).threads[i]? = some ⟨keys, held, c, .look k next⟩) :
    ∃ o, ((starting progs h).exec mode sk ss (before ++ [i])).threads[i]? = some ⟨keys, held, c, next o⟩ ∧
      (∀ e, (k, e) ∈ keys → o = ((starting progs h).exec mode sk ss before).engine.db.keys k ∧ o.isSome) ∧
      ((∀ e, (k, e) ∉ keys) → o = none) := by
  have hpres := (C183_guards mode sk ss progs h before i _ ht).2.2.2.1
  rw [EPool.exec_append]
  generalize (starting progs h).exec mode sk ss before = p at *
  have hlt := (List.getElem?_eq_some_iff.mp ht).1
  refine ⟨if keys.any (·.1 == k) then p.engine.db.keys k else none, ?_, fun e he => ?_, fun hn => ?_⟩
  · show (p.stepAt mode sk ss i).threads[i]? = _
    simp only [EPool.stepAt, ht, EThread.step]
    rw [List.getElem?_set_self hlt]
  · rw [if_pos (by rw [List.any_eq_true]; exact ⟨_, he, by simp⟩)]
    exact ⟨rfl, hpres _ he⟩
  · rw [if_neg]
    rw [List.any_eq_true]
    rintro ⟨⟨k', e⟩, he, hk⟩
    obtain rfl : k' = k := by simpa using hk
    exact hn e he

/-- C183. And through the guard of a session the session that is stored. -/
theorem C183_reads_session (mode : Mode) (sk : Bytes → Nat) (ss : UInt32 → Nat) (progs : List EProg) (h : HopEngine) (before : List Nat)
    (i : Nat) (keys : List (Bytes × Bool)) (held : List UInt32) (c : Option SessionThread) (id : UInt32) (next : Option Session → EProg)
    (ht : ((starting progs h).exec mode sk ss before).threads[i]? = some ⟨keys, held, c, .lookSession id next⟩) :
    ∃ o, ((starting progs h).exec mode sk ss (before ++ [i])).threads[i]? = some ⟨keys, held, c, next o⟩ ∧
      (id ∈ held → o = ((starting progs h).exec mode sk ss before).engine.sessions id ∧ o.isSome) ∧ (id ∉ held → o = none) := by
  have hpres := (C183_guards mode sk ss progs h before i _ ht).2.2.2.2
  rw [EPool.exec_append]
  generalize (starting progs h).exec mode sk ss before = p at *
  have hlt := (List.getElem?_eq_some_iff.mp ht).1
  refine ⟨if held.contains id then p.engine.sessions id else none, ?_, fun he => ?_, fun hn => ?_⟩
  · show (p.stepAt mode sk ss i).threads[i]? = _
    simp only [EPool.stepAt, ht, EThread.step]
    rw [List.getElem?_set_self hlt]
  · rw [if_pos (by simpa using he)]
    exact ⟨rfl, hpres _ he⟩
  · rw [if_neg (by simpa using hn)]

/-- C183. What a thread writes through the exclusive guard of a key it reads back, whatever others do in between. -/
theorem C183_written_key (mode : Mode) (sk : Bytes → Nat) (ss : UInt32 → Nat) (progs : List EProg) (h : HopEngine)
    (before between : List Nat) (i : Nat) (keys : List (Bytes × Bool)) (held : List UInt32) (c : Option SessionThread) (k : Bytes) (v : Value)
    (next : Option Value → EProg)
    (ht : ((starting progs h).exec mode sk ss before).threads[i]? = some ⟨keys, held, c, .write k v (.look k next)⟩)
    (hk : (k, true) ∈ keys) (hi : i ∉ between) :
    ((starting progs h).exec mode sk ss (before ++ [i] ++ between ++ [i])).threads[i]? = some ⟨keys, held, c, next (some v)⟩ := by
  have hlt := (List.getElem?_eq_some_iff.mp ht).1
  have h1 : ((starting progs h).exec mode sk ss (before ++ [i])).threads[i]? = some ⟨keys, held, c, .look k next⟩ ∧
      ((starting progs h).exec mode sk ss (before ++ [i])).engine.db.keys k = some v := by
    rw [EPool.exec_append]
    generalize (starting progs h).exec mode sk ss before = p at *
    show (p.stepAt mode sk ss i).threads[i]? = _ ∧ (p.stepAt mode sk ss i).engine.db.keys k = _
    simp only [EPool.stepAt, ht, EThread.step]
    rw [List.getElem?_set_self hlt, if_pos (by simpa using hk)]
    exact ⟨rfl, by simp [Db.setKey]⟩
  obtain ⟨h2, -, h3⟩ := C183_protects mode sk ss progs h (before ++ [i]) between i _ h1.1 hi
  obtain ⟨o, h4, h5, -⟩ := C183_reads_key mode sk ss progs h (before ++ [i] ++ between) i keys held c k next h3
  rw [h4, (h5 true hk).1, h2 _ hk, h1.2]

/-- C183. So it does with the guard of a session. -/
theorem C183_written_session (mode : Mode) (sk : Bytes → Nat) (ss : UInt32 → Nat) (progs : List EProg) (h : HopEngine)
    (before between : List Nat) (i : Nat) (keys : List (Bytes × Bool)) (held : List UInt32) (c : Option SessionThread) (id : UInt32)
    (s : Session) (next : Option Session → EProg)
    (ht : ((starting progs h).exec mode sk ss before).threads[i]? = some ⟨keys, held, c, .writeSession id s (.lookSession id next)⟩)
    (hk : id ∈ held) (hi : i ∉ between) :
    ((starting progs h).exec mode sk ss (before ++ [i] ++ between ++ [i])).threads[i]? = some ⟨keys, held, c, next (some s)⟩ := by
  have hlt := (List.getElem?_eq_some_iff.mp ht).1
  have h1 : ((starting progs h).exec mode sk ss (before ++ [i])).threads[i]? = some ⟨keys, held, c, .lookSession id next⟩ ∧
      ((starting progs h).exec mode sk ss (before ++ [i])).engine.sessions id = some s := by
    rw [EPool.exec_append]
    generalize (starting progs h).exec mode sk ss before = p at *
    show (p.stepAt mode sk ss i).threads[i]? = _ ∧ (p.stepAt mode sk ss i).engine.sessions id = _
    simp only [EPool.stepAt, ht, EThread.step]
    rw [List.getElem?_set_self hlt, if_pos (by simpa using hk)]
    exact ⟨rfl, by simp⟩
  obtain ⟨-, h2, h3⟩ := C183_protects mode sk ss progs h (before ++ [i]) between i _ h1.1 hi
  obtain ⟨o, h4, h5, -⟩ := C183_reads_session mode sk ss progs h (before ++ [i] ++ between) i keys held c id next h3
  rw [h4, (h5 hk).1, h2 _ hk, h1.2]

/-! ## Threads that use one part of the engine only -/

/-- A program that uses keys only. -/
def Spec.ofKeys : GProg → EProg
  | .done => .done
  | .access k e upd next => .access k e upd fun o => ofKeys (next o)
  | .acquire k e next => .acquire k e fun o => ofKeys (next o)
  | .look k next => .look k fun o => ofKeys (next o)
  | .write k v next => .write k v (ofKeys next)
  | .drop k next => .drop k (ofKeys next)
  | .count m upd next => .count m upd fun o => ofKeys (next o)

/-- A program that uses sessions only. -/
def Spec.ofSessions : SProg → EProg
  | .done => .done
  | .add token next => .add token fun k s => ofSessions (next k s)
  | .remove id next => .remove id fun b => ofSessions (next b)
  | .look id next => .lookSession id fun o => ofSessions (next o)
  | .write id s next => .writeSession id s (ofSessions next)
  | .drop id next => .dropSession id (ofSessions next)

/-- Threads at the keys of an engine. -/
def Spec.atKeys (h : HopEngine) (p : GPool) : EPool :=
  { threads := p.threads.map fun t => ⟨t.held, [], none, ofKeys t.prog⟩, engine := { h with db := p.db } }

/-- Threads at the sessions of an engine. -/
def Spec.atSessions (h : HopEngine) (p : SPool) : EPool :=
  { threads := p.threads.map fun t => ⟨[], t.held, t.call, ofSessions t.prog⟩, engine := h.setMgr p.mgr }

theorem atKeys_step (mode : Mode) (sk : Bytes → Nat) (ss : UInt32 → Nat) (h : HopEngine) (p : GPool) (i : Nat) :
    (atKeys h p).stepAt mode sk ss i = atKeys h (p.stepAt sk i) := by
  have hfree : ∀ w, (atKeys h p).freeKey sk w = p.free sk w := by
    intro w
    simp [EPool.freeKey, GPool.free, atKeys, List.all_map, Function.comp_def]
  have hstay : ∀ {t : GThread} {w}, p.threads[i]? = some t → t.prog.wants = some w → ¬ p.free sk w = true → p.stepAt sk i = p := by
    intro t w ht hw hf
    rcases GPool.stepAt_cases sk p i with e | ⟨t', ht', hw', -⟩
    · exact e
    · rw [ht] at ht'; cases ht'; exact absurd (hw' w hw) hf
  unfold EPool.stepAt
  cases hi : p.threads[i]? with
  | none =>
    have h1 : (atKeys h p).threads[i]? = none := by simp [atKeys, List.getElem?_map, hi]
    have h2 : p.stepAt sk i = p := by
      rcases GPool.stepAt_cases sk p i with e | ⟨t', ht', -⟩
      · exact e
      · rw [hi] at ht'; cases ht'
    rw [h1, h2]
  | some t =>
    have h1 : (atKeys h p).threads[i]? = some ⟨t.held, [], none, ofKeys t.prog⟩ := by simp [atKeys, List.getElem?_map, hi]
    rw [h1]
    have hlt := (List.getElem?_eq_some_iff.mp hi).1
    have hself : p.threads.set i t = p.threads := by
      apply List.ext_getElem?
      intro j
      by_cases hj : i = j
      · subst hj; rw [List.getElem?_set_self hlt, hi]
      · rw [List.getElem?_set_ne hj]
    have same : ∀ (t' : GThread) (d : Db), (atKeys h { threads := p.threads.set i t', db := d }) =
        { threads := (atKeys h p).threads.set i ⟨t'.held, [], none, ofKeys t'.prog⟩, engine := { h with db := d } } := by
      intro t' d
      simp only [atKeys, List.map_set]
    have hwait : atKeys h p = { threads := (atKeys h p).threads.set i ⟨t.held, [], none, ofKeys t.prog⟩, engine := (atKeys h p).engine } := by
      have := same t p.db
      rw [hself] at this
      exact this
    have hgo : (∀ w, t.prog.wants = some w → p.free sk w = true) → atKeys h (p.stepAt sk i) =
        { threads := (atKeys h p).threads.set i ⟨(t.step p.db).1.held, [], none, ofKeys (t.step p.db).1.prog⟩,
          engine := { h with db := (t.step p.db).2 } } := by
      intro hw
      rw [GPool.stepAt_free hi hw, same]
    obtain ⟨held, prog⟩ := t
    dsimp only at hwait ⊢
    cases prog with
    | done => rw [hgo (by intro w hw; cases hw)]; rfl
    | access k e upd next =>
      by_cases hf : p.free sk (k, e) = true
      · rw [hgo (by intro w hw; cases hw; exact hf)]
        simp only [GThread.step, ofKeys, EThread.step, hfree, if_pos hf]
        cases e <;> rfl
      · rw [hstay hi (by rfl) hf]
        simp only [ofKeys, EThread.step, hfree, if_neg hf]
        exact hwait.symm
    | acquire k e next =>
      by_cases hf : p.free sk (k, e) = true
      · rw [hgo (by intro w hw; cases hw; exact hf)]
        simp only [GThread.step, ofKeys, EThread.step, hfree, if_pos hf]
        have hk : (atKeys h p).engine.db.keys k = p.db.keys k := rfl
        rw [hk]
        cases p.db.keys k <;> rfl
      · rw [hstay hi (by rfl) hf]
        simp only [ofKeys, EThread.step, hfree, if_neg hf]
        exact hwait.symm
    | look k next => rw [hgo (by intro w hw; cases hw)]; rfl
    | write k v next =>
      rw [hgo (by intro w hw; cases hw)]
      simp only [GThread.step, ofKeys, EThread.step]
      by_cases hc : held.contains (k, true) = true
      · simp only [if_pos hc]; rfl
      · simp only [if_neg hc]; rfl
    | drop k next => rw [hgo (by intro w hw; cases hw)]; rfl
    | count m upd next => rw [hgo (by intro w hw; cases hw)]; rfl

/-- C183. Threads that use only the keys of an engine do with it what they would do with the keys alone, and leave the rest
of it as it is. -/
theorem C183_keys_only (mode : Mode) (sk : Bytes → Nat) (ss : UInt32 → Nat) (h : HopEngine) (p : GPool) (sched : List Nat) :
    (atKeys h p).exec mode sk ss sched = atKeys h (p.exec sk sched) := by
  induction sched generalizing p with
  | nil => rfl
  | cons i is ih =>
    show ((atKeys h p).stepAt mode sk ss i).exec mode sk ss is = _
    rw [atKeys_step]; exact ih _

/-- The metrics exist and have no gauges, as those of an engine. -/
def Spec.Counting (m : SessionMgr) : Prop := ∃ c, m.metrics.live = some { counters := c, gauges := fun _ => none }

theorem counting_mgr_setMgr {m : SessionMgr} (hm : Counting m) (h : HopEngine) : (h.setMgr m).mgr = m := by
  obtain ⟨c, hc⟩ := hm
  obtain ⟨⟨live⟩, nextId, sessions⟩ := m
  dsimp only at hc
  subst hc
  rfl

theorem counting_setMgr_setMgr {m m' : SessionMgr} (hm : Counting m') (h : HopEngine) : (h.setMgr m).setMgr m' = h.setMgr m' := by
  obtain ⟨c, hc⟩ := hm
  obtain ⟨⟨live⟩, nextId, sessions⟩ := m'
  dsimp only at hc
  subst hc
  rfl

theorem counting_step {mode : Mode} {free : UInt32 → Bool} {m : SessionMgr} (hm : Counting m) (c : SessionThread) :
    Counting (c.step mode free m).2 := by
  have hinc : ∃ d, (m.metrics.increment mode .sessionsStarted).2.live = some { counters := d, gauges := fun _ => none } := by
    obtain ⟨d, hd⟩ := hm
    unfold MetricCell.increment
    simp only [hd]
    split <;> exact ⟨_, rfl⟩
  cases c with
  | keyed s k =>
    simp only [SessionThread.step]
    split
    · split <;> exact hm
    · exact hm
  | inserted s k =>
    simp only [SessionThread.step]
    split
    · exact hinc
    · exact hinc
  | remove id =>
    simp only [SessionThread.step]
    split <;> exact hm
  | _ => exact hm

theorem atSessions_step (mode : Mode) (sk : Bytes → Nat) (ss : UInt32 → Nat) (h : HopEngine) (p : SPool) (hm : Counting p.mgr) (i : Nat) :
    (atSessions h p).stepAt mode sk ss i = atSessions h (p.stepAt mode ss i) ∧ Counting (p.stepAt mode ss i).mgr := by
  have hfree : (atSessions h p).freeSession ss = p.free ss := by
    funext w
    simp [EPool.freeSession, SPool.free, atSessions, List.all_map, Function.comp_def, EThread.locks, SThread.locks]
  unfold EPool.stepAt SPool.stepAt
  cases hi : p.threads[i]? with
  | none =>
    have : (atSessions h p).threads[i]? = none := by simp [atSessions, List.getElem?_map, hi]
    rw [this]
    exact ⟨rfl, hm⟩
  | some t =>
    have : (atSessions h p).threads[i]? = some ⟨[], t.held, t.call, ofSessions t.prog⟩ := by simp [atSessions, List.getElem?_map, hi]
    rw [this, hfree]
    have heng : (atSessions h p).engine = h.setMgr p.mgr := rfl
    have key : EThread.step mode ((atSessions h p).freeKey sk) (p.free ss) (h.setMgr p.mgr) ⟨[], t.held, t.call, ofSessions t.prog⟩ =
        (⟨[], (t.step mode (p.free ss) p.mgr).1.held, (t.step mode (p.free ss) p.mgr).1.call, ofSessions (t.step mode (p.free ss) p.mgr).1.prog⟩,
          h.setMgr (t.step mode (p.free ss) p.mgr).2) ∧ Counting (t.step mode (p.free ss) p.mgr).2 := by
      obtain ⟨held, call, prog⟩ := t
      cases prog with
      | done => exact ⟨rfl, hm⟩
      | add token next =>
        have hst := counting_step (mode := mode) (free := p.free ss) hm (call.getD (.add token))
        simp only [ofSessions, EThread.step, SThread.step, counting_mgr_setMgr hm]
        generalize (call.getD (.add token)).step mode (p.free ss) p.mgr = r at hst ⊢
        obtain ⟨c, m'⟩ := r
        have hss : (h.setMgr p.mgr).setMgr m' = h.setMgr m' := counting_setMgr_setMgr hst h
        cases c <;> exact ⟨Prod.ext rfl hss, hst⟩
      | remove id next =>
        have hst := counting_step (mode := mode) (free := p.free ss) hm (.remove id)
        simp only [ofSessions, EThread.step, SThread.step, counting_mgr_setMgr hm]
        generalize (SessionThread.remove id).step mode (p.free ss) p.mgr = r at hst ⊢
        obtain ⟨c, m'⟩ := r
        have hss : (h.setMgr p.mgr).setMgr m' = h.setMgr m' := counting_setMgr_setMgr hst h
        cases c <;> exact ⟨Prod.ext rfl hss, hst⟩
      | look id next => exact ⟨rfl, hm⟩
      | write id s next =>
        simp only [ofSessions, EThread.step, SThread.step]
        by_cases hc : held.contains id = true
        · simp only [if_pos hc]; exact ⟨rfl, hm⟩
        · simp only [if_neg hc]; exact ⟨trivial, hm⟩
      | drop id next => exact ⟨rfl, hm⟩
    refine ⟨?_, key.2⟩
    dsimp only
    rw [heng, key.1]
    simp only [atSessions, List.map_set]

/-- C183. And threads that use only the sessions of an engine do with it what they would do with a session manager alone,
and leave the keys as they are. -/
theorem C183_sessions_only (mode : Mode) (sk : Bytes → Nat) (ss : UInt32 → Nat) (h : HopEngine) (p : SPool) (hm : Counting p.mgr)
    (sched : List Nat) : (atSessions h p).exec mode sk ss sched = atSessions h (p.exec mode ss sched) := by
  induction sched generalizing p with
  | nil => rfl
  | cons i is ih =>
    obtain ⟨h1, h2⟩ := atSessions_step mode sk ss h p hm i
    show ((atSessions h p).stepAt mode sk ss i).exec mode sk ss is = _
    rw [h1]; exact ih _ h2

/-! ## Waiting for ever -/

/-- Each of these threads needs a lock that one of them holds in its way. -/
def Spec.Knotted (sk : Bytes → Nat) (ss : UInt32 → Nat) (p : EPool) (s : List Nat) : Prop :=
  ∀ i ∈ s, ∃ (t : EThread) (j : Nat) (u : EThread), p.threads[i]? = some t ∧ j ∈ s ∧ p.threads[j]? = some u ∧
    ((∃ w g, NeedsKey t w ∧ g ∈ u.keys ∧ sk g.1 = sk w.1 ∧ (g.2 = true ∨ w.2 = true)) ∨
      ∃ w g, NeedsSession t w ∧ g ∈ u.locks ∧ ss g = ss w)

theorem EMove.needsKey {fk : Bytes × Bool → Bool} {fs : UInt32 → Bool} {h : HopEngine} {t t' : EThread} {ks ss}
    (hm : EMove fk fs h t t' ks ss) {w : Bytes × Bool} (hw : NeedsKey t w) (hf : fk w = false) : t' = t := by
  cases hw <;> cases hm <;> first | rfl | simp_all

theorem EMove.needsSession {fk : Bytes × Bool → Bool} {fs : UInt32 → Bool} {h : HopEngine} {t t' : EThread} {ks ss}
    (hm : EMove fk fs h t t' ks ss) {w : UInt32} (hw : NeedsSession t w) (hf : fs w = false) : t' = t := by
  cases hw <;> cases hm <;> first | rfl | simp_all

theorem freeKey_false {sk : Bytes → Nat} {p : EPool} {j : Nat} {u : EThread} (hu : p.threads[j]? = some u) {g w : Bytes × Bool}
    (hg : g ∈ u.keys) (hs : sk g.1 = sk w.1) (he : g.2 = true ∨ w.2 = true) : p.freeKey sk w = false := by
  rw [Bool.eq_false_iff]
  intro hf
  have := EPool.freeKey_iff.mp hf j u hu g hg
  rcases he with he | he <;> simp [conflicts, hs, he] at this

theorem freeSession_false {ss : UInt32 → Nat} {p : EPool} {j : Nat} {u : EThread} (hu : p.threads[j]? = some u) {g w : UInt32}
    (hg : g ∈ u.locks) (hs : ss g = ss w) : p.freeSession ss w = false := by
  rw [Bool.eq_false_iff]
  intro hf
  exact EPool.freeSession_iff.mp hf j u hu g hg hs

/-- C183. Threads that wait for one another (or for themselves) wait for ever, whatever the others do; what one of them
waits for may be a key and what the next one waits for a session. -/
theorem C183_deadlock (mode : Mode) (sk : Bytes → Nat) (ss : UInt32 → Nat) (progs : List EProg) (h : HopEngine) (before after : List Nat)
    (s : List Nat) (hs : Knotted sk ss ((starting progs h).exec mode sk ss before) s) :
    ∀ i ∈ s, ((starting progs h).exec mode sk ss (before ++ after)).threads[i]? =
      ((starting progs h).exec mode sk ss before).threads[i]? := by
  rw [EPool.exec_append]
  have hp := (Engaged.starting sk ss progs h).exec (mode := mode) before
  generalize (starting progs h).exec mode sk ss before = p at *
  induction after generalizing p with
  | nil => intro i _; rfl
  | cons n ns ih =>
    have hstep : ∀ i ∈ s, (p.stepAt mode sk ss n).threads[i]? = p.threads[i]? := by
      intro i hi
      by_cases hn : n = i
      · subst hn
        obtain ⟨t, j, u, h1, -, h4, h5⟩ := hs n hi
        rcases EPool.stepAt_cases mode sk ss p n with e | ⟨t', ht', e⟩
        · rw [e]
        · rw [h1] at ht'; cases ht'
          have hmv := (hp.wf n t h1).move mode (p.freeKey sk) (p.freeSession ss) p.engine
          have hm : (t.step mode (p.freeKey sk) (p.freeSession ss) p.engine).1 = t := by
            rcases h5 with ⟨w, g, hw, hg, h6, h7⟩ | ⟨w, g, hw, hg, h6⟩
            · exact hmv.needsKey hw (freeKey_false h4 hg h6 h7)
            · exact hmv.needsSession hw (freeSession_false h4 hg h6)
          rw [e]
          show (p.threads.set n _)[n]? = _
          rw [hm, h1]
          have hlt : n < p.threads.length := (List.getElem?_eq_some_iff.mp h1).1
          simp [hlt]
      · exact EPool.stepAt_other hn
    intro i hi
    refine (ih (p.stepAt mode sk ss n) ?_ (hp.step n) i hi).trans (hstep i hi)
    intro a ha
    obtain ⟨t, j, u, h1, h3, h4, h5⟩ := hs a ha
    exact ⟨t, j, u, (hstep a ha).trans h1, h3, (hstep j h3).trans h4, h5⟩

/-! ## When nobody waits for ever -/

theorem Spec.Minding.mono {okK okK' : List Bytes → List UInt32 → Bytes → Prop} {okS okS' : List Bytes → List UInt32 → UInt32 → Prop}
    (hK : ∀ ks ss k, okK ks ss k → okK' ks ss k) (hS : ∀ ks ss k, okS ks ss k → okS' ks ss k) (q : EProg) :
    ∀ {ks ss}, Minding okK okS ks ss q → Minding okK' okS' ks ss q := by
  induction q with
  | done => intro _ _ _; trivial
  | access k e upd next ih => intro _ _ hq; exact ⟨hK _ _ _ hq.1, fun o => ih o (hq.2 o)⟩
  | acquire k e next ih => intro _ _ hq; exact ⟨hK _ _ _ hq.1, ih _ hq.2.1, fun v => ih _ (hq.2.2 v)⟩
  | look k next ih => intro _ _ hq o; exact ih o (hq o)
  | write k v next ih => intro _ _ hq; exact ih hq
  | drop k next ih => intro _ _ hq; exact ih hq
  | count m upd next ih => intro _ _ hq o; exact ih o (hq o)
  | add token next ih => intro _ _ hq; exact ⟨fun k => hS _ _ _ (hq.1 k), fun k s => ih k s (hq.2 k s)⟩
  | remove id next ih => intro _ _ hq; exact ⟨hS _ _ _ hq.1, fun b => ih b (hq.2 b)⟩
  | lookSession id next ih => intro _ _ hq o; exact ih o (hq o)
  | writeSession id s next ih => intro _ _ hq; exact ih hq
  | dropSession id next ih => intro _ _ hq; exact ih hq

/-- All threads go on minding the rules. -/
def AllMinding (okK : List Bytes → List UInt32 → Bytes → Prop) (okS : List Bytes → List UInt32 → UInt32 → Prop) (p : EPool) : Prop :=
  ∀ (i : Nat) t, p.threads[i]? = some t → Minding okK okS (t.keys.map Prod.fst) t.held t.prog

theorem EMove.minding {okK : List Bytes → List UInt32 → Bytes → Prop} {okS : List Bytes → List UInt32 → UInt32 → Prop}
    {fk : Bytes × Bool → Bool} {fs : UInt32 → Bool} {h : HopEngine} {t t' : EThread} {ks ss} (hm : EMove fk fs h t t' ks ss)
    (hq : Minding okK okS (t.keys.map Prod.fst) t.held t.prog) : Minding okK okS (t'.keys.map Prod.fst) t'.held t'.prog := by
  cases hm with
  | ended => trivial
  | taken => trivial
  | overflow => trivial
  | change => exact hq.2 _
  | read => exact hq.2 _
  | missed => exact hq.2.1
  | acquired => exact hq.2.2 _
  | look => exact hq _
  | write => exact hq
  | skip => exact hq
  | drop =>
    rename_i keys held k next
    have e : (keys.eraseP (·.1 == k)).map Prod.fst = (keys.map Prod.fst).erase k := by
      rw [List.erase_eq_eraseP, List.eraseP_map]
      congr 1
      congr 1
      funext a
      exact Bool.beq_comm
    show Minding okK okS ((keys.eraseP (·.1 == k)).map Prod.fst) held next
    rw [e]; exact hq
  | count => exact hq _
  | finish => exact hq.2 _ _
  | removed => exact hq.2 _
  | lookSession => exact hq _
  | writeSession => exact hq
  | skipSession => exact hq
  | dropSession => exact hq
  | _ => exact hq

theorem AllMinding.step {okK : List Bytes → List UInt32 → Bytes → Prop} {okS : List Bytes → List UInt32 → UInt32 → Prop}
    {mode : Mode} {sk : Bytes → Nat} {ss : UInt32 → Nat} {p : EPool} (h : Engaged sk ss p) (hc : AllMinding okK okS p) (i : Nat) :
    AllMinding okK okS (p.stepAt mode sk ss i) := by
  rcases EPool.stepAt_cases mode sk ss p i with e | ⟨t, ht, e⟩
  · rw [e]; exact hc
  · rw [e]
    intro a x hx
    rcases getElem?_set_cases hx with ⟨rfl, rfl⟩ | ⟨-, hx⟩
    · exact ((h.wf _ t ht).move mode (p.freeKey sk) (p.freeSession ss) p.engine).minding (hc _ t ht)
    · exact hc a x hx

theorem AllMinding.exec {okK : List Bytes → List UInt32 → Bytes → Prop} {okS : List Bytes → List UInt32 → UInt32 → Prop}
    {mode : Mode} {sk : Bytes → Nat} {ss : UInt32 → Nat} {p : EPool} (h : Engaged sk ss p) (hc : AllMinding okK okS p) (sched : List Nat) :
    AllMinding okK okS (p.exec mode sk ss sched) := by
  induction sched generalizing p with
  | nil => exact hc
  | cons i is ih => exact ih (h.step i) (hc.step h i)

/-- How far a thread is within an addition. -/
def EThread.rank (t : EThread) : Nat :=
  match t.call with
  | none => 5
  | some (.made _) => 4
  | some (.keyed _ _) => 3
  | some (.inserted _ _) => 2
  | some (.counted _ _) => 1
  | some _ => 0

/-- One step of a thread that goes on. -/
inductive EOnward : EThread → EThread → Prop
  | within {ks ks' hs hs' c c' token next} : EThread.rank ⟨ks', hs', c', .add token next⟩ < EThread.rank ⟨ks, hs, c, .add token next⟩ →
      EOnward ⟨ks', hs', c', .add token next⟩ ⟨ks, hs, c, .add token next⟩
  | added {ks ks' hs hs' c c' k s token next} : EOnward ⟨ks', hs', c', next k s⟩ ⟨ks, hs, c, .add token next⟩
  | panicked {ks hs c token next} : EOnward ⟨[], [], none, .done⟩ ⟨ks, hs, c, .add token next⟩
  | access {ks ks' hs hs' c c' k e upd next o} : EOnward ⟨ks', hs', c', next o⟩ ⟨ks, hs, c, .access k e upd next⟩
  | acquire {ks ks' hs hs' c c' k e next o} : EOnward ⟨ks', hs', c', next o⟩ ⟨ks, hs, c, .acquire k e next⟩
  | look {ks ks' hs hs' c c' k next o} : EOnward ⟨ks', hs', c', next o⟩ ⟨ks, hs, c, .look k next⟩
  | write {ks ks' hs hs' c c' k v next} : EOnward ⟨ks', hs', c', next⟩ ⟨ks, hs, c, .write k v next⟩
  | drop {ks ks' hs hs' c c' k next} : EOnward ⟨ks', hs', c', next⟩ ⟨ks, hs, c, .drop k next⟩
  | count {ks ks' hs hs' c c' m upd next o} : EOnward ⟨ks', hs', c', next o⟩ ⟨ks, hs, c, .count m upd next⟩
  | removed {ks ks' hs hs' c c' id next b} : EOnward ⟨ks', hs', c', next b⟩ ⟨ks, hs, c, .remove id next⟩
  | lookSession {ks ks' hs hs' c c' id next o} : EOnward ⟨ks', hs', c', next o⟩ ⟨ks, hs, c, .lookSession id next⟩
  | writeSession {ks ks' hs hs' c c' id s next} : EOnward ⟨ks', hs', c', next⟩ ⟨ks, hs, c, .writeSession id s next⟩
  | dropSession {ks ks' hs hs' c c' id next} : EOnward ⟨ks', hs', c', next⟩ ⟨ks, hs, c, .dropSession id next⟩
  | ended {ks hs c} : ¬ AllDone ⟨ks, hs, c, .done⟩ → EOnward ⟨[], [], none, .done⟩ ⟨ks, hs, c, .done⟩

theorem EOnward.acc_done (ks : List (Bytes × Bool)) (hs : List UInt32) (c : Option SessionThread) : Acc EOnward ⟨ks, hs, c, .done⟩ := by
  refine ⟨_, fun t h => ?_⟩
  cases h with
  | ended => exact ⟨_, fun t h => by cases h with | ended h => exact absurd ⟨rfl, rfl, rfl, rfl⟩ h⟩

theorem EOnward.acc (q : EProg) : ∀ ks hs c, Acc EOnward ⟨ks, hs, c, q⟩ := by
  induction q with
  | done => exact EOnward.acc_done
  | add token next ih =>
    intro ks hs c
    generalize hr : EThread.rank ⟨ks, hs, c, .add token next⟩ = r
    induction r using Nat.strongRecOn generalizing ks hs c with
    | _ r ihr =>
      refine ⟨_, fun t h => ?_⟩
      cases h with
      | within hlt => exact ihr _ (hr ▸ hlt) _ _ _ rfl
      | added => exact ih _ _ _ _ _
      | panicked => exact EOnward.acc_done _ _ _
  | access k e upd next ih => intro ks hs c; refine ⟨_, fun t h => ?_⟩; cases h with | access => exact ih _ _ _ _
  | acquire k e next ih => intro ks hs c; refine ⟨_, fun t h => ?_⟩; cases h with | acquire => exact ih _ _ _ _
  | look k next ih => intro ks hs c; refine ⟨_, fun t h => ?_⟩; cases h with | look => exact ih _ _ _ _
  | write k v next ih => intro ks hs c; refine ⟨_, fun t h => ?_⟩; cases h with | write => exact ih _ _ _
  | drop k next ih => intro ks hs c; refine ⟨_, fun t h => ?_⟩; cases h with | drop => exact ih _ _ _
  | count m upd next ih => intro ks hs c; refine ⟨_, fun t h => ?_⟩; cases h with | count => exact ih _ _ _ _
  | remove id next ih => intro ks hs c; refine ⟨_, fun t h => ?_⟩; cases h with | removed => exact ih _ _ _ _
  | lookSession id next ih => intro ks hs c; refine ⟨_, fun t h => ?_⟩; cases h with | lookSession => exact ih _ _ _ _
  | writeSession id s next ih => intro ks hs c; refine ⟨_, fun t h => ?_⟩; cases h with | writeSession => exact ih _ _ _
  | dropSession id next ih => intro ks hs c; refine ⟨_, fun t h => ?_⟩; cases h with | dropSession => exact ih _ _ _

theorem EMove.onward {fk : Bytes × Bool → Bool} {fs : UInt32 → Bool} {h : HopEngine} {t t' : EThread} {ks ss} (hm : EMove fk fs h t t' ks ss)
    (hd : ¬ AllDone t) (hk : ∀ w, NeedsKey t w → fk w = true) (hs : ∀ w, NeedsSession t w → fs w = true) : EOnward t' t := by
  cases hm with
  | ended => exact .ended hd
  | waitKey hw hf => rw [hk _ hw] at hf; cases hf
  | waitSession hw hf => rw [hs _ hw] at hf; cases hf
  | taken => exact .panicked
  | overflow => exact .panicked
  | change => exact .access
  | read => exact .access
  | missed => exact .acquire
  | acquired => exact .acquire
  | look => exact .look
  | write => exact .write
  | skip => exact .write
  | drop => exact .drop
  | count => exact .count
  | finish => exact .added
  | removed => exact .removed
  | lookSession => exact .lookSession
  | writeSession => exact .writeSession
  | skipSession => exact .writeSession
  | dropSession => exact .dropSession
  | make => exact .within (by simp [EThread.rank])
  | number => exact .within (by simp [EThread.rank])
  | insert => exact .within (by simp [EThread.rank])
  | counted => exact .within (by simp [EThread.rank])
  | reread => exact .within (by simp [EThread.rank])

/-- One thread of a list goes on. -/
inductive SomeEOnward : List EThread → List EThread → Prop
  | head {a b l} : EOnward a b → SomeEOnward (a :: l) (b :: l)
  | tail {a l l'} : SomeEOnward l l' → SomeEOnward (a :: l) (a :: l')

theorem SomeEOnward.acc_cons {a : EThread} (ha : Acc EOnward a) : ∀ {l}, Acc SomeEOnward l → Acc SomeEOnward (a :: l) := by
  induction ha with
  | intro a ha iha =>
    intro l hl
    induction hl with
    | intro l hl ihl =>
      refine ⟨_, fun l' h => ?_⟩
      cases h with
      | head h => exact iha _ h ⟨l, hl⟩
      | tail h => exact ihl _ h

theorem SomeEOnward.acc (l : List EThread) : Acc SomeEOnward l := by
  induction l with
  | nil => exact ⟨_, fun _ h => by cases h⟩
  | cons a l ih => exact SomeEOnward.acc_cons (EOnward.acc a.prog a.keys a.held a.call) ih

theorem SomeEOnward.set {l : List EThread} {i : Nat} {t t' : EThread} (hi : l[i]? = some t) (h : EOnward t' t) :
    SomeEOnward (l.set i t') l := by
  induction l generalizing i with
  | nil => simp at hi
  | cons a l ih =>
    cases i with
    | zero =>
      simp only [List.getElem?_cons_zero, Option.some.injEq] at hi
      subst hi
      exact .head h
    | succ i =>
      simp only [List.getElem?_cons_succ] at hi
      exact .tail (ih hi)

/-- The rank of the lock a thread needs. -/
def EThread.sought (rk : Bytes → Nat) (rs : UInt32 → Nat) (t : EThread) : Nat :=
  match t.prog, t.call with
  | .access k _ _ _, _ => rk k
  | .acquire k _ _, _ => rk k
  | .remove id _, _ => rs id
  | .add _ _, some (.keyed _ k) => rs k
  | _, _ => 0

theorem sought_key {rk : Bytes → Nat} {rs : UInt32 → Nat} {t : EThread} {w : Bytes × Bool} (h : NeedsKey t w) : t.sought rk rs = rk w.1 := by
  cases h <;> rfl

theorem sought_session {rk : Bytes → Nat} {rs : UInt32 → Nat} {t : EThread} {w : UInt32} (h : NeedsSession t w) : t.sought rk rs = rs w := by
  cases h <;> rfl

/-- What a waiting thread holds ranks lower than what it waits for. -/
theorem holds_below {rk : Bytes → Nat} {rs : UInt32 → Nat} {t : EThread} (hwf : t.Wf)
    (hq : Minding (aboveKey rk rs) (aboveSession rk rs) (t.keys.map Prod.fst) t.held t.prog)
    (hn : (∃ w, NeedsKey t w) ∨ ∃ w, NeedsSession t w) :
    (∀ g ∈ t.keys, rk g.1 < t.sought rk rs) ∧ ∀ g ∈ t.locks, rs g < t.sought rk rs := by
  rcases hn with ⟨w, hw⟩ | ⟨w, hw⟩
  · cases hw with
    | access => cases hwf; exact ⟨fun g hg => hq.1.1 _ (List.mem_map_of_mem hg), fun g hg => hq.1.2 g hg⟩
    | acquire => cases hwf; exact ⟨fun g hg => hq.1.1 _ (List.mem_map_of_mem hg), fun g hg => hq.1.2 g hg⟩
  · cases hw with
    | remove => cases hwf; exact ⟨fun g hg => hq.1.1 _ (List.mem_map_of_mem hg), fun g hg => hq.1.2 g hg⟩
    | add => exact ⟨fun g hg => (hq.1 _).1 _ (List.mem_map_of_mem hg), fun g hg => (hq.1 _).2 g hg⟩

/-- Some thread can go on, unless all have ended. -/
theorem Engaged.able {sk : Bytes → Nat} {ss : UInt32 → Nat} {rk rs : Nat → Nat} {p : EPool} (h : Engaged sk ss p)
    (hc : AllMinding (aboveKey (fun k => rk (sk k)) fun i => rs (ss i)) (aboveSession (fun k => rk (sk k)) fun i => rs (ss i)) p)
    (hne : ¬ ∀ t ∈ p.threads, AllDone t) :
    ∃ (i : Nat) (t : EThread), p.threads[i]? = some t ∧ ¬ AllDone t ∧ (∀ w, NeedsKey t w → p.freeKey sk w = true) ∧
      ∀ w, NeedsSession t w → p.freeSession ss w = true := by
  refine Classical.byContradiction fun hno => ?_
  have blocked : ∀ (i : Nat) t, p.threads[i]? = some t → ¬ AllDone t →
      (∃ w, NeedsKey t w ∧ p.freeKey sk w = false) ∨ ∃ w, NeedsSession t w ∧ p.freeSession ss w = false := by
    intro i t ht he
    refine Classical.byContradiction fun hb => hno ⟨i, t, ht, he, ?_, ?_⟩
    · intro w hw
      cases hf : p.freeKey sk w with
      | true => rfl
      | false => exact absurd (.inl ⟨w, hw, hf⟩) hb
    · intro w hw
      cases hf : p.freeSession ss w with
      | true => rfl
      | false => exact absurd (.inr ⟨w, hw, hf⟩) hb
  have h0 : ∃ t ∈ p.threads, ¬ AllDone t := by
    refine Classical.byContradiction fun hb => hne fun t ht => Classical.byContradiction fun he => hb ⟨t, ht, he⟩
  obtain ⟨t0, ht0, he0⟩ := h0
  classical
  let live := p.threads.filter fun t => decide (¬ AllDone t)
  have mem_live : ∀ {t}, t ∈ live ↔ t ∈ p.threads ∧ ¬ AllDone t := by intro t; simp [live]
  obtain ⟨b, hb, hmax⟩ := exists_max_of_mem (fun t : EThread => t.sought (fun k => rk (sk k)) fun i => rs (ss i)) live t0
    (mem_live.mpr ⟨ht0, he0⟩)
  obtain ⟨hb1, hb2⟩ := mem_live.mp hb
  obtain ⟨ib, hib⟩ := List.getElem?_of_mem hb1
  have hold : ∀ (i : Nat) u, p.threads[i]? = some u → ¬ AllDone u →
      (∀ g ∈ u.keys, rk (sk g.1) < u.sought (fun k => rk (sk k)) fun i => rs (ss i)) ∧
      ∀ g ∈ u.locks, rs (ss g) < u.sought (fun k => rk (sk k)) fun i => rs (ss i) := fun i u hu he =>
    holds_below (h.wf i u hu) (hc i u hu) ((blocked i u hu he).imp (fun ⟨w, hw, _⟩ => ⟨w, hw⟩) fun ⟨w, hw, _⟩ => ⟨w, hw⟩)
  rcases blocked ib b hib hb2 with ⟨w, hw, hf⟩ | ⟨w, hw, hf⟩
  · have hfree : ¬ ∀ (i : Nat) t, p.threads[i]? = some t → ∀ g ∈ t.keys, conflicts sk g w = false := by
      rw [← EPool.freeKey_iff, hf]; simp
    simp only [Classical.not_forall] at hfree
    obtain ⟨j, u, hu, g, hg, hcon⟩ := hfree
    have hsame : sk g.1 = sk w.1 := by
      simp only [Bool.not_eq_false, conflicts, Bool.and_eq_true, beq_iff_eq] at hcon
      exact hcon.1
    have hue : ¬ AllDone u := by rintro ⟨-, he, -⟩; rw [he] at hg; cases hg
    have h1 := (hold j u hu hue).1 g hg
    have h2 := hmax u (mem_live.mpr ⟨List.mem_of_getElem? hu, hue⟩)
    rw [sought_key hw] at h2
    rw [hsame] at h1
    omega
  · have hfree : ¬ ∀ (i : Nat) t, p.threads[i]? = some t → ∀ g ∈ t.locks, ss g ≠ ss w := by
      rw [← EPool.freeSession_iff, hf]; simp
    simp only [Classical.not_forall] at hfree
    obtain ⟨j, u, hu, g, hg, hcon⟩ := hfree
    have hsame : ss g = ss w := Classical.not_not.mp hcon
    have hue : ¬ AllDone u := by
      rintro ⟨-, -, h1, h2⟩
      simp [EThread.locks, h1, h2] at hg
    have h1 := (hold j u hu hue).2 g hg
    have h2 := hmax u (mem_live.mpr ⟨List.mem_of_getElem? hu, hue⟩)
    rw [sought_session hw] at h2
    rw [hsame] at h1
    omega

theorem AllMinding.finish {mode : Mode} {sk : Bytes → Nat} {ss : UInt32 → Nat} {rk rs : Nat → Nat} (l : List EThread) (hacc : Acc SomeEOnward l) :
    ∀ (p : EPool), p.threads = l → Engaged sk ss p →
    AllMinding (aboveKey (fun k => rk (sk k)) fun i => rs (ss i)) (aboveSession (fun k => rk (sk k)) fun i => rs (ss i)) p →
    ∃ sched, ∀ t ∈ (p.exec mode sk ss sched).threads, AllDone t := by
  induction hacc with
  | intro l _ ih =>
    intro p hp h hc
    by_cases he : ∀ t ∈ p.threads, AllDone t
    · exact ⟨[], he⟩
    · obtain ⟨i, t, hi, hd, hk, hw⟩ := h.able hc he
      have hm := ((h.wf i t hi).move mode (p.freeKey sk) (p.freeSession ss) p.engine).onward hd hk hw
      have hstep : (p.stepAt mode sk ss i).threads =
          p.threads.set i (t.step mode (p.freeKey sk) (p.freeSession ss) p.engine).1 := by
        simp only [EPool.stepAt, hi]
      obtain ⟨s, hs⟩ := ih _ (by rw [← hp]; exact SomeEOnward.set hi hm) (p.stepAt mode sk ss i) hstep (h.step i) (hc.step h i)
      exact ⟨i :: s, hs⟩

theorem AllMinding.begin {okK : List Bytes → List UInt32 → Bytes → Prop} {okS : List Bytes → List UInt32 → UInt32 → Prop}
    {progs : List EProg} (hq : ∀ q ∈ progs, Minding okK okS [] [] q) (h : HopEngine) : AllMinding okK okS (starting progs h) := by
  intro i t ht
  simp only [Spec.starting, List.getElem?_map, Option.map_eq_some_iff] at ht
  obtain ⟨q, hqm, rfl⟩ := ht
  exact hq q (List.mem_of_getElem? hqm)

/-- C185. Let the locks of keys and those of sessions be ranked in any way. If every thread asks only for locks that rank
higher than all it holds (an addition counts as asking for any of the locks of sessions), then however the threads have
gone on so far, they can go on so that all of them end. -/
theorem C185_ranked (mode : Mode) (sk : Bytes → Nat) (ss : UInt32 → Nat) (rk rs : Nat → Nat) (progs : List EProg)
    (hq : ∀ q ∈ progs, Minding (aboveKey (fun k => rk (sk k)) fun i => rs (ss i)) (aboveSession (fun k => rk (sk k)) fun i => rs (ss i)) [] [] q)
    (h : HopEngine) (sched : List Nat) : ∃ more, ∀ t ∈ ((starting progs h).exec mode sk ss (sched ++ more)).threads, AllDone t := by
  have ha := Engaged.starting sk ss progs h
  obtain ⟨more, hm⟩ := AllMinding.finish (mode := mode) _ (SomeEOnward.acc _) _ rfl (ha.exec sched)
    ((AllMinding.begin hq h).exec (mode := mode) ha sched)
  exact ⟨more, by rw [EPool.exec_append]; exact hm⟩

/-- Keys are used only while no guard at all is kept, the session manager only while no guard of a session is. -/
def Spec.KeysFirst : EProg → Prop := Minding (fun ks ss _ => ks = [] ∧ ss = []) (fun _ ss _ => ss = []) [] []

/-- The session manager is used only while no guard at all is kept, keys only while no guard of a key is. -/
def Spec.SessionsFirst : EProg → Prop := Minding (fun ks _ _ => ks = []) (fun ks ss _ => ks = [] ∧ ss = []) [] []

/-- C185. Threads that use keys only while they keep no guard, and the session manager only while they keep no guard of a
session, can always finish, whatever they keep guards of keys for. -/
theorem C185_keys_first (mode : Mode) (sk : Bytes → Nat) (ss : UInt32 → Nat) (progs : List EProg) (hq : ∀ q ∈ progs, KeysFirst q)
    (h : HopEngine) (sched : List Nat) : ∃ more, ∀ t ∈ ((starting progs h).exec mode sk ss (sched ++ more)).threads, AllDone t := by
  refine C185_ranked mode sk ss (fun _ => 0) (fun _ => 1) progs (fun q hm => Spec.Minding.mono ?_ ?_ q (hq q hm)) h sched
  · rintro ks ss k ⟨rfl, rfl⟩; exact ⟨by simp, by simp⟩
  · rintro ks ss k rfl; exact ⟨by simp, by simp⟩

/-- C185. So can threads that use the session manager only while they keep no guard, and keys only while they keep no
guard of a key. -/
theorem C185_sessions_first (mode : Mode) (sk : Bytes → Nat) (ss : UInt32 → Nat) (progs : List EProg) (hq : ∀ q ∈ progs, SessionsFirst q)
    (h : HopEngine) (sched : List Nat) : ∃ more, ∀ t ∈ ((starting progs h).exec mode sk ss (sched ++ more)).threads, AllDone t := by
  refine C185_ranked mode sk ss (fun _ => 1) (fun _ => 0) progs (fun q hm => Spec.Minding.mono ?_ ?_ q (hq q hm)) h sched
  · rintro ks ss k rfl; exact ⟨by simp, by simp⟩
  · rintro ks ss k ⟨rfl, rfl⟩; exact ⟨by simp, by simp⟩

/-- C185. Dispatching any command is using keys: it may be done wherever all keys may be used. -/
theorem C185_commands {okK : List Bytes → List UInt32 → Bytes → Prop} {okS : List Bytes → List UInt32 → UInt32 → Prop} {α : Type}
    (ex : List (Option Value) → Bool) (q : Prog α) (ks : List Bytes) (ss : List UInt32) (hk : ∀ k, okK ks ss k)
    (next : Outcome DispatchError α → EProg) (hn : ∀ r, Minding okK okS ks ss (next r)) :
    ∀ seen, Minding okK okS ks ss (EProg.ofProg ex seen q next) := by
  induction q with
  | done r => intro seen; exact hn r
  | onKey k upd rest ih => intro seen; exact ⟨hk k, fun o => ih o _⟩
  | onCtr m upd rest ih => intro seen o; exact ih o _

/-! ## It is not enough to keep no guard of the same kind -/

/-- Keys are used only while no guard of a key is kept, the session manager only while no guard of a session is. -/
def Spec.KindByKind : EProg → Prop := Minding (fun ks _ _ => ks = []) (fun _ ss _ => ss = []) [] []

/-- C184. Threads that use keys only while they keep no guard of a key, and the session manager only while they keep no
guard of a session, can always finish. -/
def C184_Statement : Prop :=
  ∀ (mode : Mode) (sk : Bytes → Nat) (ss : UInt32 → Nat) (progs : List EProg), (∀ q ∈ progs, KindByKind q) → ∀ (h : HopEngine)
    (sched : List Nat), ∃ more, ∀ t ∈ ((starting progs h).exec mode sk ss (sched ++ more)).threads, AllDone t

/-- One thread keeps the guard of a key and removes the session the other one keeps the guard of; the other one then asks
for the key. -/
def Spec.crossed : List EProg :=
  [.access [1] true (fun _ => some (.boolean true)) fun _ => .acquire [1] true fun _ => .remove 0 fun _ => .done,
   .add [2] fun _ _ => .access [1] false id fun _ => .done]

def Spec.crossing : List Nat := [0, 0, 1, 1, 1, 1, 1, 1]

theorem crossed_minding : ∀ q ∈ crossed, KindByKind q := by
  intro q hq
  rcases List.mem_cons.mp hq with rfl | hq
  · exact ⟨rfl, fun _ => ⟨rfl, ⟨rfl, fun _ => trivial⟩, fun _ => ⟨rfl, fun _ => trivial⟩⟩⟩
  · obtain rfl := List.mem_singleton.mp hq
    exact ⟨fun _ => rfl, fun _ _ => ⟨rfl, fun _ => trivial⟩⟩

theorem crossed_knotted : Knotted (fun _ => 0) (·.toNat)
    ((starting crossed .new).exec .debug (fun _ => 0) (·.toNat) crossing) [0, 1] := by
  intro i hi
  rcases List.mem_cons.mp hi with rfl | hi
  · exact ⟨_, 1, _, rfl, by simp, rfl, .inr ⟨0, 0, .remove, .head _, rfl⟩⟩
  · obtain rfl := List.mem_singleton.mp hi
    exact ⟨_, 0, _, rfl, by simp, rfl, .inl ⟨([1], false), ([1], true), .access, .head _, rfl, .inl rfl⟩⟩

/-- C184 is false. -/
theorem C184_false : ¬ C184_Statement := by
  intro h
  obtain ⟨more, hm⟩ := h .debug (fun _ => 0) (·.toNat) crossed crossed_minding .new crossing
  have h0 := C183_deadlock .debug (fun _ => 0) (·.toNat) crossed .new crossing more [0, 1] crossed_knotted 0 (by simp)
  have h1 : ((starting crossed .new).exec .debug (fun _ => 0) (·.toNat) crossing).threads[0]? =
      some ⟨[([1], true)], [], none, .remove 0 fun _ => .done⟩ := rfl
  rw [h1] at h0
  have := (hm _ (List.mem_of_getElem? h0)).1
  cases this

/-- C184, for threads that moreover use keys only while they keep no guard of a session (`crossed` shows what happens
otherwise: two threads that wait for each other). -/
theorem C184_partial (mode : Mode) (sk : Bytes → Nat) (ss : UInt32 → Nat) (progs : List EProg) (hq : ∀ q ∈ progs, KindByKind q)
    (hs : ∀ q ∈ progs, Minding (fun _ ss _ => ss = []) (fun _ _ _ => True) [] [] q)
    (h : HopEngine) (sched : List Nat) : ∃ more, ∀ t ∈ ((starting progs h).exec mode sk ss (sched ++ more)).threads, AllDone t := by
  refine C185_keys_first mode sk ss progs (fun q hm => ?_) h sched
  have both : ∀ (q : EProg) ks ss, Minding (fun ks _ _ => ks = []) (fun _ ss _ => ss = []) ks ss q →
      Minding (fun _ ss _ => ss = []) (fun _ _ _ => True) ks ss q →
      Minding (fun ks ss _ => ks = [] ∧ ss = []) (fun _ ss _ => ss = []) ks ss q := by
    intro q
    induction q with
    | done => intro _ _ _ _; trivial
    | access k e upd next ih => intro _ _ h1 h2; exact ⟨⟨h1.1, h2.1⟩, fun o => ih o _ _ (h1.2 o) (h2.2 o)⟩
    | acquire k e next ih => intro _ _ h1 h2; exact ⟨⟨h1.1, h2.1⟩, ih _ _ _ h1.2.1 h2.2.1, fun v => ih _ _ _ (h1.2.2 v) (h2.2.2 v)⟩
    | look k next ih => intro _ _ h1 h2 o; exact ih o _ _ (h1 o) (h2 o)
    | write k v next ih => intro _ _ h1 h2; exact ih _ _ h1 h2
    | drop k next ih => intro _ _ h1 h2; exact ih _ _ h1 h2
    | count m upd next ih => intro _ _ h1 h2 o; exact ih o _ _ (h1 o) (h2 o)
    | add token next ih => intro _ _ h1 h2; exact ⟨h1.1, fun k s => ih k s _ _ (h1.2 k s) (h2.2 k s)⟩
    | remove id next ih => intro _ _ h1 h2; exact ⟨h1.1, fun b => ih b _ _ (h1.2 b) (h2.2 b)⟩
    | lookSession id next ih => intro _ _ h1 h2 o; exact ih o _ _ (h1 o) (h2 o)
    | writeSession id s next ih => intro _ _ h1 h2; exact ih _ _ h1 h2
    | dropSession id next ih => intro _ _ h1 h2; exact ih _ _ h1 h2
  exact both q [] [] (hq q hm) (hs q hm)

/-! ## Concrete cases -/

/-- After these steps the first thread keeps the guard of a key and the second that of a session (C183_guards,
C183_protects). -/
example : (((starting crossed .new).exec .debug (fun _ => 0) (·.toNat) crossing).threads.map fun t => (t.keys, t.held)) =
    [([([1], true)], []), ([], [0])] := rfl

/-- Whatever happens then, the session stays, since the first thread waits for it. -/
example (after : List Nat) (h : 1 ∉ after) :
    ((starting crossed .new).exec .debug (fun _ => 0) (·.toNat) (crossing ++ after)).engine.sessions 0 = some ⟨[2], 0⟩ :=
  (C183_protects .debug (fun _ => 0) (·.toNat) crossed .new crossing after 1 _ (by rfl) h).2.1 0 (.head _)

/-- The same two threads, but the second drops its guard before it asks for the key (C185_keys_first, C184_partial). -/
private def uncrossed : List EProg :=
  [.access [1] true (fun _ => some (.boolean true)) fun _ => .acquire [1] true fun _ => .remove 0 fun _ => .done,
   .add [2] fun k _ => .dropSession k (.access [1] false id fun _ => .done)]

example : ∀ q ∈ uncrossed, KeysFirst q := by
  intro q hq
  rcases List.mem_cons.mp hq with rfl | hq
  · exact ⟨⟨rfl, rfl⟩, fun _ => ⟨⟨rfl, rfl⟩, ⟨rfl, fun _ => trivial⟩, fun _ => ⟨rfl, fun _ => trivial⟩⟩⟩
  · obtain rfl := List.mem_singleton.mp hq
    exact ⟨fun _ => rfl, fun k _ => ⟨⟨rfl, by simp⟩, fun _ => trivial⟩⟩

/-- A thread that dispatches a command while it keeps the guard of a session (C185_sessions_first, C185_commands). -/
example (ex : List (Option Value) → Bool) (q : Prog Bytes) :
    SessionsFirst (.add [2] fun k _ => EProg.ofProg ex [] q fun _ => .dropSession k .done) :=
  ⟨fun _ => ⟨rfl, rfl⟩, fun k _ => C185_commands ex q [] [k] (fun _ => rfl) (fun _ => .dropSession k .done) (fun _ => trivial) []⟩

/-- The manager of an engine meets the condition of C183_sessions_only. -/
example (h : HopEngine) (progs : List SProg) : Counting (attending progs h.mgr).mgr ∧
    (atSessions h (attending progs h.mgr)) = starting (progs.map ofSessions) h := by
  refine ⟨⟨_, rfl⟩, ?_⟩
  simp [atSessions, attending, starting, HopEngine.setMgr, HopEngine.mgr]

/-- A thread with an exclusive guard that is about to write (C183_written_key, C183_reads_key). -/
example : ((starting [.access [1] true (fun _ => some (.boolean true)) fun _ => .acquire [1] true fun _ =>
      .write [1] (.integer 7) (.look [1] fun _ => .done)] .new).exec .debug (fun _ => 0) (·.toNat) [0, 0]).threads[0]? =
    some ⟨[([1], true)], [], none, .write [1] (.integer 7) (.look [1] fun _ => .done)⟩ := rfl

/-- One with the guard of a session (C183_written_session, C183_reads_session). -/
example : ((starting [.add [2] fun k _ => .writeSession k ⟨[3], 5⟩ (.lookSession k fun _ => .done)] .new).exec .debug (fun _ => 0)
      (·.toNat) [0, 0, 0, 0, 0, 0]).threads[0]? =
    some ⟨[], [0], none, .writeSession 0 ⟨[3], 5⟩ (.lookSession 0 fun _ => .done)⟩ := rfl

/-- The two threads that wait for each other never move again. -/
example (after : List Nat) : ((starting crossed .new).exec .debug (fun _ => 0) (·.toNat) (crossing ++ after)).threads[0]? =
    some ⟨[([1], true)], [], none, .remove 0 fun _ => .done⟩ :=
  (C183_deadlock .debug (fun _ => 0) (·.toNat) crossed .new crossing after [0, 1] crossed_knotted 0 (by simp)).trans rfl

/-- The key whose guard the first thread keeps exists. -/
example : (((starting crossed .new).exec .debug (fun _ => 0) (·.toNat) crossing).engine.db.keys [1]).isSome :=
  (C183_guards .debug (fun _ => 0) (·.toNat) crossed .new crossing 0 _ (by rfl)).2.2.2.1 ([1], true) (.head _)

/-- What is written through a guard of a key is read again, whatever the other thread does in between. -/
example (q : EProg) (between : List Nat) (h : 0 ∉ between) :
    ((starting [.access [1] true (fun _ => some (.boolean true)) fun _ => .acquire [1] true fun _ =>
      .write [1] (.integer 7) (.look [1] fun o => .count .commandsErrored (fun _ => if o = some (.integer 7) then some 1 else none) fun _ => .done),
      q] .new).exec .debug (fun _ => 0) (·.toNat) ([0, 0] ++ [0] ++ between ++ [0])).threads[0]? =
    some ⟨[([1], true)], [], none, .count .commandsErrored (fun _ => some 1) fun _ => .done⟩ :=
  C183_written_key .debug (fun _ => 0) (·.toNat) _ .new [0, 0] between 0 [([1], true)] [] none [1] (.integer 7)
    (fun o => .count .commandsErrored (fun _ => if o = some (.integer 7) then some 1 else none) fun _ => .done) (by rfl) (.head _) h

/-- What a thread reads through the guard of a key, and without one. -/
example : ∃ o, ((starting [.access [1] true (fun _ => some (.boolean true)) fun _ => .acquire [1] true fun _ => .look [1] fun _ => .done]
      .new).exec .debug (fun _ => 0) (·.toNat) ([0, 0] ++ [0])).threads[0]? = some ⟨[([1], true)], [], none, .done⟩ ∧
    o = some (Value.boolean true) := by
  obtain ⟨o, h1, h2, -⟩ := C183_reads_key .debug (fun _ => 0) (·.toNat)
    [.access [1] true (fun _ => some (.boolean true)) fun _ => .acquire [1] true fun _ => .look [1] fun _ => .done] .new [0, 0] 0
    [([1], true)] [] none [1] (fun _ => .done) (by rfl)
  exact ⟨o, h1, (h2 true (.head _)).1⟩

example : ∃ o : Option Session, ((starting [.add [2] fun k _ => .lookSession k fun _ => .done] .new).exec .debug (fun _ => 0) (·.toNat)
      ([0, 0, 0, 0, 0, 0] ++ [0])).threads[0]? = some ⟨[], [0], none, .done⟩ ∧ o.isSome := by
  obtain ⟨o, h1, h2, -⟩ := C183_reads_session .debug (fun _ => 0) (·.toNat) [.add [2] fun k _ => .lookSession k fun _ => .done] .new
    [0, 0, 0, 0, 0, 0] 0 [] [0] none 0 (fun _ => .done) (by rfl)
  exact ⟨o, h1, (h2 (.head _)).2⟩

/-- The same of a session. -/
example (q : EProg) (between : List Nat) (h : 0 ∉ between) :
    ((starting [.add [2] fun k _ => .writeSession k ⟨[3], 5⟩ (.lookSession k fun o =>
        .count .commandsErrored (fun _ => if o = some ⟨[3], 5⟩ then some 1 else none) fun _ => .done), q] .new).exec .debug (fun _ => 0)
      (·.toNat) ([0, 0, 0, 0, 0, 0] ++ [0] ++ between ++ [0])).threads[0]? =
    some ⟨[], [0], none, .count .commandsErrored (fun _ => some 1) fun _ => .done⟩ :=
  C183_written_session .debug (fun _ => 0) (·.toNat) _ .new [0, 0, 0, 0, 0, 0] between 0 [] [0] none 0 ⟨[3], 5⟩
    (fun o => .count .commandsErrored (fun _ => if o = some ⟨[3], 5⟩ then some 1 else none) fun _ => .done) (by rfl) (.head _) h

/-- Threads that use sessions only do as they do by themselves. -/
example (h : HopEngine) (sched : List Nat) :
    (atSessions h (attending [.add [1] fun k _ => .drop k .done, .add [2] fun _ _ => .done] h.mgr)).exec .debug (fun _ => 0) (fun _ => 0) sched =
    atSessions h ((attending [.add [1] fun k _ => .drop k .done, .add [2] fun _ _ => .done] h.mgr).exec .debug (fun _ => 0) sched) :=
  C183_sessions_only .debug (fun _ => 0) (fun _ => 0) h _ ⟨_, rfl⟩ sched

/-- `uncrossed` can always finish. -/
example (sched : List Nat) : ∃ more, ∀ t ∈ ((starting uncrossed .new).exec .debug (fun _ => 0) (·.toNat) (sched ++ more)).threads, AllDone t := by
  refine C184_partial .debug (fun _ => 0) (·.toNat) uncrossed (fun q hq => ?_) (fun q hq => ?_) .new sched
  · rcases List.mem_cons.mp hq with rfl | hq
    · exact ⟨rfl, fun _ => ⟨rfl, ⟨rfl, fun _ => trivial⟩, fun _ => ⟨rfl, fun _ => trivial⟩⟩⟩
    · obtain rfl := List.mem_singleton.mp hq
      exact ⟨fun _ => rfl, fun k _ => ⟨rfl, fun _ => trivial⟩⟩
  · rcases List.mem_cons.mp hq with rfl | hq
    · exact ⟨rfl, fun _ => ⟨rfl, ⟨trivial, fun _ => trivial⟩, fun _ => ⟨trivial, fun _ => trivial⟩⟩⟩
    · obtain rfl := List.mem_singleton.mp hq
      exact ⟨fun _ => trivial, fun k _ => ⟨by simp, fun _ => trivial⟩⟩

example (sched : List Nat) : ∃ more, ∀ t ∈ ((starting uncrossed .new).exec .debug (fun _ => 0) (·.toNat) (sched ++ more)).threads, AllDone t := by
  refine C185_keys_first .debug (fun _ => 0) (·.toNat) uncrossed (fun q hq => ?_) .new sched
  rcases List.mem_cons.mp hq with rfl | hq
  · exact ⟨⟨rfl, rfl⟩, fun _ => ⟨⟨rfl, rfl⟩, ⟨rfl, fun _ => trivial⟩, fun _ => ⟨rfl, fun _ => trivial⟩⟩⟩
  · obtain rfl := List.mem_singleton.mp hq
    exact ⟨fun _ => rfl, fun k _ => ⟨⟨rfl, by simp⟩, fun _ => trivial⟩⟩

/-- Two threads that dispatch any commands while they keep the guards of sessions. -/
example (ex : List (Option Value) → Bool) (q q' : Prog Bytes) (sched : List Nat) :
    ∃ more, ∀ t ∈ ((starting [.add [2] fun k _ => EProg.ofProg ex [] q fun _ => .dropSession k .done,
      .add [3] fun k _ => EProg.ofProg ex [] q' fun _ => .dropSession k .done] .new).exec .debug (fun _ => 0) (fun _ => 0)
      (sched ++ more)).threads, AllDone t := by
  refine C185_sessions_first .debug (fun _ => 0) (fun _ => 0) _ (fun p hp => ?_) .new sched
  rcases List.mem_cons.mp hp with rfl | hp
  · exact ⟨fun _ => ⟨rfl, rfl⟩, fun k _ => C185_commands ex q [] [k] (fun _ => rfl) (fun _ => .dropSession k .done) (fun _ => trivial) []⟩
  · obtain rfl := List.mem_singleton.mp hp
    exact ⟨fun _ => ⟨rfl, rfl⟩, fun k _ => C185_commands ex q' [] [k] (fun _ => rfl) (fun _ => .dropSession k .done) (fun _ => trivial) []⟩

/-- Two threads that take the guards of two keys in the order of their locks, and then remove a session. -/
example (sched : List Nat) : ∃ more, ∀ t ∈ ((starting [.acquire [1] true fun _ => .acquire [1, 1] true fun _ => .remove 0 fun _ => .done,
    .acquire [1] false fun _ => .acquire [1, 1] true fun _ => .remove 1 fun _ => .done] .new).exec .debug List.length (fun _ => 0)
      (sched ++ more)).threads, AllDone t := by
  refine C185_ranked .debug List.length (fun _ => 0) id (fun _ => 9) _ (fun p hp => ?_) .new sched
  rcases List.mem_cons.mp hp with rfl | hp
  · simp [Minding, aboveKey, aboveSession]
  · obtain rfl := List.mem_singleton.mp hp
    simp [Minding, aboveKey, aboveSession]

end Hop
