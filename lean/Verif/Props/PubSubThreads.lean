import Verif.Spec.PubSubThreads
import Verif.Props.PubSub

/-! # C93 to C96: publish/subscribe used from several threads -/

namespace Hop

open Spec

/-! ## A thread alone does what the functions of Model/PubSub.lean do -/

theorem subscribe_steps (p : PubSub) (k : Bytes) (s : UInt32) :
    p.subscribe k s = match p.subscribeSession k s with
      | (none, p') => (none, p')
      | (some x, p') => p'.subscribeKey k s x := by
  unfold PubSub.subscribe PubSub.subscribeSession PubSub.subscribeKey
  dsimp only
  cases ((p.sessions s).getD []).lookup k with
  | some _ => rfl
  | none => rfl

theorem unsubscribe_steps (p : PubSub) (k : Bytes) (s : UInt32) :
    p.unsubscribe k s = ((p.unsubscribeKey k s).1 || ((p.unsubscribeKey k s).2.unsubscribeSession k s).1,
      ((p.unsubscribeKey k s).2.unsubscribeSession k s).2) := by
  unfold PubSub.unsubscribe PubSub.unsubscribeKey PubSub.unsubscribeSession
  dsimp only
  cases p.keys k <;> dsimp only <;> cases p.sessions s <;> rfl

/-! ## The maps after each step -/

theorem get_subscribeSession (p : PubSub) (k k' : Bytes) (s s' : UInt32) :
    ((p.subscribeSession k s).2.get k' s').isSome = (decide (k' = k ∧ s' = s) || (p.get k' s').isSome) := by
  unfold PubSub.subscribeSession PubSub.get
  dsimp only
  cases hx : ((p.sessions s).getD []).lookup k with
  | some y =>
    by_cases e : s' = s
    · subst e
      simp only [if_true, and_true]
      cases hs : p.sessions s' with
      | none => rw [hs] at hx; simp at hx
      | some m =>
        rw [hs] at hx
        simp only [Option.getD_some] at hx ⊢
        by_cases e : k' = k
        · subst e; simp [hx]
        · simp [e]
    · simp [e]
  | none =>
    by_cases e : s' = s
    · subst e
      simp only [if_true, and_true, lookup_append_new hx]
      cases hs : p.sessions s' with
      | none => by_cases e : k' = k <;> simp [e]
      | some m => by_cases e : k' = k <;> simp [e]
    · simp [e]

theorem sessions_subscribeSession (p : PubSub) (k : Bytes) (s s' : UInt32) :
    ((p.subscribeSession k s).2.sessions s').isSome = (decide (s' = s) || (p.sessions s').isSome) := by
  unfold PubSub.subscribeSession
  dsimp only
  cases ((p.sessions s).getD []).lookup k <;> by_cases e : s' = s <;> simp [e]

theorem keys_subscribeSession (p : PubSub) (k : Bytes) (s : UInt32) : (p.subscribeSession k s).2.keys = p.keys := by
  unfold PubSub.subscribeSession
  dsimp only
  split <;> rfl

theorem subscribeSession_none (p : PubSub) (k : Bytes) (s : UInt32) :
    (p.subscribeSession k s).1.isSome = !(p.get k s).isSome := by
  unfold PubSub.subscribeSession PubSub.get
  dsimp only
  cases hs : p.sessions s with
  | none => simp
  | some m =>
    simp only [Option.getD_some]
    cases m.lookup k <;> rfl

theorem get_subscribeKey (p : PubSub) (k : Bytes) (s : UInt32) (x : Nat) : (p.subscribeKey k s x).2.sessions = p.sessions := by
  unfold PubSub.subscribeKey
  split <;> rfl

theorem get_unsubscribeKey (p : PubSub) (k : Bytes) (s : UInt32) : (p.unsubscribeKey k s).2.sessions = p.sessions := by
  unfold PubSub.unsubscribeKey
  split <;> rfl

theorem keys_unsubscribeSession (p : PubSub) (k : Bytes) (s : UInt32) : (p.unsubscribeSession k s).2.keys = p.keys := by
  unfold PubSub.unsubscribeSession
  split <;> rfl

theorem get_unsubscribeSession (p : PubSub) (k k' : Bytes) (s s' : UInt32) :
    (p.unsubscribeSession k s).2.get k' s' = if k' = k ∧ s' = s then none else p.get k' s' := by
  unfold PubSub.unsubscribeSession PubSub.get
  cases hs : p.sessions s with
  | none =>
    by_cases e : s' = s
    · subst e; simp [hs]
    · simp [e]
  | some m =>
    by_cases e : s' = s
    · subst e
      simp only [if_true, lookup_filter, hs, and_true]
    · simp [e]

theorem unsubscribeSession_answer (p : PubSub) (k : Bytes) (s : UInt32) :
    (p.unsubscribeSession k s).1 = (p.get k s).isSome := by
  unfold PubSub.unsubscribeSession PubSub.get
  cases p.sessions s <;> rfl

theorem sessions_unsubscribeSession (p : PubSub) (k : Bytes) (s s' : UInt32) :
    ((p.unsubscribeSession k s).2.sessions s').isSome = (p.sessions s').isSome := by
  unfold PubSub.unsubscribeSession
  cases hs : p.sessions s with
  | none => rfl
  | some m => by_cases e : s' = s <;> simp [e, hs]

theorem get_of_sessions {p q : PubSub} (h : q.sessions = p.sessions) (k : Bytes) (s : UInt32) : q.get k s = p.get k s := by
  unfold PubSub.get; rw [h]

/-! ## The invariant -/

/-- The call has taken effect. -/
def SubThread.effective : SubThread → Bool
  | .subscribed _ | .unsubscribed _ | .got _ | .closing _ | .sessionRemoved _ => true
  | _ => false

theorem FirstSubscriber.snoc {h : List SubOp} {k : Bytes} {s : UInt32} (hf : FirstSubscriber h k s) (l : List SubOp) :
    FirstSubscriber (h ++ l) k s := by
  obtain ⟨pre, post, rfl, h1⟩ := hf
  exact ⟨pre, post ++ l, by simp, h1⟩

theorem opsOf_append (calls : List SubCall) (a b : List Nat) : opsOf calls (a ++ b) = opsOf calls a ++ opsOf calls b := by
  simp [opsOf]

theorem opsOf_single {calls : List SubCall} {i : Nat} {c : SubCall} (hc : calls[i]? = some c) :
    opsOf calls [i] = (c.op?).toList := by
  unfold opsOf
  simp only [List.filterMap_cons, hc, List.filterMap_nil, Option.bind_some]
  cases c.op? <;> rfl

/-- A call that has not taken effect yet. -/
def Pending (h : List SubOp) : SubCall → SubThread → Prop
  | .op (.subscribe k s), t => t = .subscribe k s ∨ ∃ x, t = .subscribing k s x
  | .op (.unsubscribe k s), t => t = .unsubscribe k s ∨ ∃ b, t = .unsubscribing k s b ∧ (b = true → FirstSubscriber h k s)
  | .op (.removeSession s), t => t = .removeSession s
  | .get k s, t => t = .get k s

/-- A call that has taken effect after history `h`. -/
def Took (h : List SubOp) (c : SubCall) : SubThread → Prop
  | .closing _ => ∃ s, c = .op (.removeSession s) ∧ Used h s
  | t => Answered h c t

/-- How far a call is. -/
def SubStage (calls : List SubCall) (h : List Nat) (i : Nat) (c : SubCall) (t : SubThread) : Prop :=
  if t.effective then ∃ pre post, h = pre ++ i :: post ∧ Took (opsOf calls pre) c t
  else i ∉ h ∧ Pending (opsOf calls h) c t

theorem Pending.mono {h : List SubOp} {c : SubCall} {t : SubThread} (hp : Pending h c t) (l : List SubOp) : Pending (h ++ l) c t := by
  unfold Pending at *
  split at hp
  · exact hp
  · rcases hp with h1 | ⟨b, h1, h2⟩
    · exact .inl h1
    · exact .inr ⟨b, h1, fun hb => FirstSubscriber.snoc (h2 hb) l⟩
  · exact hp
  · exact hp

theorem SubStage.mono {calls : List SubCall} {h : List Nat} {i j : Nat} {c : SubCall} {t : SubThread}
    (hs : SubStage calls h j c t) (hne : j ≠ i) : SubStage calls (h ++ [i]) j c t := by
  unfold SubStage at *
  split
  · rename_i he
    rw [if_pos he] at hs
    obtain ⟨pre, post, rfl, h1⟩ := hs
    exact ⟨pre, post ++ [i], by simp, h1⟩
  · rename_i he
    rw [if_neg he] at hs
    refine ⟨by simp [hs.1, hne], ?_⟩
    rw [opsOf_append]
    exact hs.2.mono _

/-- Thread `i` holds the entry of session `s`. -/
def SubPool.Holds (p : SubPool) (i : Nat) (k : Bytes) (s : UInt32) : Prop := ∃ x, p.threads[i]? = some (.subscribing k s x)

/-- What holds at every moment, when the calls listed in `h` have taken effect. -/
structure SubOk (calls : List SubCall) (shard : UInt32 → Nat) (p : SubPool) (h : List Nat) : Prop where
  len : p.threads.length = calls.length
  nodup : h.Nodup
  stage : ∀ (i : Nat) t c, p.threads[i]? = some t → calls[i]? = some c → SubStage calls h i c t
  lock : ∀ i j k k' s s', p.Holds i k s → p.Holds j k' s' → shard s = shard s' → i = j
  keys : ∀ k, (p.mgr.keys k).isSome ↔ EverSubscribed (opsOf calls h) k
  sets : ∀ k l s, p.mgr.keys k = some l → s ∈ l → FirstSubscriber (opsOf calls h) k s
  free : ∀ s, (∀ i k, ¬ p.Holds i k s) → (∀ k, (p.mgr.get k s).isSome ↔ Subscribed (opsOf calls h) k s) ∧
    ((p.mgr.sessions s).isSome ↔ Used (opsOf calls h) s)
  held : ∀ i k s, p.Holds i k s → ¬ Subscribed (opsOf calls h) k s ∧ (p.mgr.sessions s).isSome ∧
    ∀ k', (p.mgr.get k' s).isSome ↔ k' = k ∨ Subscribed (opsOf calls h) k' s

theorem set_get {α : Type} {l : List α} {i j : Nat} {a b t : α} (hi : l[i]? = some t) (h : (l.set i a)[j]? = some b) :
    (j = i ∧ b = a) ∨ (j ≠ i ∧ l[j]? = some b) := by
  rw [List.getElem?_set] at h
  split at h
  · rename_i e
    split at h
    · exact .inl ⟨e.symm, (Option.some.inj h).symm⟩
    · cases h
  · rename_i e
    exact .inr ⟨fun h => e h.symm, h⟩

theorem set_get_self {α : Type} {l : List α} {i : Nat} {a t : α} (hi : l[i]? = some t) : (l.set i a)[i]? = some a := by
  rw [List.getElem?_set]
  have := (List.getElem?_eq_some_iff.mp hi).1
  simp [this]

theorem set_get_ne {α : Type} {l : List α} {i j : Nat} {a : α} (h : j ≠ i) : (l.set i a)[j]? = l[j]? := by
  rw [List.getElem?_set, if_neg (Ne.symm h)]

theorem holds_same {p : SubPool} {i : Nat} {t t' : SubThread} {m : PubSub} (hi : p.threads[i]? = some t)
    (h1 : t.holds = none) (h2 : t'.holds = none) (j : Nat) (k : Bytes) (s : UInt32) :
    ({ threads := p.threads.set i t', mgr := m } : SubPool).Holds j k s ↔ p.Holds j k s := by
  constructor
  · rintro ⟨x, hx⟩
    rcases set_get hi hx with ⟨rfl, e⟩ | ⟨-, e⟩
    · rw [← e] at h2; cases h2
    · exact ⟨x, e⟩
  · rintro ⟨x, hx⟩
    by_cases e : j = i
    · subst e
      rw [hi] at hx
      cases hx
      cases h1
    · exact ⟨x, by show (p.threads.set i t')[j]? = _; rw [set_get_ne e]; exact hx⟩

theorem free_iff {shard : UInt32 → Nat} {p : SubPool} {s : UInt32} (h : p.free shard s = true) (i : Nat) (k : Bytes) (s' : UInt32)
    (hh : p.Holds i k s') : shard s' ≠ shard s := by
  obtain ⟨x, hx⟩ := hh
  unfold SubPool.free at h
  rw [List.all_eq_true] at h
  have := h _ (List.mem_of_getElem? hx)
  simpa [SubThread.holds] using this

/-- Thread and order after a step. -/
theorem SubOk.stages {calls : List SubCall} {shard : UInt32 → Nat} {p : SubPool} {h : List Nat} (ok : SubOk calls shard p h)
    {i : Nat} {t t' : SubThread} {c : SubCall} (hi : p.threads[i]? = some t) (hc : calls[i]? = some c)
    {h' : List Nat} (hh : h' = h ∨ h' = h ++ [i]) (hst : SubStage calls h' i c t') (j : Nat) (u : SubThread) (d : SubCall)
    (hu : (p.threads.set i t')[j]? = some u) (hd : calls[j]? = some d) : SubStage calls h' j d u := by
  rcases set_get hi hu with ⟨rfl, rfl⟩ | ⟨hne, hu⟩
  · rw [hc] at hd; cases hd; exact hst
  · have := ok.stage j u d hu hd
    rcases hh with rfl | rfl
    · exact this
    · exact this.mono hne

/-- A step that changes neither the sessions' maps nor which keys there are, nor any lock, nor makes the call
take effect. -/
theorem SubOk.quiet {calls : List SubCall} {shard : UInt32 → Nat} {p : SubPool} {h : List Nat} (ok : SubOk calls shard p h)
    {i : Nat} {t t' : SubThread} {c : SubCall} {m : PubSub} (hi : p.threads[i]? = some t) (hc : calls[i]? = some c)
    (h1 : t.holds = none) (h2 : t'.holds = none) (hst : SubStage calls h i c t') (hs : m.sessions = p.mgr.sessions)
    (hk : ∀ k, (m.keys k).isSome = (p.mgr.keys k).isSome)
    (hl : ∀ k l s, m.keys k = some l → s ∈ l → ∃ l', p.mgr.keys k = some l' ∧ s ∈ l') :
    SubOk calls shard { threads := p.threads.set i t', mgr := m } h where
  len := by simp [ok.len]
  nodup := ok.nodup
  stage := ok.stages hi hc (.inl rfl) hst
  lock := by
    intro a b k k' s s' ha hb
    rw [holds_same hi h1 h2] at ha hb
    exact ok.lock a b k k' s s' ha hb
  keys := by intro k; rw [← ok.keys, ← hk]
  sets := by
    intro k l s e hm
    obtain ⟨l', e', hm'⟩ := hl k l s e hm
    exact ok.sets k l' s e' hm'
  free := by
    intro s hn
    simp only [holds_same hi h1 h2] at hn
    have := ok.free s hn
    simp only [get_of_sessions hs, hs]
    exact this
  held := by
    intro j k s hj
    rw [holds_same hi h1 h2] at hj
    have := ok.held j k s hj
    simp only [get_of_sessions hs, hs]
    exact this

theorem SubOk.at_call {calls : List SubCall} {shard : UInt32 → Nat} {p : SubPool} {h : List Nat} (ok : SubOk calls shard p h)
    {i : Nat} {t : SubThread} (hi : p.threads[i]? = some t) : ∃ c, calls[i]? = some c := by
  have h1 := (List.getElem?_eq_some_iff.mp hi).1
  rw [ok.len] at h1
  exact ⟨calls[i], List.getElem?_eq_getElem h1⟩

theorem SubOk.fresh {calls : List SubCall} {shard : UInt32 → Nat} {p : SubPool} {h : List Nat} (ok : SubOk calls shard p h)
    {i : Nat} {t : SubThread} {c : SubCall} (hi : p.threads[i]? = some t) (hc : calls[i]? = some c) (he : t.effective = false) :
    i ∉ h ∧ Pending (opsOf calls h) c t := by
  have := ok.stage i t c hi hc
  unfold SubStage at this
  rw [if_neg (by simp [he])] at this
  exact this

theorem nodup_snoc {h : List Nat} {i : Nat} (h1 : h.Nodup) (h2 : i ∉ h) : (h ++ [i]).Nodup := by
  rw [List.nodup_append]
  refine ⟨h1, by simp, ?_⟩
  rintro a ha b hb rfl
  rw [List.mem_singleton] at hb
  subst hb
  exact h2 ha

/-- A step by which a call on session `s` takes effect, without touching locks or keys. -/
theorem SubOk.effect {calls : List SubCall} {shard : UInt32 → Nat} {p : SubPool} {h : List Nat} (ok : SubOk calls shard p h)
    {i : Nat} {t t' : SubThread} {c : SubCall} {m : PubSub} (s : UInt32) (hi : p.threads[i]? = some t) (hc : calls[i]? = some c)
    (h1 : t.holds = none) (h2 : t'.holds = none) (he : t.effective = false) (he' : t'.effective = true)
    (ht : Took (opsOf calls h) c t') (hk : m.keys = p.mgr.keys)
    (hev : ∀ k, EverSubscribed (opsOf calls h ++ c.op?.toList) k ↔ EverSubscribed (opsOf calls h) k)
    (hfree : ∀ i k, ¬ p.Holds i k s)
    (hother : ∀ s', s' ≠ s → m.sessions s' = p.mgr.sessions s' ∧
      (∀ k, Subscribed (opsOf calls h ++ c.op?.toList) k s' ↔ Subscribed (opsOf calls h) k s') ∧
      (Used (opsOf calls h ++ c.op?.toList) s' ↔ Used (opsOf calls h) s'))
    (hs : (∀ k, (m.get k s).isSome ↔ Subscribed (opsOf calls h ++ c.op?.toList) k s) ∧
      ((m.sessions s).isSome ↔ Used (opsOf calls h ++ c.op?.toList) s)) :
    SubOk calls shard { threads := p.threads.set i t', mgr := m } (h ++ [i]) := by
  have hops : opsOf calls (h ++ [i]) = opsOf calls h ++ c.op?.toList := by rw [opsOf_append, opsOf_single hc]
  refine ⟨by simp [ok.len], nodup_snoc ok.nodup (ok.fresh hi hc he).1, ok.stages hi hc (.inr rfl) ?_, ?_, ?_, ?_, ?_, ?_⟩
  · unfold SubStage
    rw [if_pos he']
    exact ⟨h, [], rfl, ht⟩
  · intro a b k k' s s' ha hb
    rw [holds_same hi h1 h2] at ha hb
    exact ok.lock a b k k' s s' ha hb
  · intro k
    rw [hops, hev, ← ok.keys]
    simp only [hk]
  · intro k l s' e hm
    simp only [hk] at e
    rw [hops]
    exact FirstSubscriber.snoc (ok.sets k l s' e hm) _
  · intro s' hn
    simp only [holds_same hi h1 h2] at hn
    rw [hops]
    by_cases e : s' = s
    · subst e; exact hs
    · obtain ⟨a1, a2, a3⟩ := hother s' e
      have := ok.free s' hn
      simp only [a2, a3, PubSub.get, a1]
      exact this
  · intro j k s' hj
    rw [holds_same hi h1 h2] at hj
    have e : s' ≠ s := by rintro rfl; exact hfree _ _ hj
    obtain ⟨a1, a2, a3⟩ := hother s' e
    have := ok.held j k s' hj
    rw [hops]
    simp only [a2, PubSub.get, a1]
    exact this

theorem SubOk.step {calls : List SubCall} {shard : UInt32 → Nat} {p : SubPool} {h : List Nat} (ok : SubOk calls shard p h)
    {i : Nat} {t : SubThread} (hi : p.threads[i]? = some t) :
    SubOk calls shard { threads := p.threads.set i (t.step (p.free shard) p.mgr).1, mgr := (t.step (p.free shard) p.mgr).2 }
      (if !t.effective && (t.step (p.free shard) p.mgr).1.effective then h ++ [i] else h) := by
  obtain ⟨c, hc⟩ := ok.at_call hi
  have hst := ok.stage i t c hi hc
  have stay : t.step (p.free shard) p.mgr = (t, p.mgr) →
      SubOk calls shard { threads := p.threads.set i (t.step (p.free shard) p.mgr).1, mgr := (t.step (p.free shard) p.mgr).2 }
      (if !t.effective && (t.step (p.free shard) p.mgr).1.effective then h ++ [i] else h) := by
    intro e
    rw [e]
    have : p.threads.set i t = p.threads := by
      apply List.ext_getElem?
      intro j
      rw [List.getElem?_set]
      split
      · rename_i e; subst e
        rw [hi, if_pos (List.getElem?_eq_some_iff.mp hi).1]
      · rfl
    simp only [this]
    rw [if_neg (by cases t.effective <;> simp)]
    exact ok
  have nohold : ∀ s, p.free shard s = true → ∀ i k, ¬ p.Holds i k s := fun s hf i k hh => free_iff hf i k s hh rfl
  cases t with
  | subscribed a => exact stay rfl
  | unsubscribed a => exact stay rfl
  | got a => exact stay rfl
  | sessionRemoved a => exact stay rfl
  | closing l =>
    unfold SubStage at hst
    rw [if_pos (by rfl)] at hst
    obtain ⟨pre, post, e, ⟨s, rfl, hu⟩⟩ := hst
    cases l with
    | nil =>
      refine ok.quiet hi hc rfl rfl ?_ rfl (fun _ => rfl) (fun k l s e hm => ⟨l, e, hm⟩)
      unfold SubStage
      rw [if_pos (by rfl)]
      exact ⟨pre, post, e, ⟨fun _ => hu, fun _ => rfl⟩⟩
    | cons x xs =>
      refine ok.quiet hi hc rfl rfl ?_ rfl (fun _ => rfl) (fun k l s e hm => ⟨l, e, hm⟩)
      unfold SubStage
      rw [if_pos (by rfl)]
      exact ⟨pre, post, e, ⟨s, rfl, hu⟩⟩
  | get k s =>
    by_cases hf : p.free shard s = true
    · have e : (SubThread.get k s).step (p.free shard) p.mgr = (.got (p.mgr.get k s), p.mgr) := by
        simp only [SubThread.step, hf, if_true]
      rw [e]
      have hp := (ok.fresh hi hc rfl).2
      have hcs : c = .get k s := by
        unfold Pending at hp
        split at hp
        · rcases hp with hp | ⟨x, hp⟩ <;> cases hp
        · rcases hp with hp | ⟨x, hp, -⟩ <;> cases hp
        · cases hp
        · cases hp; rfl
      subst hcs
      have hfr := ok.free s (nohold s hf)
      refine ok.effect s hi hc rfl rfl rfl rfl ?_ rfl ?_ (nohold s hf) ?_ ?_
      · exact hfr.1 k
      · simp [SubCall.op?]
      · simp [SubCall.op?]
      · simpa [SubCall.op?] using hfr
    · exact stay (by simp only [SubThread.step, if_neg hf])
  | removeSession s =>
    by_cases hf : p.free shard s = true
    · have hp := (ok.fresh hi hc rfl).2
      have hcs : c = .op (.removeSession s) := by
        unfold Pending at hp
        split at hp
        · rcases hp with hp | ⟨x, hp⟩ <;> cases hp
        · rcases hp with hp | ⟨x, hp, -⟩ <;> cases hp
        · cases hp; rfl
        · cases hp
      subst hcs
      have hfr := ok.free s (nohold s hf)
      cases hs : p.mgr.sessions s with
      | none =>
        have e : (SubThread.removeSession s).step (p.free shard) p.mgr = (.sessionRemoved false, p.mgr) := by
          simp only [SubThread.step, hf, if_true, hs]
        rw [e]
        have hnu : ¬ Used (opsOf calls h) s := by rw [← hfr.2, hs]; simp
        refine ok.effect s hi hc rfl rfl rfl rfl ?_ rfl ?_ (nohold s hf) ?_ ?_
        · exact ⟨fun h => (by cases h), fun h => absurd h hnu⟩
        · intro k; simp [SubCall.op?, EverSubscribed.snoc]
        · intro s' hne
          simp [SubCall.op?, Subscribed.snoc, Used.snoc, Ne.symm hne]
        · simp only [SubCall.op?, Option.toList_some, Subscribed.snoc, Used.snoc]
          simp [PubSub.get, hs]
      | some m =>
        have e : (SubThread.removeSession s).step (p.free shard) p.mgr = (.closing (m.map (·.2)),
            { p.mgr with sessions := fun i => if i = s then none else p.mgr.sessions i }) := by
          simp only [SubThread.step, hf, if_true, hs]
        rw [e]
        have hnu : Used (opsOf calls h) s := by rw [← hfr.2, hs]; simp
        refine ok.effect s hi hc rfl rfl rfl rfl ?_ rfl ?_ (nohold s hf) ?_ ?_
        · exact ⟨s, rfl, hnu⟩
        · intro k; simp [SubCall.op?, EverSubscribed.snoc]
        · intro s' hne
          simp [SubCall.op?, Subscribed.snoc, Used.snoc, Ne.symm hne, hne]
        · simp only [SubCall.op?, Option.toList_some, Subscribed.snoc, Used.snoc]
          simp [PubSub.get]
    · exact stay (by simp only [SubThread.step, if_neg hf])
  | unsubscribe k s =>
    have hp := ok.fresh hi hc rfl
    have hcs : c = .op (.unsubscribe k s) := by
      have hp := hp.2
      unfold Pending at hp
      split at hp
      · rcases hp with hp | ⟨x, hp⟩ <;> cases hp
      · rcases hp with hp | ⟨x, hp, -⟩ <;> cases hp
        rfl
      · cases hp
      · cases hp
    subst hcs
    have hset : (p.mgr.unsubscribeKey k s).1 = true → FirstSubscriber (opsOf calls h) k s := by
      unfold PubSub.unsubscribeKey
      cases hk : p.mgr.keys k with
      | none => simp
      | some l => intro hm; exact ok.sets k l s hk (by simpa using hm)
    refine ok.quiet hi hc rfl rfl ?_ (get_unsubscribeKey _ _ _) ?_ ?_
    · unfold SubStage
      rw [if_neg (by simp [SubThread.step, SubThread.effective])]
      exact ⟨hp.1, .inr ⟨_, rfl, hset⟩⟩
    · intro k'
      simp only [SubThread.step]
      unfold PubSub.unsubscribeKey
      cases hk : p.mgr.keys k with
      | none => rfl
      | some l => by_cases e : k' = k <;> simp [e, hk]
    · intro k' l' s' e hm
      simp only [SubThread.step] at e
      unfold PubSub.unsubscribeKey at e
      cases hk : p.mgr.keys k with
      | none => rw [hk] at e; exact ⟨l', e, hm⟩
      | some l =>
        rw [hk] at e
        by_cases ek : k' = k
        · simp only [if_pos ek, Option.some.injEq] at e
          subst e
          exact ⟨l, by rw [ek]; exact hk, (List.mem_filter.mp hm).1⟩
        · simp only [if_neg ek] at e
          exact ⟨l', e, hm⟩
  | unsubscribing k s b =>
    by_cases hf : p.free shard s = true
    · have e : (SubThread.unsubscribing k s b).step (p.free shard) p.mgr =
          (.unsubscribed (b || (p.mgr.unsubscribeSession k s).1), (p.mgr.unsubscribeSession k s).2) := by
        simp only [SubThread.step, hf, if_true]
      rw [e]
      have hp := (ok.fresh hi hc rfl).2
      have hcs : c = .op (.unsubscribe k s) ∧ (b = true → FirstSubscriber (opsOf calls h) k s) := by
        unfold Pending at hp
        split at hp
        · rcases hp with hp | ⟨x, hp⟩ <;> cases hp
        · rcases hp with hp | ⟨x, hp, h2⟩ <;> cases hp
          exact ⟨rfl, h2⟩
        · cases hp
        · cases hp
      obtain ⟨rfl, hb⟩ := hcs
      have hfr := ok.free s (nohold s hf)
      refine ok.effect s hi hc rfl rfl rfl rfl ?_ (keys_unsubscribeSession _ _ _) ?_ (nohold s hf) ?_ ?_
      · show (_ → _) ∧ (_ → _)
        rw [unsubscribeSession_answer, Bool.or_eq_true, hfr.1]
        exact ⟨.inr, fun h => h.elim (fun h => .inr (hb h)) .inl⟩
      · intro k; simp [SubCall.op?, EverSubscribed.snoc]
      · intro s' hne
        refine ⟨?_, ?_⟩
        · unfold PubSub.unsubscribeSession
          split
          · rfl
          · simp [hne]
        · simp [SubCall.op?, Subscribed.snoc, Used.snoc, Ne.symm hne]
      · simp only [SubCall.op?, Option.toList_some, Subscribed.snoc, Used.snoc, get_unsubscribeSession, sessions_unsubscribeSession, hfr.2]
        refine ⟨?_, by simp⟩
        intro k'
        by_cases e : k' = k
        · simp [e]
        · simp [e, Ne.symm e, hfr.1]
    · exact stay (by simp only [SubThread.step, if_neg hf])
  | subscribe k s =>
    by_cases hf : p.free shard s = true
    · have hp := ok.fresh hi hc rfl
      have hcs : c = .op (.subscribe k s) := by
        have hp := hp.2
        unfold Pending at hp
        split at hp
        · rcases hp with hp | ⟨x, hp⟩ <;> cases hp
          rfl
        · rcases hp with hp | ⟨x, hp, -⟩ <;> cases hp
        · cases hp
        · cases hp
      subst hcs
      have hfr := ok.free s (nohold s hf)
      have hans := subscribeSession_none p.mgr k s
      have hother : ∀ s', s' ≠ s → (p.mgr.subscribeSession k s).2.sessions s' = p.mgr.sessions s' := by
        intro s' hne
        unfold PubSub.subscribeSession
        dsimp only
        split <;> simp [hne]
      cases hx : (p.mgr.subscribeSession k s).1 with
      | none =>
        have e : (SubThread.subscribe k s).step (p.free shard) p.mgr = (.subscribed none, (p.mgr.subscribeSession k s).2) := by
          simp only [SubThread.step, hf, if_true]
          rw [show p.mgr.subscribeSession k s = (none, (p.mgr.subscribeSession k s).2) from Prod.ext hx rfl]
        rw [e]
        rw [hx] at hans
        have hsub : Subscribed (opsOf calls h) k s := by
          rw [← hfr.1]
          simpa using hans
        have hever : EverSubscribed (opsOf calls h) k := by
          obtain ⟨pre, post, e, -⟩ := hsub
          exact ⟨s, by rw [e]; simp⟩
        refine ok.effect s hi hc rfl rfl rfl rfl ?_ (keys_subscribeSession _ _ _) ?_ (nohold s hf) ?_ ?_
        · show _ ↔ _
          simp [hever]
        · intro k'
          simp only [SubCall.op?, Option.toList_some, EverSubscribed.snoc]
          constructor
          · rintro (h | ⟨s', h⟩)
            · exact h
            · cases h; exact hever
          · exact .inl
        · intro s' hne
          refine ⟨hother s' hne, ?_⟩
          simp [SubCall.op?, Subscribed.snoc, Used.snoc, Ne.symm hne]
        · simp only [SubCall.op?, Option.toList_some, Subscribed.snoc, Used.snoc, get_subscribeSession, sessions_subscribeSession]
          refine ⟨?_, by simp⟩
          intro k'
          by_cases e : k' = k
          · simp [e]
          · simp [e, Ne.symm e, hfr.1]
      | some x =>
        have e : (SubThread.subscribe k s).step (p.free shard) p.mgr = (.subscribing k s x, (p.mgr.subscribeSession k s).2) := by
          simp only [SubThread.step, hf, if_true]
          rw [show p.mgr.subscribeSession k s = (some x, (p.mgr.subscribeSession k s).2) from Prod.ext hx rfl]
        rw [e]
        rw [hx] at hans
        have hnsub : ¬ Subscribed (opsOf calls h) k s := by
          rw [← hfr.1]
          simpa using hans
        have hholds : ∀ j k' s', ({ threads := p.threads.set i (.subscribing k s x), mgr := (p.mgr.subscribeSession k s).2 } : SubPool).Holds j k' s' ↔
            (j = i ∧ k' = k ∧ s' = s) ∨ (j ≠ i ∧ p.Holds j k' s') := by
          intro j k' s'
          constructor
          · rintro ⟨y, hy⟩
            rcases set_get hi hy with ⟨rfl, e⟩ | ⟨hne, e⟩
            · cases e; exact .inl ⟨rfl, rfl, rfl⟩
            · exact .inr ⟨hne, y, e⟩
          · rintro (⟨rfl, rfl, rfl⟩ | ⟨hne, y, hy⟩)
            · exact ⟨x, set_get_self hi⟩
            · exact ⟨y, by show (p.threads.set i _)[j]? = _; rw [set_get_ne hne]; exact hy⟩
        rw [if_neg (by simp [SubThread.effective])]
        refine ⟨by simp [ok.len], ok.nodup, ok.stages hi hc (.inl rfl) ?_, ?_, ?_, ?_, ?_, ?_⟩
        · unfold SubStage
          rw [if_neg (by simp [SubThread.effective])]
          exact ⟨hp.1, .inr ⟨x, rfl⟩⟩
        · intro a b k1 k2 s1 s2 ha hb es
          rw [hholds] at ha hb
          rcases ha with ⟨rfl, rfl, rfl⟩ | ⟨hna, ha⟩ <;> rcases hb with ⟨rfl, rfl, rfl⟩ | ⟨hnb, hb⟩
          · rfl
          · exact absurd es.symm (free_iff hf _ _ _ hb)
          · exact absurd es (free_iff hf _ _ _ ha)
          · exact ok.lock a b k1 k2 s1 s2 ha hb es
        · intro k'
          rw [← ok.keys]
          simp only [keys_subscribeSession]
        · intro k' l s' e hm
          simp only [keys_subscribeSession] at e
          exact ok.sets k' l s' e hm
        · intro s' hn
          have hne : s' ≠ s := by
            rintro rfl
            exact hn i k ((hholds _ _ _).mpr (.inl ⟨rfl, rfl, rfl⟩))
          have := ok.free s' (fun j k' hj => by
            by_cases e : j = i
            · subst e
              obtain ⟨y, hy⟩ := hj
              rw [hi] at hy
              cases hy
            · exact hn j k' ((hholds _ _ _).mpr (.inr ⟨e, hj⟩)))
          simp only [PubSub.get, hother s' hne]
          exact this
        · intro j k' s' hj
          rcases (hholds _ _ _).mp hj with ⟨rfl, rfl, rfl⟩ | ⟨hne, hj'⟩
          · refine ⟨hnsub, ?_, ?_⟩
            · simp [sessions_subscribeSession]
            · intro k2
              simp [get_subscribeSession, hfr.1]
          · have hns : s' ≠ s := by rintro rfl; exact nohold s' hf _ _ hj'
            have := ok.held j k' s' hj'
            simp only [PubSub.get, hother s' hns]
            exact this
    · exact stay (by simp only [SubThread.step, if_neg hf])
  | subscribing k s x =>
    have hp := ok.fresh hi hc rfl
    have hcs : c = .op (.subscribe k s) := by
      have hp := hp.2
      unfold Pending at hp
      split at hp
      · rcases hp with hp | ⟨x, hp⟩ <;> cases hp
        rfl
      · rcases hp with hp | ⟨x, hp, -⟩ <;> cases hp
      · cases hp
      · cases hp
    subst hcs
    have e : (SubThread.subscribing k s x).step (p.free shard) p.mgr =
        (.subscribed (p.mgr.subscribeKey k s x).1, (p.mgr.subscribeKey k s x).2) := rfl
    rw [e, if_pos (by simp [SubThread.effective])]
    have hops : opsOf calls (h ++ [i]) = opsOf calls h ++ [.subscribe k s] := by
      rw [opsOf_append, opsOf_single hc]; rfl
    have hiheld : p.Holds i k s := ⟨x, hi⟩
    obtain ⟨g1, g2, g3⟩ := ok.held i k s hiheld
    have hholds : ∀ j k' s', ({ threads := p.threads.set i (.subscribed (p.mgr.subscribeKey k s x).1), mgr := (p.mgr.subscribeKey k s x).2 } : SubPool).Holds j k' s' ↔
        (j ≠ i ∧ p.Holds j k' s') := by
      intro j k' s'
      constructor
      · rintro ⟨y, hy⟩
        rcases set_get hi hy with ⟨rfl, e⟩ | ⟨hne, e⟩
        · cases e
        · exact ⟨hne, y, e⟩
      · rintro ⟨hne, y, hy⟩
        exact ⟨y, by show (p.threads.set i _)[j]? = _; rw [set_get_ne hne]; exact hy⟩
    have hses := get_subscribeKey p.mgr k s x
    refine ⟨by simp [ok.len], nodup_snoc ok.nodup hp.1, ok.stages hi hc (.inr rfl) ?_, ?_, ?_, ?_, ?_, ?_⟩
    · unfold SubStage
      rw [if_pos (by rfl)]
      refine ⟨h, [], rfl, ?_⟩
      show _ ↔ _
      rw [← ok.keys]
      unfold PubSub.subscribeKey
      cases p.mgr.keys k <;> simp
    · intro a b k1 k2 s1 s2 ha hb e
      rw [hholds] at ha hb
      exact ok.lock a b k1 k2 s1 s2 ha.2 hb.2 e
    · intro k'
      rw [hops, EverSubscribed.snoc, ← ok.keys]
      dsimp only
      unfold PubSub.subscribeKey
      cases hk : p.mgr.keys k with
      | some l =>
        dsimp only
        constructor
        · exact .inl
        · rintro (h | ⟨s', h⟩)
          · exact h
          · cases h; rw [hk]; rfl
      | none =>
        dsimp only
        by_cases e : k' = k
        · subst e; simp
        · rw [if_neg e]
          constructor
          · exact .inl
          · rintro (h | ⟨s', h⟩)
            · exact h
            · cases h; exact absurd rfl e
    · intro k' l s' e hm
      rw [hops]
      dsimp only at e
      unfold PubSub.subscribeKey at e
      cases hk : p.mgr.keys k with
      | some l' =>
        rw [hk] at e
        exact FirstSubscriber.snoc (ok.sets k' l s' e hm) _
      | none =>
        rw [hk] at e
        dsimp only at e
        by_cases ek : k' = k
        · rw [if_pos ek] at e
          cases e
          rw [List.mem_singleton] at hm
          subst hm
          subst ek
          exact ⟨opsOf calls h, [], rfl, by rw [← ok.keys, hk]; simp⟩
        · rw [if_neg ek] at e
          exact FirstSubscriber.snoc (ok.sets k' l s' e hm) _
    · intro s' hn
      rw [hops]
      by_cases e : s' = s
      · subst e
        simp only [get_of_sessions hses, hses, g2, g3, Subscribed.snoc, Used.snoc]
        refine ⟨?_, by simp⟩
        intro k'
        by_cases e : k' = k
        · simp [e]
        · simp [e, Ne.symm e]
      · have := ok.free s' (fun j k' hj => by
          by_cases ej : j = i
          · subst ej
            obtain ⟨y, hy⟩ := hj
            rw [hi] at hy
            cases hy
            exact e rfl
          · exact hn j k' ((hholds _ _ _).mpr ⟨ej, hj⟩))
        simp only [get_of_sessions hses, hses, Subscribed.snoc, Used.snoc]
        simp [Ne.symm e, this]
    · intro j k' s' hj
      obtain ⟨hne, hj'⟩ := (hholds _ _ _).mp hj
      have hns : s' ≠ s := by
        rintro rfl
        exact hne (ok.lock j i k' k s' s' hj' hiheld rfl)
      have := ok.held j k' s' hj'
      rw [hops]
      simp only [get_of_sessions hses, hses, Subscribed.snoc]
      simp [Ne.symm hns, this]

theorem SubOk.begin (calls : List SubCall) (shard : UInt32 → Nat) : SubOk calls shard (subPool calls) [] := by
  have hno : ∀ i k s, ¬ (subPool calls).Holds i k s := by
    rintro i k s ⟨x, hx⟩
    simp only [subPool, List.getElem?_map, Option.map_eq_some_iff] at hx
    obtain ⟨c, -, hc⟩ := hx
    unfold SubCall.thread at hc
    split at hc <;> cases hc
  refine ⟨by simp [subPool], List.nodup_nil, ?_, ?_, ?_, ?_, ?_, ?_⟩
  · intro i t c hi hc
    simp only [subPool, List.getElem?_map, hc, Option.map_some, Option.some.injEq] at hi
    subst hi
    unfold SubStage
    rw [if_neg (by unfold SubCall.thread; split <;> simp [SubThread.effective])]
    refine ⟨by simp, ?_⟩
    unfold Pending SubCall.thread
    split
    · exact .inl rfl
    · exact .inl rfl
    · rfl
    · rfl
  · intro i j k k' s s' h1
    exact absurd h1 (hno _ _ _)
  · intro k; simp [subPool, PubSub.new, opsOf, EverSubscribed]
  · intro k l s e; cases e
  · intro s _
    simp [subPool, PubSub.new, opsOf, Subscribed, Used, PubSub.get]
  · intro i k s h1
    exact absurd h1 (hno _ _ _)

/-- The pool after a schedule, with the calls that have taken effect, in order. -/
def subRun (calls : List SubCall) (shard : UInt32 → Nat) (sched : List Nat) : SubPool × List Nat :=
  sched.foldl (fun (st : SubPool × List Nat) (i : Nat) => (st.1.stepAt shard i, match st.1.threads[i]? with
    | none => st.2
    | some t => if !t.effective && (t.step (st.1.free shard) st.1.mgr).1.effective then st.2 ++ [i] else st.2)) (subPool calls, [])

theorem subRun_exec (calls : List SubCall) (shard : UInt32 → Nat) (sched : List Nat) :
    (subRun calls shard sched).1 = (subPool calls).exec shard sched := by
  induction sched using snoc_ind with
  | h0 => rfl
  | h1 sched i ih =>
    unfold SubPool.exec at *
    unfold subRun at *
    rw [List.foldl_append, List.foldl_append, ← ih]
    rfl

theorem subRun_ok (calls : List SubCall) (shard : UInt32 → Nat) (sched : List Nat) :
    SubOk calls shard (subRun calls shard sched).1 (subRun calls shard sched).2 := by
  induction sched using snoc_ind with
  | h0 => exact SubOk.begin calls shard
  | h1 sched i ih =>
    have e : subRun calls shard (sched ++ [i]) = ((subRun calls shard sched).1.stepAt shard i, match (subRun calls shard sched).1.threads[i]? with
        | none => (subRun calls shard sched).2
        | some t => if !t.effective && (t.step ((subRun calls shard sched).1.free shard) (subRun calls shard sched).1.mgr).1.effective
          then (subRun calls shard sched).2 ++ [i] else (subRun calls shard sched).2) := by
      unfold subRun
      rw [List.foldl_append]
      rfl
    rw [e]
    unfold SubPool.stepAt
    cases hi : (subRun calls shard sched).1.threads[i]? with
    | none => exact ih
    | some t => exact ih.step hi

/-- Every call answers as if it were made alone at some moment. -/
def C93_Statement : Prop :=
  ∀ (calls : List SubCall) (shard : UInt32 → Nat) (sched : List Nat),
    (∀ t ∈ ((subPool calls).exec shard sched).threads, SubDone t) →
    ∃ order : List Nat, order.Perm (List.range calls.length) ∧ ∀ (i : Nat) c t, calls[i]? = some c → ((subPool calls).exec shard sched).threads[i]? = some t →
      ∃ pre post, order = pre ++ i :: post ∧ AnsweredAlone (opsOf calls pre) c t

/-- C93, what holds. Every call takes effect at one moment, during one of its own steps (`h` lists the calls that
have taken effect after a schedule). `subscribe`, `get` and `remove_session` answer exactly as if they were made
alone then. `unsubscribe` answers true if the session was subscribed then, and otherwise only if it was the
first one ever to subscribe to the key. Missing: the exact answer of `unsubscribe`. -/
theorem C93_one_moment_partial (calls : List SubCall) (shard : UInt32 → Nat) :
    ∃ h : List Nat → List Nat, h [] = [] ∧
      (∀ sched i, h (sched ++ [i]) = h sched ∨ h (sched ++ [i]) = h sched ++ [i]) ∧
      ∀ sched, (h sched).Nodup ∧ ∀ (i : Nat) c t, calls[i]? = some c → ((subPool calls).exec shard sched).threads[i]? = some t →
        (t = c.thread → i ∉ h sched) ∧
        (SubDone t → ∃ pre post, h sched = pre ++ i :: post ∧ Answered (opsOf calls pre) c t) := by
  refine ⟨fun sched => (subRun calls shard sched).2, rfl, ?_, ?_⟩
  · intro sched i
    dsimp only
    unfold subRun
    rw [List.foldl_append]
    dsimp only [List.foldl_cons, List.foldl_nil]
    split
    · exact .inl rfl
    · split
      · exact .inr rfl
      · exact .inl rfl
  · intro sched
    have ok := subRun_ok calls shard sched
    rw [← subRun_exec]
    refine ⟨ok.nodup, ?_⟩
    intro i c t hc hi
    have hst := ok.stage i t c hi hc
    constructor
    · rintro rfl
      refine (ok.fresh hi hc ?_).1
      unfold SubCall.thread
      split <;> rfl
    · intro hd
      unfold SubStage at hst
      have he : t.effective = true := by
        unfold SubDone at hd
        split at hd <;> first | rfl | exact hd.elim
      rw [if_pos he] at hst
      obtain ⟨pre, post, e, ht⟩ := hst
      refine ⟨pre, post, e, ?_⟩
      unfold Took at ht
      split at ht
      · exact hd.elim
      · exact ht

theorem split_unique {α : Type} {pre pre' post post' : List α} {a : α} (h : (pre ++ a :: post).Nodup)
    (e : pre ++ a :: post = pre' ++ a :: post') : pre = pre' ∧ post = post' := by
  induction pre generalizing pre' with
  | nil =>
    cases pre' with
    | nil => simp at e; exact ⟨rfl, e⟩
    | cons b pre' =>
      simp only [List.nil_append, List.cons_append, List.cons.injEq] at e
      obtain ⟨rfl, e⟩ := e
      simp [e] at h
  | cons b pre ih =>
    cases pre' with
    | nil =>
      simp only [List.nil_append, List.cons_append, List.cons.injEq] at e
      obtain ⟨rfl, e⟩ := e
      simp at h
    | cons b' pre' =>
      simp only [List.cons_append, List.cons.injEq] at e
      simp only [List.cons_append, List.nodup_cons] at h
      obtain ⟨e1, e2⟩ := ih h.2 e.2
      exact ⟨by rw [e.1, e1], e2⟩

theorem split_takeWhile {pre post : List Nat} {i : Nat} (h : (pre ++ i :: post).Nodup) :
    pre = (pre ++ i :: post).takeWhile (fun j => j != i) := by
  have : ∀ a ∈ pre, (fun j => j != i) a = true := by
    intro a ha
    simp only [bne_iff_ne, ne_eq]
    rintro rfl
    rw [List.nodup_append] at h
    exact h.2.2 a ha a (by simp) rfl
  rw [List.takeWhile_append_of_pos this]
  simp

/-- C93 is false: a session unsubscribes from a key while it subscribes to it, and the subscription is over. When
it unsubscribes again it is told that it was subscribed. -/
theorem C93_false : ¬ C93_Statement := by
  intro h
  obtain ⟨order, hperm, hall⟩ := h [.op (.unsubscribe [1] 1), .op (.subscribe [1] 1), .op (.unsubscribe [1] 1)] (fun _ => 0)
    [0, 1, 1, 0, 2, 2] (by
      have : ((subPool [.op (.unsubscribe [1] 1), .op (.subscribe [1] 1), .op (.unsubscribe [1] 1)]).exec (fun _ => 0)
          [0, 1, 1, 0, 2, 2]).threads = [.unsubscribed true, .subscribed (some 0), .unsubscribed true] := by decide
      rw [this]
      simp [SubDone])
  obtain ⟨pre0, post0, e0, h0⟩ := hall 0 _ (.unsubscribed true) rfl (by decide)
  obtain ⟨pre2, post2, e2, h2⟩ := hall 2 _ (.unsubscribed true) rfl (by decide)
  have h0' := (C62_pubsub_exact _ [1] 1).2.2.1.mpr (h0.mp rfl)
  have h2' := (C62_pubsub_exact _ [1] 1).2.2.1.mpr (h2.mp rfl)
  have hnd : order.Nodup := hperm.nodup_iff.mpr List.nodup_range
  have t0 := split_takeWhile (by rw [← e0]; exact hnd)
  have t2 := split_takeWhile (by rw [← e2]; exact hnd)
  rw [← e0] at t0
  rw [← e2] at t2
  subst t0
  subst t2
  have hlen : order.length = 3 := hperm.length_eq
  have hlt : ∀ a ∈ order, a < 3 := by
    intro a ha
    have := hperm.mem_iff.mp ha
    simpa using this
  match order, hlen with
  | [a, b, c], _ =>
    have ha := hlt a (by simp)
    have hb := hlt b (by simp)
    have hc := hlt c (by simp)
    simp only [List.nodup_cons, List.mem_cons, List.not_mem_nil, or_false, not_or] at hnd
    have ha : a = 0 ∨ a = 1 ∨ a = 2 := by omega
    have hb : b = 0 ∨ b = 1 ∨ b = 2 := by omega
    have hc : c = 0 ∨ c = 1 ∨ c = 2 := by omega
    rcases ha with rfl | rfl | rfl <;> rcases hb with rfl | rfl | rfl <;> rcases hc with rfl | rfl | rfl <;>
      first
      | exact hnd.1.1 rfl
      | exact hnd.1.2 rfl
      | exact hnd.2.1 rfl
      | exact absurd h0' (by decide +kernel)
      | exact absurd h2' (by decide +kernel)

theorem first_subscribe (calls : List SubCall) (h : List Nat) (k : Bytes) (he : EverSubscribed (opsOf calls h) k) :
    ∃ pre i post s, h = pre ++ i :: post ∧ calls[i]? = some (.op (.subscribe k s)) ∧ ¬ EverSubscribed (opsOf calls pre) k := by
  induction h using snoc_ind with
  | h0 => simp [opsOf, EverSubscribed] at he
  | h1 h i ih =>
    by_cases hb : EverSubscribed (opsOf calls h) k
    · obtain ⟨pre, j, post, s, rfl, h1, h2⟩ := ih hb
      exact ⟨pre, j, post ++ [i], s, by simp, h1, h2⟩
    · obtain ⟨s, hs⟩ := he
      rw [opsOf_append, List.mem_append] at hs
      rcases hs with hs | hs
      · exact absurd ⟨s, hs⟩ hb
      · refine ⟨h, i, [], s, rfl, ?_, hb⟩
        unfold opsOf at hs
        rw [List.mem_filterMap] at hs
        obtain ⟨j, hj, e⟩ := hs
        rw [List.mem_singleton] at hj
        subst hj
        cases hc : calls[j]? with
        | none => rw [hc] at e; cases e
        | some c =>
          rw [hc] at e
          cases c with
          | get k s => cases e
          | op o => cases e; rfl

/-- The operation of a listed call is among the operations. -/
theorem mem_opsOf {calls : List SubCall} {h : List Nat} {i : Nat} {o : SubOp} (hi : i ∈ h) (hc : calls[i]? = some (.op o)) :
    o ∈ opsOf calls h := by
  unfold opsOf
  rw [List.mem_filterMap]
  exact ⟨i, hi, by rw [hc]; rfl⟩

/-- C94. However calls are interleaved, at most one `subscribe` to a key is answered with a subscription, and one
is as soon as one has returned. -/
theorem C94_one_subscriber (calls : List SubCall) (shard : UInt32 → Nat) (sched : List Nat) (k : Bytes) :
    (∀ (i j : Nat) s s' a b, calls[i]? = some (.op (.subscribe k s)) → calls[j]? = some (.op (.subscribe k s')) →
      ((subPool calls).exec shard sched).threads[i]? = some (.subscribed (some a)) →
      ((subPool calls).exec shard sched).threads[j]? = some (.subscribed (some b)) → i = j) ∧
    ((∃ (i : Nat) (s : UInt32) (a : Option Nat), calls[i]? = some (.op (.subscribe k s)) ∧
        ((subPool calls).exec shard sched).threads[i]? = some (.subscribed a)) →
      ∃ (i : Nat) (s : UInt32) (a : Nat), calls[i]? = some (.op (.subscribe k s)) ∧
        ((subPool calls).exec shard sched).threads[i]? = some (.subscribed (some a))) := by
  have ok := subRun_ok calls shard sched
  rw [← subRun_exec]
  generalize hrun : subRun calls shard sched = r at ok ⊢
  obtain ⟨p, h⟩ := r
  dsimp only at ok ⊢
  have placed : ∀ (i : Nat) s a, calls[i]? = some (.op (.subscribe k s)) → p.threads[i]? = some (.subscribed a) →
      ∃ pre post, h = pre ++ i :: post ∧ (a.isSome ↔ ¬ EverSubscribed (opsOf calls pre) k) := by
    intro i s a hc hi
    have := ok.stage i _ _ hi hc
    unfold SubStage at this
    rw [if_pos (by rfl)] at this
    exact this
  constructor
  · intro i j s s' a b hci hcj hi hj
    obtain ⟨pre, post, e1, h1⟩ := placed i s _ hci hi
    obtain ⟨pre', post', e2, h2⟩ := placed j s' _ hcj hj
    have h1' := h1.mp rfl
    have h2' := h2.mp rfl
    rw [e1] at e2
    rcases List.append_eq_append_iff.mp e2 with ⟨as, e3, e4⟩ | ⟨as, e3, e4⟩
    · cases as with
      | nil => simp at e4; exact e4.1
      | cons x as =>
        simp only [List.cons_append, List.cons.injEq] at e4
        obtain ⟨rfl, -⟩ := e4
        exact absurd ⟨s, mem_opsOf (by rw [e3]; simp) hci⟩ h2'
    · cases as with
      | nil => simp at e4; exact e4.1.symm
      | cons x as =>
        simp only [List.cons_append, List.cons.injEq] at e4
        obtain ⟨rfl, -⟩ := e4
        exact absurd ⟨s', mem_opsOf (by rw [e3]; simp) hcj⟩ h1'
  · rintro ⟨i, s, a, hc, hi⟩
    obtain ⟨pre, post, e, -⟩ := placed i s a hc hi
    obtain ⟨pre', j, post', s', e', hc', hn⟩ := first_subscribe calls h k ⟨s, mem_opsOf (by rw [e]; simp) hc⟩
    have hlt : j < p.threads.length := by
      rw [ok.len]
      exact (List.getElem?_eq_some_iff.mp hc').1
    have hj := List.getElem?_eq_getElem hlt
    generalize p.threads[j] = t at hj
    have hst := ok.stage j t _ hj hc'
    unfold SubStage at hst
    split at hst
    · obtain ⟨pre2, post2, e2, ht⟩ := hst
      have hu := split_unique (e' ▸ ok.nodup) (e' ▸ e2)
      rw [← hu.1] at ht
      cases t with
      | subscribed b =>
        have hb : b.isSome ↔ ¬ EverSubscribed (opsOf calls pre') k := ht
        cases b with
        | none => exact absurd (hb.mpr hn) (by simp)
        | some b => exact ⟨j, s', b, hc', hj⟩
      | closing l => obtain ⟨s, h, -⟩ := ht; cases h
      | _ => exact ht.elim
    · exact absurd (by rw [e']; simp) hst.1

/-! ## No deadlock -/

theorem subexec_append (shard : UInt32 → Nat) (p : SubPool) (a b : List Nat) :
    p.exec shard (a ++ b) = (p.exec shard a).exec shard b := by
  unfold SubPool.exec
  rw [List.foldl_append]

theorem subDone_iff (t : SubThread) : SubDone t ∨ ¬ SubDone t := by
  cases t <;> simp [SubDone]

/-- A thread that holds a lock, or any thread if none is held, can run to its end alone. -/
theorem run_alone (shard : UInt32 → Nat) (p : SubPool) (i : Nat) (t : SubThread) (hi : p.threads[i]? = some t)
    (hf : t.holds ≠ none ∨ ∀ s, p.free shard s = true) :
    ∃ sched t', SubDone t' ∧ (p.exec shard sched).threads = p.threads.set i t' := by
  have one : ∀ (p : SubPool) (t : SubThread), p.threads[i]? = some t →
      p.stepAt shard i = { threads := p.threads.set i (t.step (p.free shard) p.mgr).1, mgr := (t.step (p.free shard) p.mgr).2 } := by
    intro p t h
    unfold SubPool.stepAt
    rw [h]
  have close : ∀ (l : List Nat) (p : SubPool), p.threads[i]? = some (.closing l) →
      ∃ sched t', SubDone t' ∧ (p.exec shard sched).threads = p.threads.set i t' := by
    intro l
    induction l with
    | nil =>
      intro p hi
      refine ⟨[i], .sessionRemoved true, trivial, ?_⟩
      simp only [SubPool.exec, List.foldl_cons, List.foldl_nil, one p _ hi]
      rfl
    | cons x xs ih =>
      intro p hi
      have e := one p _ hi
      have hi' : (p.stepAt shard i).threads[i]? = some (.closing xs) := by rw [e]; exact set_get_self hi
      obtain ⟨sched, t', h1, h2⟩ := ih _ hi'
      refine ⟨i :: sched, t', h1, ?_⟩
      show ((p.stepAt shard i).exec shard sched).threads = _
      rw [h2, e, List.set_set]
  have after : ∀ (t2 : SubThread) (m : PubSub), t.step (p.free shard) p.mgr = (t2, m) → (p.stepAt shard i).threads = p.threads.set i t2 ∧
      (p.stepAt shard i).threads[i]? = some t2 := by
    intro t2 m e
    rw [one p t hi, e]
    exact ⟨rfl, set_get_self hi⟩
  have done : ∀ (t2 : SubThread) (m : PubSub), t.step (p.free shard) p.mgr = (t2, m) → SubDone t2 →
      ∃ sched t', SubDone t' ∧ (p.exec shard sched).threads = p.threads.set i t' := by
    intro t2 m e hd
    exact ⟨[i], t2, hd, (after t2 m e).1⟩
  have here : SubDone t → ∃ sched t', SubDone t' ∧ (p.exec shard sched).threads = p.threads.set i t' := by
    intro hd
    refine ⟨[], t, hd, ?_⟩
    apply List.ext_getElem?
    intro j
    rw [List.getElem?_set]
    split
    · rename_i e; subst e
      rw [if_pos (List.getElem?_eq_some_iff.mp hi).1]
      exact hi
    · rfl
  cases t with
  | subscribed a => exact here trivial
  | unsubscribed a => exact here trivial
  | got a => exact here trivial
  | sessionRemoved a => exact here trivial
  | closing l => exact close l p hi
  | subscribing k s x => exact done _ _ rfl trivial
  | get k s =>
    have hs := (hf.resolve_left (by simp [SubThread.holds])) s
    exact done (.got (p.mgr.get k s)) p.mgr (by simp only [SubThread.step, hs, if_true]) trivial
  | unsubscribing k s b =>
    have hs := (hf.resolve_left (by simp [SubThread.holds])) s
    exact done (.unsubscribed (b || (p.mgr.unsubscribeSession k s).1)) (p.mgr.unsubscribeSession k s).2 (by simp only [SubThread.step, hs, if_true]) trivial
  | removeSession s =>
    have hs := (hf.resolve_left (by simp [SubThread.holds])) s
    cases hm : p.mgr.sessions s with
    | none => exact done (.sessionRemoved false) p.mgr (by simp only [SubThread.step, hs, if_true, hm]) trivial
    | some m =>
      obtain ⟨a1, a2⟩ := after (.closing (m.map (·.2))) _ (by simp only [SubThread.step, hs, if_true, hm]; rfl)
      obtain ⟨sched, t', h1, h2⟩ := close _ _ a2
      refine ⟨i :: sched, t', h1, ?_⟩
      show ((p.stepAt shard i).exec shard sched).threads = _
      rw [h2, a1, List.set_set]
  | unsubscribe k s =>
    have hs := (hf.resolve_left (by simp [SubThread.holds]))
    obtain ⟨a1, a2⟩ := after (.unsubscribing k s (p.mgr.unsubscribeKey k s).1) _ rfl
    have hfree : (p.stepAt shard i).free shard s = true := by
      have := hs s
      unfold SubPool.free at this ⊢
      rw [List.all_eq_true] at this ⊢
      intro u hu
      rw [a1] at hu
      rcases List.mem_or_eq_of_mem_set hu with hu | rfl
      · exact this u hu
      · rfl
    refine ⟨[i, i], .unsubscribed ((p.mgr.unsubscribeKey k s).1 || ((p.stepAt shard i).mgr.unsubscribeSession k s).1), trivial, ?_⟩
    show ((p.stepAt shard i).stepAt shard i).threads = _
    rw [one _ _ a2]
    simp only [SubThread.step, hfree, if_true, a1, List.set_set]
  | subscribe k s =>
    have hs := (hf.resolve_left (by simp [SubThread.holds])) s
    cases hx : (p.mgr.subscribeSession k s).1 with
    | none =>
      refine done (.subscribed none) (p.mgr.subscribeSession k s).2 ?_ trivial
      simp only [SubThread.step, hs, if_true]
      rw [show p.mgr.subscribeSession k s = (none, (p.mgr.subscribeSession k s).2) from Prod.ext hx rfl]
    | some x =>
      obtain ⟨a1, a2⟩ := after (.subscribing k s x) (p.mgr.subscribeSession k s).2 (by
        simp only [SubThread.step, hs, if_true]
        rw [show p.mgr.subscribeSession k s = (some x, (p.mgr.subscribeSession k s).2) from Prod.ext hx rfl])
      refine ⟨[i, i], .subscribed ((p.stepAt shard i).mgr.subscribeKey k s x).1, trivial, ?_⟩
      show ((p.stepAt shard i).stepAt shard i).threads = _
      rw [one _ _ a2]
      simp only [SubThread.step, a1, List.set_set]

/-- How many calls have not returned. -/
def openCalls : List SubThread → Nat
  | [] => 0
  | .subscribed _ :: ts | .unsubscribed _ :: ts | .got _ :: ts | .sessionRemoved _ :: ts => openCalls ts
  | _ :: ts => openCalls ts + 1

theorem openCalls_zero {ts : List SubThread} (h : openCalls ts = 0) : ∀ t ∈ ts, SubDone t := by
  induction ts with
  | nil => simp
  | cons t ts ih =>
    cases t <;> simp_all [openCalls, SubDone]

theorem openCalls_pos {ts : List SubThread} (h : openCalls ts ≠ 0) : ∃ (i : Nat) (t : SubThread), ts[i]? = some t ∧ ¬ SubDone t := by
  induction ts with
  | nil => exact absurd rfl h
  | cons t ts ih =>
    rcases subDone_iff t with hd | hd
    · have : openCalls ts ≠ 0 := by cases t <;> simp_all [openCalls, SubDone]
      obtain ⟨i, t, h1, h2⟩ := ih this
      exact ⟨i + 1, t, by simpa using h1, h2⟩
    · exact ⟨0, t, rfl, hd⟩

theorem openCalls_set {ts : List SubThread} {i : Nat} {t t' : SubThread} (hi : ts[i]? = some t) (h1 : ¬ SubDone t) (h2 : SubDone t') :
    openCalls (ts.set i t') < openCalls ts := by
  induction ts generalizing i with
  | nil => simp at hi
  | cons u ts ih =>
    cases i with
    | zero =>
      simp only [List.getElem?_cons_zero, Option.some.injEq] at hi
      subst hi
      rw [List.set_cons_zero]
      have e : openCalls (t' :: ts) = openCalls ts := by cases t' <;> simp_all [openCalls, SubDone]
      have e' : openCalls (u :: ts) = openCalls ts + 1 := by cases u <;> simp_all [openCalls, SubDone]
      omega
    | succ i =>
      rw [List.getElem?_cons_succ] at hi
      have := ih hi
      rw [List.set_cons_succ]
      cases u <;> simp only [openCalls] <;> omega

/-- C95. From every state that can be reached, all calls can still be completed. -/
theorem C95_no_deadlock (calls : List SubCall) (shard : UInt32 → Nat) (sched : List Nat) :
    ∃ rest, ∀ t ∈ ((subPool calls).exec shard (sched ++ rest)).threads, SubDone t := by
  have main : ∀ (n : Nat) (p : SubPool), openCalls p.threads = n → ∃ rest, ∀ t ∈ (p.exec shard rest).threads, SubDone t := by
    intro n
    induction n using Nat.strongRecOn with
    | ind n ih =>
      intro p hn
      by_cases h0 : n = 0
      · exact ⟨[], openCalls_zero (by rw [← h0]; exact hn)⟩
      · have : ∃ (i : Nat) (t : SubThread), p.threads[i]? = some t ∧ ¬ SubDone t ∧ (t.holds ≠ none ∨ ∀ s, p.free shard s = true) := by
          by_cases hh : ∃ t ∈ p.threads, t.holds ≠ none
          · obtain ⟨t, ht, hh⟩ := hh
            obtain ⟨i, hi⟩ := List.getElem?_of_mem ht
            refine ⟨i, t, hi, ?_, .inl hh⟩
            cases t <;> simp_all [SubThread.holds, SubDone]
          · obtain ⟨i, t, hi, hd⟩ := openCalls_pos (by rw [hn]; exact h0)
            refine ⟨i, t, hi, hd, .inr ?_⟩
            intro s
            unfold SubPool.free
            rw [List.all_eq_true]
            intro u hu
            cases hu' : u.holds with
            | none => rfl
            | some s' => exact absurd ⟨u, hu, by rw [hu']; simp⟩ hh
        obtain ⟨i, t, hi, hd, hf⟩ := this
        obtain ⟨s1, t', hd', e⟩ := run_alone shard p i t hi hf
        obtain ⟨s2, h2⟩ := ih (openCalls (p.exec shard s1).threads) (by rw [e, ← hn]; exact openCalls_set hi hd hd') _ rfl
        exact ⟨s1 ++ s2, by rw [subexec_append]; exact h2⟩
  obtain ⟨rest, h⟩ := main _ ((subPool calls).exec shard sched) rfl
  exact ⟨rest, by rw [subexec_append]; exact h⟩

/-! ## Subscriptions -/

/-- The session has this subscription for the key. -/
def PubSub.Has (p : PubSub) (s : UInt32) (k : Bytes) (x : Nat) : Prop := ∃ m, p.sessions s = some m ∧ (k, x) ∈ m

/-- What holds of the subscriptions at every moment. -/
structure SubChannels (p : SubPool) : Prop where
  fresh : ∀ s k x, p.mgr.Has s k x → x < p.mgr.made ∧ x ∉ p.mgr.closed
  known : ∀ x ∈ p.mgr.closed, x < p.mgr.made
  apart : ∀ s s' k k' x, p.mgr.Has s k x → p.mgr.Has s' k' x → s = s' ∧ k = k'
  closing : ∀ l, .closing l ∈ p.threads → ∀ x ∈ l, x < p.mgr.made ∧ ∀ s k, ¬ p.mgr.Has s k x

/-- A step that makes no subscription. -/
theorem SubChannels.shrink {p : SubPool} (h : SubChannels p) {i : Nat} {t' : SubThread} {m : PubSub}
    (hm : m.made = p.mgr.made) (hs : ∀ s k x, m.Has s k x → p.mgr.Has s k x)
    (hc : ∀ x ∈ m.closed, x ∈ p.mgr.closed ∨ ∃ l, .closing l ∈ p.threads ∧ x ∈ l)
    (hl : ∀ l, t' = .closing l → ∀ x ∈ l, (∃ l', .closing l' ∈ p.threads ∧ x ∈ l') ∨
      ∃ s k, p.mgr.Has s k x ∧ ¬ m.Has s k x) :
    SubChannels { threads := p.threads.set i t', mgr := m } := by
  refine ⟨?_, ?_, ?_, ?_⟩
  · intro s k x hx
    have hx' := hs s k x hx
    obtain ⟨h1, h2⟩ := h.fresh s k x hx'
    refine ⟨by rw [hm]; exact h1, ?_⟩
    intro hx2
    rcases hc x hx2 with h3 | ⟨l, h3, h4⟩
    · exact h2 h3
    · exact (h.closing l h3 x h4).2 s k hx'
  · intro x hx
    dsimp only
    rw [hm]
    rcases hc x hx with h3 | ⟨l, h3, h4⟩
    · exact h.known x h3
    · exact (h.closing l h3 x h4).1
  · intro s s' k k' x h1 h2
    exact h.apart s s' k k' x (hs _ _ _ h1) (hs _ _ _ h2)
  · intro l hl' x hx
    dsimp only
    have old : (∃ l', .closing l' ∈ p.threads ∧ x ∈ l') → x < m.made ∧ ∀ s k, ¬ m.Has s k x := by
      rintro ⟨l', h3, h4⟩
      obtain ⟨a, b⟩ := h.closing l' h3 x h4
      exact ⟨by rw [hm]; exact a, fun s k h5 => b s k (hs s k x h5)⟩
    rcases List.mem_or_eq_of_mem_set hl' with h1 | h1
    · exact old ⟨l, h1, hx⟩
    · rcases hl l h1.symm x hx with h2 | ⟨s, k, h2, h3⟩
      · exact old h2
      · refine ⟨by rw [hm]; exact (h.fresh s k x h2).1, ?_⟩
        intro s' k' h4
        obtain ⟨rfl, rfl⟩ := h.apart s s' k k' x h2 (hs _ _ _ h4)
        exact h3 h4

theorem has_of_sessions {p q : PubSub} (h : q.sessions = p.sessions) (s : UInt32) (k : Bytes) (x : Nat) (hx : q.Has s k x) : p.Has s k x := by
  unfold PubSub.Has at *; rw [h] at hx; exact hx

theorem SubChannels.step {p : SubPool} (h : SubChannels p) (shard : UInt32 → Nat) (i : Nat) : SubChannels (p.stepAt shard i) := by
  unfold SubPool.stepAt
  cases hi : p.threads[i]? with
  | none => exact h
  | some t =>
    have hmem : t ∈ p.threads := List.mem_of_getElem? hi
    have stay : ∀ t', (∀ l, t' = .closing l → t' = t) → SubChannels { threads := p.threads.set i t', mgr := p.mgr } := by
      intro t' ht
      refine h.shrink rfl (fun _ _ _ h => h) (fun x hx => .inl hx) ?_
      intro l hl x hx
      refine .inl ⟨l, ?_, hx⟩
      rw [← hl, ht l hl]
      exact hmem
    cases t with
    | subscribed a => exact stay _ (by simp)
    | unsubscribed a => exact stay _ (by simp)
    | got a => exact stay _ (by simp)
    | sessionRemoved a => exact stay _ (by simp)
    | closing l =>
      cases l with
      | nil => exact stay _ (by simp)
      | cons x xs =>
        refine h.shrink rfl (fun _ _ _ h => h) ?_ ?_
        · intro y hy
          rcases List.mem_cons.mp hy with rfl | hy
          · exact .inr ⟨_, hmem, by simp⟩
          · exact .inl hy
        · intro l hl y hy
          cases hl
          exact .inl ⟨_, hmem, by simp [hy]⟩
    | get k s =>
      simp only [SubThread.step]
      split
      · exact stay _ (by simp)
      · exact stay _ (by simp)
    | unsubscribe k s =>
      refine h.shrink ?_ (has_of_sessions (get_unsubscribeKey _ _ _)) ?_ (by simp [SubThread.step])
      · show (p.mgr.unsubscribeKey k s).2.made = _; unfold PubSub.unsubscribeKey; split <;> rfl
      · intro x hx
        unfold PubSub.unsubscribeKey at hx
        split at hx <;> exact .inl hx
    | subscribing k s x =>
      refine h.shrink ?_ (has_of_sessions (get_subscribeKey _ _ _ _)) ?_ (by simp [SubThread.step])
      · show (p.mgr.subscribeKey k s x).2.made = _; unfold PubSub.subscribeKey; split <;> rfl
      · intro x hx
        unfold PubSub.subscribeKey at hx
        split at hx <;> exact .inl hx
    | unsubscribing k s b =>
      simp only [SubThread.step]
      split
      · refine h.shrink ?_ ?_ ?_ (by simp)
        · unfold PubSub.unsubscribeSession; split <;> rfl
        · intro s' k' x
          unfold PubSub.unsubscribeSession
          split
          · exact id
          · rename_i m hm
            rintro ⟨m', h1, h2⟩
            dsimp only at h1
            by_cases e : s' = s
            · rw [if_pos e] at h1
              cases h1
              exact ⟨m, by rw [e]; exact hm, (List.mem_filter.mp h2).1⟩
            · rw [if_neg e] at h1
              exact ⟨m', h1, h2⟩
        · intro x hx
          unfold PubSub.unsubscribeSession at hx
          split at hx <;> exact .inl hx
      · exact stay _ (by simp)
    | removeSession s =>
      simp only [SubThread.step]
      split
      · cases hm : p.mgr.sessions s with
        | none => exact stay _ (by simp)
        | some m =>
          dsimp only
          have gone : ∀ k x, ¬ PubSub.Has { p.mgr with sessions := fun i => if i = s then none else p.mgr.sessions i } s k x := by
            rintro k x ⟨m', h1, -⟩
            simp at h1
          refine h.shrink rfl ?_ (fun x hx => .inl hx) ?_
          · rintro s' k' x ⟨m', h1, h2⟩
            dsimp only at h1
            by_cases e : s' = s
            · rw [if_pos e] at h1; cases h1
            · rw [if_neg e] at h1; exact ⟨m', h1, h2⟩
          · intro l hl x hx
            cases hl
            obtain ⟨⟨k, y⟩, h1, rfl⟩ := List.mem_map.mp hx
            exact .inr ⟨s, k, ⟨m, hm, h1⟩, gone _ _⟩
      · exact stay _ (by simp)
    | subscribe k s =>
      simp only [SubThread.step]
      split
      · cases hx : (p.mgr.sessions s).getD [] |>.lookup k with
        | some y =>
          have e : p.mgr.subscribeSession k s = (none, { p.mgr with sessions := fun s' => if s' = s then some ((p.mgr.sessions s).getD []) else p.mgr.sessions s' }) := by
            unfold PubSub.subscribeSession
            dsimp only
            rw [hx]
          rw [e]
          refine h.shrink rfl ?_ (fun x hx => .inl hx) (by simp)
          rintro s' k' x ⟨m', h1, h2⟩
          dsimp only at h1
          by_cases e : s' = s
          · rw [if_pos e] at h1
            cases h1
            cases hm : p.mgr.sessions s with
            | none => rw [hm] at h2; simp at h2
            | some m => rw [hm] at h2; exact ⟨m, by rw [e]; exact hm, h2⟩
          · rw [if_neg e] at h1; exact ⟨m', h1, h2⟩
        | none =>
          have e : p.mgr.subscribeSession k s = (some p.mgr.made, { p.mgr with
              sessions := fun s' => if s' = s then some ((p.mgr.sessions s).getD [] ++ [(k, p.mgr.made)]) else p.mgr.sessions s',
              made := p.mgr.made + 1 }) := by
            unfold PubSub.subscribeSession
            dsimp only
            rw [hx]
          rw [e]
          dsimp only
          have has : ∀ s' k' x, PubSub.Has { p.mgr with
              sessions := fun s' => if s' = s then some ((p.mgr.sessions s).getD [] ++ [(k, p.mgr.made)]) else p.mgr.sessions s',
              made := p.mgr.made + 1 } s' k' x → p.mgr.Has s' k' x ∨ (s' = s ∧ k' = k ∧ x = p.mgr.made) := by
            rintro s' k' x ⟨m', h1, h2⟩
            dsimp only at h1
            by_cases e : s' = s
            · rw [if_pos e] at h1
              cases h1
              rcases List.mem_append.mp h2 with h2 | h2
              · cases hm : p.mgr.sessions s with
                | none => rw [hm] at h2; simp at h2
                | some m => rw [hm] at h2; exact .inl ⟨m, by rw [e]; exact hm, h2⟩
              · simp at h2; exact .inr ⟨e, h2.1, h2.2⟩
            · rw [if_neg e] at h1; exact .inl ⟨m', h1, h2⟩
          refine ⟨?_, ?_, ?_, ?_⟩
          · intro s' k' x h1
            dsimp only
            rcases has s' k' x h1 with h1 | ⟨-, -, rfl⟩
            · obtain ⟨a, b⟩ := h.fresh s' k' x h1
              exact ⟨by omega, b⟩
            · exact ⟨by omega, fun h2 => absurd (h.known _ h2) (by omega)⟩
          · intro x h1
            have := h.known x h1
            dsimp only
            omega
          · intro s1 s2 k1 k2 x h1 h2
            rcases has _ _ _ h1 with h1' | ⟨rfl, rfl, rfl⟩ <;> rcases has _ _ _ h2 with h2' | ⟨rfl, rfl, e2⟩
            · exact h.apart _ _ _ _ _ h1' h2'
            · have := (h.fresh _ _ _ h1').1; omega
            · have := (h.fresh _ _ _ h2').1; omega
            · exact ⟨rfl, rfl⟩
          · intro l hl x hx2
            rcases List.mem_or_eq_of_mem_set hl with hl | hl
            · obtain ⟨a, b⟩ := h.closing l hl x hx2
              refine ⟨by dsimp only; omega, ?_⟩
              intro s' k' h1
              rcases has _ _ _ h1 with h1 | ⟨-, -, rfl⟩
              · exact b _ _ h1
              · omega
            · cases hl
      · exact stay _ (by simp)

theorem subChannels_ok (calls : List SubCall) (shard : UInt32 → Nat) (sched : List Nat) :
    SubChannels ((subPool calls).exec shard sched) := by
  induction sched using snoc_ind with
  | h0 =>
    refine ⟨?_, ?_, ?_, ?_⟩
    · rintro s k x ⟨m, h1, -⟩; cases h1
    · intro x hx; cases hx
    · rintro s s' k k' x ⟨m, h1, -⟩; cases h1
    · intro l hl
      simp only [SubPool.exec, List.foldl_nil, subPool, List.mem_map] at hl
      obtain ⟨c, -, hc⟩ := hl
      unfold SubCall.thread at hc
      split at hc <;> cases hc
  | h1 sched i ih =>
    rw [subexec_append]
    exact ih.step shard i

/-- C96. At every moment a subscription that `get` would find is open, and belongs to no other session and no
other key. -/
theorem C96_open_and_apart (calls : List SubCall) (shard : UInt32 → Nat) (sched : List Nat) (k : Bytes) (s : UInt32) (x : Nat)
    (hx : ((subPool calls).exec shard sched).mgr.get k s = some x) :
    x ∉ ((subPool calls).exec shard sched).mgr.closed ∧
    ∀ k' s', ((subPool calls).exec shard sched).mgr.get k' s' = some x → k' = k ∧ s' = s := by
  have ok := subChannels_ok calls shard sched
  have has := get_mem hx
  refine ⟨(ok.fresh s k x has).2, ?_⟩
  intro k' s' hx'
  obtain ⟨a, b⟩ := ok.apart s' s k' k x (get_mem hx') has
  exact ⟨b, a⟩

/-- Beside C93 to C96: two sessions subscribe to the same key at the same time; the one that started later is
answered with the subscription. -/
example : ((subPool [.op (.subscribe [7] 1), .op (.subscribe [7] 2), .get [7] 1]).exec (fun s => s.toNat) [0, 1, 2, 1, 0, 2]).threads =
    [.subscribed none, .subscribed (some 1), .got (some 0)] := by
  decide

/-- Two sessions with a subscription each. -/
example : 0 ∉ ((subPool [.op (.subscribe [7] 1), .op (.subscribe [7] 2)]).exec (fun s => s.toNat) [0, 1, 1, 0]).mgr.closed ∧
    ∀ k' s', ((subPool [.op (.subscribe [7] 1), .op (.subscribe [7] 2)]).exec (fun s => s.toNat) [0, 1, 1, 0]).mgr.get k' s' = some 0 →
      k' = [7] ∧ s' = 1 :=
  C96_open_and_apart _ _ _ [7] 1 0 (by decide)

end Hop
