import Verif.Spec.Handles
import Verif.Props.PubSubThreads

/-! # C130 to C132: subscriptions in the hands of users -/

namespace Hop

open Spec

/-! ## Pointers that belong to the manager and to threads in its functions -/

/-- The subscriptions a thread has taken out of the maps and has yet to close. -/
def SubThread.taken : SubThread → List Nat
  | .closing l => l
  | _ => []

/-- The same for all threads. -/
def takens (ts : List SubThread) : List Nat := ts.flatMap SubThread.taken

theorem mem_takens {ts : List SubThread} {x : Nat} : x ∈ takens ts ↔ ∃ l, .closing l ∈ ts ∧ x ∈ l := by
  unfold takens
  rw [List.mem_flatMap]
  constructor
  · rintro ⟨t, h1, h2⟩
    cases t with
    | closing l => exact ⟨l, h1, h2⟩
    | _ => cases h2
  · rintro ⟨l, h1, h2⟩
    exact ⟨_, h1, h2⟩

theorem takens_set {ts : List SubThread} {i : Nat} {t : SubThread} (hi : ts[i]? = some t) :
    ∃ a b, takens ts = a ++ t.taken ++ b ∧ ∀ t', takens (ts.set i t') = a ++ SubThread.taken t' ++ b := by
  obtain ⟨hlt, he⟩ := List.getElem?_eq_some_iff.mp hi
  refine ⟨takens (ts.take i), takens (ts.drop (i + 1)), ?_, ?_⟩
  · conv => lhs; rw [← List.take_append_drop i ts, List.drop_eq_getElem_cons hlt, he]
    simp [takens]
  · intro t'
    rw [List.set_eq_take_append_cons_drop, if_pos hlt]
    simp [takens]

/-- The manager or a thread in one of its functions has a pointer to the subscription. -/
def Kept (p : SubPool) (x : Nat) : Prop := (∃ s k, p.mgr.Has s k x) ∨ x ∈ takens p.threads

/-- What holds of the maps and of the subscriptions taken out of them. -/
structure Maps (p : SubPool) : Prop where
  chan : SubChannels p
  keys : ∀ s m, p.mgr.sessions s = some m → (m.map Prod.fst).Nodup
  apart : (takens p.threads).Nodup

theorem lookup_of_mem {m : SubMap} {k : Bytes} {x : Nat} (hn : (m.map Prod.fst).Nodup) (h : (k, x) ∈ m) :
    m.lookup k = some x := by
  induction m with
  | nil => cases h
  | cons e m ih =>
    obtain ⟨a, y⟩ := e
    rw [List.map_cons, List.nodup_cons] at hn
    rcases List.mem_cons.mp h with h1 | h1
    · cases h1; simp [List.lookup]
    · have : (k == a) = false := by
        apply beq_eq_false_iff_ne.mpr
        rintro rfl
        exact hn.1 (List.mem_map.mpr ⟨_, h1, rfl⟩)
      simp only [List.lookup, this]
      exact ih hn.2 h1

theorem Maps.get {p : SubPool} (h : Maps p) {s : UInt32} {k : Bytes} {x : Nat} : p.mgr.get k s = some x ↔ p.mgr.Has s k x := by
  constructor
  · exact get_mem
  · rintro ⟨m, h1, h2⟩
    unfold PubSub.get
    rw [h1]
    exact lookup_of_mem (h.keys s m h1) h2

theorem Maps.values {p : SubPool} (h : Maps p) {s : UInt32} {m : SubMap} (hm : p.mgr.sessions s = some m) :
    (m.map Prod.snd).Nodup := by
  have hk := h.keys s m hm
  have ha : ∀ k k' x, (k, x) ∈ m → (k', x) ∈ m → k = k' := fun k k' x h1 h2 =>
    (h.chan.apart s s k k' x ⟨m, hm, h1⟩ ⟨m, hm, h2⟩).2
  clear hm h
  induction m with
  | nil => simp
  | cons e m ih =>
    rw [List.map_cons, List.nodup_cons] at hk ⊢
    refine ⟨?_, ih hk.2 fun k k' x h1 h2 => ha k k' x (List.mem_cons_of_mem _ h1) (List.mem_cons_of_mem _ h2)⟩
    intro hx
    obtain ⟨⟨k, y⟩, h1, h2⟩ := List.mem_map.mp hx
    obtain ⟨k', y'⟩ := e
    dsimp only at h2
    subst h2
    have := ha k k' y (List.mem_cons_of_mem _ h1) (List.mem_cons_self ..)
    subst this
    exact hk.1 (List.mem_map.mpr ⟨_, h1, rfl⟩)

/-- What a step of a call does to the pointers. -/
def Moves (p q : SubPool) : SubEffect → Prop
  | .nothing => q.mgr.made = p.mgr.made ∧ ∀ y, Kept q y ↔ Kept p y
  | .makes x => x = p.mgr.made ∧ q.mgr.made = p.mgr.made + 1 ∧ ∀ y, Kept q y ↔ Kept p y ∨ y = x
  | .drops x | .closes x => q.mgr.made = p.mgr.made ∧ Kept p x ∧ ∀ y, Kept q y ↔ Kept p y ∧ y ≠ x

theorem Kept.known {p : SubPool} (h : SubChannels p) {x : Nat} (hx : Kept p x) : x < p.mgr.made := by
  rcases hx with ⟨s, k, hx⟩ | hx
  · exact (h.fresh s k x hx).1
  · obtain ⟨l, h1, h2⟩ := mem_takens.mp hx
    exact (h.closing l h1 x h2).1

theorem Maps.step {p : SubPool} (h : Maps p) (shard : UInt32 → Nat) {i : Nat} {t : SubThread} (hi : p.threads[i]? = some t) :
    Maps (p.stepAt shard i) ∧ Moves p (p.stepAt shard i) (t.effect (p.free shard) p.mgr) := by
  have hc := h.chan.step shard i
  obtain ⟨a, b, ht, hset⟩ := takens_set hi
  have hn := h.apart
  rw [ht] at hn
  have he : p.stepAt shard i = { threads := p.threads.set i (t.step (p.free shard) p.mgr).1, mgr := (t.step (p.free shard) p.mgr).2 } := by
    unfold SubPool.stepAt; rw [hi]
  rw [he] at hc ⊢
  have quiet : ∀ t' m, t'.taken = t.taken → m.made = p.mgr.made →
      (∀ s, m.sessions s = p.mgr.sessions s ∨ (p.mgr.sessions s = none ∧ m.sessions s = some [])) →
      SubChannels { threads := p.threads.set i t', mgr := m } →
      Maps { threads := p.threads.set i t', mgr := m } ∧ Moves p { threads := p.threads.set i t', mgr := m } .nothing := by
    intro t' m h1 h2 h3 hc
    have has : ∀ s k x, m.Has s k x ↔ p.mgr.Has s k x := by
      intro s k x
      unfold PubSub.Has
      rcases h3 s with h3 | ⟨h3, h4⟩
      · rw [h3]
      · rw [h3, h4]; simp
    refine ⟨⟨hc, ?_, ?_⟩, h2, ?_⟩
    · intro s m' hm
      rcases h3 s with h3 | ⟨h3, h4⟩
      · exact h.keys s m' (h3 ▸ hm)
      · dsimp only at hm; rw [h4] at hm; cases hm; simp
    · dsimp only; rw [hset, h1]; exact hn
    · intro y
      unfold Kept
      dsimp only
      rw [hset, h1, ← ht]
      simp only [has]
  cases t with
  | subscribed a => exact quiet _ _ rfl rfl (fun _ => .inl rfl) hc
  | unsubscribed a => exact quiet _ _ rfl rfl (fun _ => .inl rfl) hc
  | got a => exact quiet _ _ rfl rfl (fun _ => .inl rfl) hc
  | sessionRemoved a => exact quiet _ _ rfl rfl (fun _ => .inl rfl) hc
  | get k s =>
    simp only [SubThread.step] at hc ⊢
    split at hc
    · rw [if_pos ‹_›]; exact quiet _ _ rfl rfl (fun _ => .inl rfl) hc
    · rw [if_neg ‹_›]; exact quiet _ _ rfl rfl (fun _ => .inl rfl) hc
  | unsubscribe k s =>
    refine quiet _ _ rfl ?_ ?_ hc
    · show (p.mgr.unsubscribeKey k s).2.made = _; unfold PubSub.unsubscribeKey; split <;> rfl
    · intro s'
      left
      show (p.mgr.unsubscribeKey k s).2.sessions s' = _
      rw [get_unsubscribeKey]
  | subscribing k s x =>
    refine quiet _ _ rfl ?_ ?_ hc
    · show (p.mgr.subscribeKey k s x).2.made = _; unfold PubSub.subscribeKey; split <;> rfl
    · intro s'
      left
      show (p.mgr.subscribeKey k s x).2.sessions s' = _
      rw [get_subscribeKey]
  | closing l =>
    cases l with
    | nil => exact quiet _ _ rfl rfl (fun _ => .inl rfl) hc
    | cons x xs =>
      have hx : .closing (x :: xs) ∈ p.threads := List.mem_of_getElem? hi
      have hlist := (h.chan.closing _ hx x (by simp)).2
      simp only [SubThread.taken] at hn ht
      refine ⟨⟨hc, h.keys, ?_⟩, rfl, .inr (mem_takens.mpr ⟨_, hx, by simp⟩), ?_⟩
      · dsimp only [SubThread.step]
        rw [hset]
        simp only [SubThread.taken]
        refine List.Nodup.sublist ?_ hn
        simp
      · intro y
        unfold Kept
        dsimp only [SubThread.step]
        rw [hset, ht]
        simp only [SubThread.taken]
        have hx1 : x ∉ a ++ xs ++ b := by
          rw [List.append_assoc, List.cons_append] at hn
          have := (List.perm_middle (a := x) (l₁ := a) (l₂ := xs ++ b)).nodup_iff.mp hn
          rw [← List.append_assoc] at this
          exact (List.nodup_cons.mp this).1
        have hmgr : ∀ s k, PubSub.Has { p.mgr with closed := x :: p.mgr.closed } s k y ↔ p.mgr.Has s k y := fun _ _ => Iff.rfl
        by_cases e : y = x
        · subst e
          simp only [hmgr, hlist]
          simp only [List.append_assoc] at hx1 ⊢
          simp [hx1]
        · simp only [hmgr]
          simp [e]
  | unsubscribing k s b' =>
    simp only [SubThread.step, SubThread.effect] at hc ⊢
    split at hc
    · rename_i hf
      rw [if_pos hf, if_pos hf]
      cases hm : p.mgr.sessions s with
      | none =>
        have hg : p.mgr.get k s = none := by unfold PubSub.get; rw [hm]
        have hu : p.mgr.unsubscribeSession k s = (false, p.mgr) := by unfold PubSub.unsubscribeSession; rw [hm]
        rw [hg]
        rw [hu] at hc ⊢
        exact quiet _ _ rfl rfl (fun _ => .inl rfl) hc
      | some m =>
        have hg : p.mgr.get k s = m.lookup k := by unfold PubSub.get; rw [hm]
        have hu : p.mgr.unsubscribeSession k s = ((m.lookup k).isSome,
            { p.mgr with sessions := fun s' => if s' = s then some (m.filter (fun e => e.1 != k)) else p.mgr.sessions s' }) := by
          unfold PubSub.unsubscribeSession; rw [hm]
        rw [hg]
        rw [hu] at hc ⊢
        have hk : ∀ s' m', (if s' = s then some (m.filter (fun e => e.1 != k)) else p.mgr.sessions s') = some m' → (m'.map Prod.fst).Nodup := by
          intro s' m' h1
          split at h1
          · cases h1
            exact List.Nodup.sublist (List.Sublist.map _ List.filter_sublist) (h.keys s m hm)
          · exact h.keys s' m' h1
        have has : ∀ s' k' x, PubSub.Has { p.mgr with sessions := fun s' => if s' = s then some (m.filter (fun e => e.1 != k)) else p.mgr.sessions s' } s' k' x ↔
            p.mgr.Has s' k' x ∧ ¬ (s' = s ∧ k' = k) := by
          intro s' k' x
          unfold PubSub.Has
          dsimp only
          by_cases e : s' = s
          · subst e; simp [hm]
          · simp [e]
        have hmaps : Maps { threads := p.threads.set i (.unsubscribed (b' || (m.lookup k).isSome)), mgr := { p.mgr with sessions := fun s' => if s' = s then some (m.filter (fun e => e.1 != k)) else p.mgr.sessions s' } } := by
          refine ⟨hc, hk, ?_⟩
          dsimp only
          rw [hset]
          exact hn
        refine ⟨hmaps, ?_⟩
        cases hl : m.lookup k with
        | none =>
          refine ⟨rfl, ?_⟩
          intro y
          unfold Kept
          simp only [has]
          rw [hset, ht]
          simp only [SubThread.taken]
          have : ∀ s' k', p.mgr.Has s' k' y → ¬ (s' = s ∧ k' = k) := by
            rintro s' k' h1 ⟨rfl, rfl⟩
            rw [h.get.symm, hg, hl] at h1
            cases h1
          constructor
          · rintro (⟨s', k', h1, -⟩ | h1)
            · exact .inl ⟨s', k', h1⟩
            · exact .inr h1
          · rintro (⟨s', k', h1⟩ | h1)
            · exact .inl ⟨s', k', h1, this _ _ h1⟩
            · exact .inr h1
        | some x =>
          have hx : p.mgr.Has s k x := h.get.mp (by rw [hg, hl])
          refine ⟨rfl, .inl ⟨s, k, hx⟩, ?_⟩
          intro y
          unfold Kept
          simp only [has]
          rw [hset, ht]
          simp only [SubThread.taken]
          constructor
          · rintro (⟨s', k', h1, h2⟩ | h1)
            · refine ⟨.inl ⟨s', k', h1⟩, ?_⟩
              rintro rfl
              exact h2 (h.chan.apart _ _ _ _ _ h1 hx)
            · refine ⟨.inr h1, ?_⟩
              rintro rfl
              obtain ⟨l, h2, h3⟩ := mem_takens.mp (by rw [ht]; exact h1)
              exact (h.chan.closing l h2 y h3).2 s k hx
          · rintro ⟨⟨s', k', h1⟩ | h1, h2⟩
            · refine .inl ⟨s', k', h1, ?_⟩
              rintro ⟨rfl, rfl⟩
              rw [h.get.symm, hg, hl] at h1
              cases h1
              exact h2 rfl
            · exact .inr h1
    · rename_i hf
      rw [if_neg hf, if_neg hf]
      exact quiet _ _ rfl rfl (fun _ => .inl rfl) hc
  | removeSession s =>
    simp only [SubThread.step, SubThread.effect] at hc ⊢
    split at hc
    · rename_i hf
      rw [if_pos hf]
      cases hm : p.mgr.sessions s with
      | none =>
        rw [hm] at hc
        exact quiet _ _ rfl rfl (fun _ => .inl rfl) hc
      | some m =>
        rw [hm] at hc
        dsimp only at hc ⊢
        have has : ∀ s' k' x, PubSub.Has { p.mgr with sessions := fun s' => if s' = s then none else p.mgr.sessions s' } s' k' x ↔
            p.mgr.Has s' k' x ∧ s' ≠ s := by
          intro s' k' x
          unfold PubSub.Has
          dsimp only
          by_cases e : s' = s
          · subst e; simp
          · simp [e]
        simp only [SubThread.taken, List.append_nil] at hn ht
        refine ⟨⟨hc, ?_, ?_⟩, rfl, ?_⟩
        · intro s' m' h1
          dsimp only at h1
          split at h1
          · cases h1
          · exact h.keys s' m' h1
        · dsimp only
          rw [hset]
          simp only [SubThread.taken]
          have hd : ∀ x, x ∈ m.map Prod.snd → x ∉ a ++ b := by
            intro x h1 h2
            rw [← ht] at h2
            obtain ⟨l, h3, h4⟩ := mem_takens.mp h2
            obtain ⟨⟨k, y⟩, h5, rfl⟩ := List.mem_map.mp h1
            exact (h.chan.closing l h3 y h4).2 s k ⟨m, hm, h5⟩
          have hv := h.values hm
          rw [List.append_assoc, List.nodup_append] at *
          simp only [List.nodup_append, List.mem_append] at *
          refine ⟨hn.1, ⟨hv, hn.2.1, ?_⟩, ?_⟩
          · rintro x h1 y h2 rfl
            exact hd x h1 (.inr h2)
          · rintro x h1 y h2 rfl
            rcases h2 with h2 | h2
            · exact hd x h2 (.inl h1)
            · exact hn.2.2 x h1 x h2 rfl
        · intro y
          unfold Kept
          simp only [has]
          rw [hset, ht]
          simp only [SubThread.taken]
          constructor
          · rintro (⟨s', k', h1, -⟩ | h1)
            · exact .inl ⟨s', k', h1⟩
            · simp only [List.mem_append] at h1 ⊢
              rcases h1 with (h1 | h1) | h1
              · exact .inr (.inl h1)
              · obtain ⟨⟨k, y⟩, h5, rfl⟩ := List.mem_map.mp h1
                exact .inl ⟨s, k, m, hm, h5⟩
              · exact .inr (.inr h1)
          · rintro (⟨s', k', h1⟩ | h1)
            · by_cases e : s' = s
              · obtain ⟨m', h2, h3⟩ := h1
                rw [e, hm] at h2
                cases h2
                refine .inr ?_
                simp only [List.mem_append]
                exact .inl (.inr (List.mem_map.mpr ⟨_, h3, rfl⟩))
              · exact .inl ⟨s', k', h1, e⟩
            · refine .inr ?_
              simp only [List.mem_append] at h1 ⊢
              rcases h1 with h1 | h1
              · exact .inl (.inl h1)
              · exact .inr h1
    · rename_i hf
      rw [if_neg hf]
      exact quiet _ _ rfl rfl (fun _ => .inl rfl) hc
  | subscribe k s =>
    simp only [SubThread.step, SubThread.effect] at hc ⊢
    split at hc
    · rename_i hf
      rw [if_pos hf, if_pos hf]
      cases hx : ((p.mgr.sessions s).getD []).lookup k with
      | some y =>
        have e : p.mgr.subscribeSession k s = (none, { p.mgr with sessions := fun s' => if s' = s then some ((p.mgr.sessions s).getD []) else p.mgr.sessions s' }) := by
          unfold PubSub.subscribeSession
          dsimp only
          rw [hx]
        rw [e] at hc ⊢
        refine quiet _ _ rfl rfl ?_ hc
        intro s'
        dsimp only
        by_cases e : s' = s
        · subst e
          cases hm : p.mgr.sessions s' with
          | none => simp
          | some m => simp
        · simp [e]
      | none =>
        have e : p.mgr.subscribeSession k s = (some p.mgr.made, { p.mgr with
            sessions := fun s' => if s' = s then some ((p.mgr.sessions s).getD [] ++ [(k, p.mgr.made)]) else p.mgr.sessions s',
            made := p.mgr.made + 1 }) := by
          unfold PubSub.subscribeSession
          dsimp only
          rw [hx]
        rw [e] at hc ⊢
        dsimp only at hc ⊢
        have has : ∀ s' k' x, PubSub.Has { p.mgr with
            sessions := fun s' => if s' = s then some ((p.mgr.sessions s).getD [] ++ [(k, p.mgr.made)]) else p.mgr.sessions s',
            made := p.mgr.made + 1 } s' k' x ↔ p.mgr.Has s' k' x ∨ (s' = s ∧ k' = k ∧ x = p.mgr.made) := by
          intro s' k' x
          unfold PubSub.Has
          dsimp only
          by_cases e : s' = s
          · subst e
            cases hm : p.mgr.sessions s' with
            | none => simp
            | some m => simp
          · simp [e]
        refine ⟨⟨hc, ?_, ?_⟩, rfl, rfl, ?_⟩
        · intro s' m' h1
          dsimp only at h1
          split at h1
          · cases h1
            rw [List.map_append, List.nodup_append]
            have hk : ((((p.mgr.sessions s).getD [])).map Prod.fst).Nodup := by
              cases hm : p.mgr.sessions s with
              | none => simp
              | some m => exact h.keys s m hm
            refine ⟨hk, by simp, ?_⟩
            rintro x h1 y h2 rfl
            simp only [List.map_cons, List.map_nil, List.mem_singleton] at h2
            subst h2
            obtain ⟨⟨k', z⟩, h3, h4⟩ := List.mem_map.mp h1
            dsimp only at h4
            subst h4
            rw [lookup_of_mem hk h3] at hx
            cases hx
          · exact h.keys s' m' h1
        · dsimp only
          rw [hset]
          exact hn
        · intro y
          unfold Kept
          simp only [has]
          rw [hset, ht]
          simp only [SubThread.taken]
          constructor
          · rintro (⟨s', k', h1 | ⟨-, -, h1⟩⟩ | h1)
            · exact .inl (.inl ⟨s', k', h1⟩)
            · exact .inr h1
            · exact .inl (.inr h1)
          · rintro ((⟨s', k', h1⟩ | h1) | h1)
            · exact .inl ⟨s', k', .inl h1⟩
            · exact .inr h1
            · exact .inl ⟨s, k, .inr ⟨rfl, rfl, h1⟩⟩
    · rename_i hf
      rw [if_neg hf, if_neg hf]
      exact quiet _ _ rfl rfl (fun _ => .inl rfl) hc

/-! ## The counts -/

open Classical in
/-- 1 for the pointer of the manager or of a thread in its functions. -/
noncomputable def keptCount (p : SubPool) (x : Nat) : Nat := if Kept p x then 1 else 0

/-- The counts of a subscription that has been made: every pointer and every end belongs to somebody. -/
structure CellOk (n : Nat) (c : SubCell) (h : Holding) : Prop where
  strong : c.strong = n + h.pointers
  senders : c.senders = min c.strong 1 + h.senders
  receivers : c.receivers = min c.strong 1 + h.receivers
  shut : c.senders = 0 ∨ c.receivers = 0 → c.closed = true

/-- One of the channel's ends is gone. -/
def SubCell.bare (c : SubCell) : Prop := c.senders = 0 ∨ c.receivers = 0

theorem CellOk.dropSender {n : Nat} {c : SubCell} {h : Holding} (ok : CellOk n c h) (hp : h.senders ≠ 0) :
    CellOk n c.dropSender { h with senders := h.senders - 1 } ∧
    (c.dropSender.closed = true ↔ c.closed = true ∨ c.dropSender.bare) := by
  obtain ⟨h1, h2, h3, h4⟩ := ok
  refine ⟨⟨h1, ?_, h3, ?_⟩, ?_⟩
  · show c.senders - 1 = _; simp only [SubCell.dropSender]; omega
  · intro hb
    simp only [SubCell.dropSender] at hb ⊢
    rcases hb with hb | hb
    · have : c.senders = 1 := by omega
      simp [this]
    · simp [h4 (.inr hb)]
  · simp only [SubCell.dropSender, SubCell.bare, Bool.or_eq_true, beq_iff_eq]
    constructor
    · rintro (h | h)
      · exact .inl h
      · exact .inr (.inl (by omega))
    · rintro (h | h | h)
      · exact .inl h
      · exact .inr (by omega)
      · exact .inl (h4 (.inr h))

theorem CellOk.dropReceiver {n : Nat} {c : SubCell} {h : Holding} (ok : CellOk n c h) (hp : h.receivers ≠ 0) :
    CellOk n c.dropReceiver { h with receivers := h.receivers - 1 } ∧
    (c.dropReceiver.closed = true ↔ c.closed = true ∨ c.dropReceiver.bare) := by
  obtain ⟨h1, h2, h3, h4⟩ := ok
  refine ⟨⟨h1, h2, ?_, ?_⟩, ?_⟩
  · show c.receivers - 1 = _; simp only [SubCell.dropReceiver]; omega
  · intro hb
    simp only [SubCell.dropReceiver] at hb ⊢
    rcases hb with hb | hb
    · simp [h4 (.inl hb)]
    · have : c.receivers = 1 := by omega
      simp [this]
  · simp only [SubCell.dropReceiver, SubCell.bare, Bool.or_eq_true, beq_iff_eq]
    constructor
    · rintro (h | h)
      · exact .inl h
      · exact .inr (.inr (by omega))
    · rintro (h | h | h)
      · exact .inl h
      · exact .inl (h4 (.inl h))
      · exact .inr (by omega)

/-- A pointer fewer, whoever had it. -/
theorem CellOk.dropPointer {n n' : Nat} {c : SubCell} {h h' : Holding} (ok : CellOk n c h)
    (hp : n + h.pointers = n' + h'.pointers + 1) (hs : h'.senders = h.senders) (hr : h'.receivers = h.receivers) :
    CellOk n' c.dropPointer h' ∧ (c.dropPointer.closed = true ↔ c.closed = true ∨ c.dropPointer.bare) := by
  obtain ⟨h1, h2, h3, h4⟩ := ok
  unfold SubCell.dropPointer
  dsimp only
  by_cases e : c.strong = 1
  · rw [if_pos e]
    simp only [SubCell.dropSender, SubCell.dropReceiver, SubCell.bare, Bool.or_eq_true, beq_iff_eq]
    refine ⟨⟨?_, ?_, ?_, ?_⟩, ?_⟩
    · dsimp only; omega
    · dsimp only; omega
    · dsimp only; omega
    · dsimp only
      intro hb
      simp only [Bool.or_eq_true, beq_iff_eq]
      omega
    · constructor
      · rintro ((h | h) | h)
        · exact .inl h
        · exact .inr (.inr (by omega))
        · exact .inr (.inl (by omega))
      · rintro (h | h | h)
        · exact .inl (.inl h)
        · exact .inr (by omega)
        · exact .inl (.inr (by omega))
  · rw [if_neg e]
    refine ⟨⟨?_, ?_, ?_, h4⟩, ?_⟩
    · dsimp only; omega
    · dsimp only; omega
    · dsimp only; omega
    · constructor
      · exact .inl
      · rintro (h | h)
        · exact h
        · exact h4 h

/-- What holds at every moment. -/
structure Sound (w : SubWorld) : Prop where
  maps : Maps w.pool
  cells : ∀ x, x < w.pool.mgr.made → CellOk (keptCount w.pool x) (w.cells x) (w.held x)
  unmade : ∀ x, w.pool.mgr.made ≤ x → w.cells x = .unmade ∧ w.held x = ⟨0, 0, 0⟩

theorem kept_iff {w : SubWorld} (h : Sound w) (x : Nat) : Kept w.pool x ↔ Listed w x ∨ ToClose w x := by
  unfold Kept Listed ToClose
  rw [mem_takens]
  refine or_congr ?_ Iff.rfl
  constructor
  · rintro ⟨s, k, h1⟩; exact ⟨k, s, h.maps.get.mpr h1⟩
  · rintro ⟨k, s, h1⟩; exact ⟨s, k, h.maps.get.mp h1⟩

theorem abandoned_iff {w : SubWorld} (h : Sound w) {x : Nat} (hx : Known w x) : Abandoned w x ↔ (w.cells x).bare := by
  obtain ⟨h1, h2, h3, -⟩ := h.cells x hx
  have hk := kept_iff h x
  unfold keptCount at h1
  unfold Abandoned SubCell.bare
  by_cases e : Kept w.pool x
  · rw [if_pos e] at h1
    have := hk.mp e
    constructor
    · rintro ⟨a, b, -⟩
      rcases this with c | c
      · exact absurd c a
      · exact absurd c b
    · intro; omega
  · rw [if_neg e] at h1
    have : ¬ Listed w x ∧ ¬ ToClose w x := ⟨fun a => e (hk.mpr (.inl a)), fun a => e (hk.mpr (.inr a))⟩
    constructor
    · rintro ⟨-, -, a, b⟩; omega
    · intro a
      exact ⟨this.1, this.2, by omega, by omega⟩

/-- What a step may do to a world that is sound. -/
def Fine (w w' : SubWorld) (st : SubStep) : Prop :=
  Sound w' ∧ ∀ x, w'.closed x = true ↔ w.closed x = true ∨ Closes w x st ∨ (Known w' x ∧ (w'.cells x).bare)

theorem Fine.still {w : SubWorld} (h : Sound w) {st : SubStep} (hst : ∀ x, Closes w x st → False) : Fine w w st := by
  refine ⟨h, fun x => ⟨.inl, ?_⟩⟩
  rintro (h1 | h1 | ⟨h1, h2⟩)
  · exact h1
  · exact (hst x h1).elim
  · exact (h.cells x h1).shut h2

/-- A user does something with what they hold of one subscription. -/
theorem Fine.put {w : SubWorld} (h : Sound w) {st : SubStep} {x : Nat} {c : SubCell} {hd : Holding}
    (hx : x < w.pool.mgr.made) (ok : CellOk (keptCount w.pool x) c hd) (hst : ∀ y, Closes w y st → y = x)
    (hc : c.closed = true ↔ (w.cells x).closed = true ∨ Closes w x st ∨ c.bare) : Fine w (w.put x c hd) st := by
  refine ⟨⟨h.maps, ?_, ?_⟩, ?_⟩
  · intro y hy
    by_cases e : y = x
    · subst e; simpa [SubWorld.put] using ok
    · simpa [SubWorld.put, e] using h.cells y hy
  · intro y hy
    have : y ≠ x := by have : w.pool.mgr.made ≤ y := hy; omega
    simpa [SubWorld.put, this] using h.unmade y hy
  · intro y
    by_cases e : y = x
    · subst e
      have : Known (w.put y c hd) y := hx
      have h2 : (w.put y c hd).cells y = c := by simp [SubWorld.put]
      simp only [SubWorld.closed, h2, this, true_and]
      exact hc
    · have h1 : ¬ Closes w y st := fun a => e (hst y a)
      have h2 : (w.put x c hd).cells y = w.cells y := by simp [SubWorld.put, e]
      have h3 : Known (w.put x c hd) y ↔ y < w.pool.mgr.made := Iff.rfl
      simp only [SubWorld.closed, h2, h1, h3, false_or]
      constructor
      · exact .inl
      · rintro (a | ⟨a, b⟩)
        · exact a
        · exact (h.cells y a).shut b

theorem keptCount_le (p : SubPool) (x : Nat) : keptCount p x ≤ 1 := by
  unfold keptCount; split <;> omega

theorem keptCount_congr {p q : SubPool} {x : Nat} (h : Kept q x ↔ Kept p x) : keptCount q x = keptCount p x := by
  unfold keptCount
  by_cases e : Kept p x
  · rw [if_pos e, if_pos (h.mpr e)]
  · rw [if_neg e, if_neg (fun a => e (h.mp a))]

/-- A thread makes a step within the manager's functions. -/
theorem Fine.call {w : SubWorld} (h : Sound w) (shard : UInt32 → Nat) (i : Nat) : Fine w (w.step shard (.call i)) (.call i) := by
  unfold SubWorld.step
  dsimp only
  cases hi : w.pool.threads[i]? with
  | none =>
    have he : w.pool.stepAt shard i = w.pool := by unfold SubPool.stepAt; rw [hi]
    dsimp only
    rw [he]
    refine Fine.still h ?_
    rintro x ⟨l, hl⟩
    rw [hi] at hl; cases hl
  | some t =>
    obtain ⟨hm, hmv⟩ := h.maps.step shard hi
    dsimp only
    have hclo : ∀ x, Closes w x (.call i) ↔ t.effect (w.pool.free shard) w.pool.mgr = .closes x := by
      intro x
      simp only [Closes, hi]
      constructor
      · rintro ⟨l, hl⟩; cases hl; rfl
      · intro he
        unfold SubThread.effect at he
        split at he
        · split at he
          · split at he <;> cases he
          · cases he
        · split at he
          · split at he <;> cases he
          · cases he
        · cases he; exact ⟨_, rfl⟩
        · cases he
    generalize hq : w.pool.stepAt shard i = q at hm hmv
    cases he : t.effect (w.pool.free shard) w.pool.mgr with
    | nothing =>
      rw [he] at hmv hclo
      obtain ⟨h1, h2⟩ := hmv
      have hno : ∀ x, ¬ Closes w x (.call i) := fun x hx => by have := (hclo x).mp hx; cases this
      dsimp only
      refine ⟨⟨hm, ?_, ?_⟩, ?_⟩
      · intro x hx
        rw [show (_ : Nat) = keptCount w.pool x from keptCount_congr (h2 x)]
        exact h.cells x (by have : x < q.mgr.made := hx; omega)
      · intro x hx
        exact h.unmade x (by have : q.mgr.made ≤ x := hx; omega)
      · intro x
        simp only [SubWorld.closed, hno, false_or]
        constructor
        · exact .inl
        · rintro (a | ⟨a, b⟩)
          · exact a
          · exact (h.cells x (by have : x < q.mgr.made := a; omega)).shut b
    | makes x =>
      rw [he] at hmv hclo
      obtain ⟨h0, h1, h2⟩ := hmv
      have hno : ∀ x, ¬ Closes w x (.call i) := fun x hx => by have := (hclo x).mp hx; cases this
      have hnk : ¬ Kept w.pool x := fun a => by have := Kept.known h.maps.chan a; omega
      have hk : keptCount q x = 1 := by unfold keptCount; rw [if_pos ((h2 x).mpr (.inr rfl))]
      obtain ⟨hc, hh⟩ := h.unmade x (by omega)
      dsimp only
      refine ⟨⟨hm, ?_, ?_⟩, ?_⟩
      · intro y hy
        have hy : y < q.mgr.made := hy
        by_cases e : y = x
        · subst e
          simp only [SubWorld.put, if_true, hh, hk]
          exact ⟨rfl, rfl, rfl, by simp [SubCell.new]⟩
        · have : keptCount q y = keptCount w.pool y := keptCount_congr (by rw [h2]; simp [e])
          simp only [SubWorld.put, if_neg e, this]
          exact h.cells y (by omega)
      · intro y hy
        have hy : q.mgr.made ≤ y := hy
        have e : y ≠ x := by omega
        simp only [SubWorld.put, if_neg e]
        exact h.unmade y (by omega)
      · intro y
        simp only [SubWorld.closed, hno, false_or]
        by_cases e : y = x
        · subst e
          simp [SubWorld.put, hc, SubCell.new, SubCell.unmade, SubCell.bare]
        · simp only [SubWorld.put, if_neg e]
          constructor
          · exact .inl
          · rintro (a | ⟨a, b⟩)
            · exact a
            · exact (h.cells y (by have : y < q.mgr.made := a; omega)).shut b
    | drops x =>
      rw [he] at hmv hclo
      obtain ⟨h1, h0, h2⟩ := hmv
      have hno : ∀ x, ¬ Closes w x (.call i) := fun x hx => by have := (hclo x).mp hx; cases this
      have hx := Kept.known h.maps.chan h0
      have hk : keptCount q x = 0 := by unfold keptCount; rw [if_neg (fun a => ((h2 x).mp a).2 rfl)]
      have hk' : keptCount w.pool x = 1 := by unfold keptCount; rw [if_pos h0]
      obtain ⟨c1, c2⟩ := (h.cells x hx).dropPointer (n' := 0) (h' := w.held x) (by omega) rfl rfl
      dsimp only
      refine ⟨⟨hm, ?_, ?_⟩, ?_⟩
      · intro y hy
        have hy : y < q.mgr.made := hy
        by_cases e : y = x
        · subst e
          simp only [SubWorld.put, if_true, hk]
          exact c1
        · have : keptCount q y = keptCount w.pool y := keptCount_congr (by rw [h2]; simp [e])
          simp only [SubWorld.put, if_neg e, this]
          exact h.cells y (by omega)
      · intro y hy
        have hy : q.mgr.made ≤ y := hy
        have e : y ≠ x := by omega
        simp only [SubWorld.put, if_neg e]
        exact h.unmade y (by omega)
      · intro y
        simp only [SubWorld.closed, hno, false_or]
        by_cases e : y = x
        · subst e
          have : y < q.mgr.made := by omega
          simp only [SubWorld.put, if_true, c2, Known, this, true_and]
        · simp only [SubWorld.put, if_neg e]
          constructor
          · exact .inl
          · rintro (a | ⟨a, b⟩)
            · exact a
            · exact (h.cells y (by have : y < q.mgr.made := a; omega)).shut b
    | closes x =>
      rw [he] at hmv hclo
      obtain ⟨h1, h0, h2⟩ := hmv
      have hx := Kept.known h.maps.chan h0
      have hk : keptCount q x = 0 := by unfold keptCount; rw [if_neg (fun a => ((h2 x).mp a).2 rfl)]
      have hk' : keptCount w.pool x = 1 := by unfold keptCount; rw [if_pos h0]
      have c0 : CellOk (keptCount w.pool x) (w.cells x).close (w.held x) := by
        obtain ⟨a, b, c, d⟩ := h.cells x hx
        exact ⟨a, b, c, fun _ => rfl⟩
      obtain ⟨c1, c2⟩ := c0.dropPointer (n' := 0) (h' := w.held x) (by omega) rfl rfl
      dsimp only
      refine ⟨⟨hm, ?_, ?_⟩, ?_⟩
      · intro y hy
        have hy : y < q.mgr.made := hy
        by_cases e : y = x
        · subst e
          simp only [SubWorld.put, if_true, hk]
          exact c1
        · have : keptCount q y = keptCount w.pool y := keptCount_congr (by rw [h2]; simp [e])
          simp only [SubWorld.put, if_neg e, this]
          exact h.cells y (by omega)
      · intro y hy
        have hy : q.mgr.made ≤ y := hy
        have e : y ≠ x := by omega
        simp only [SubWorld.put, if_neg e]
        exact h.unmade y (by omega)
      · intro y
        simp only [SubWorld.closed, hclo]
        by_cases e : y = x
        · subst e
          simp only [SubWorld.put, if_true, c2, true_or, or_true]
          simp [SubCell.close]
        · have e' : ¬ SubEffect.closes x = SubEffect.closes y := by simpa using Ne.symm e
          simp only [SubWorld.put, if_neg e, e', false_or]
          constructor
          · exact .inl
          · rintro (a | ⟨a, b⟩)
            · exact a
            · exact (h.cells y (by have : y < q.mgr.made := a; omega)).shut b

theorem Sound.known {w : SubWorld} (h : Sound w) {x : Nat} (hx : w.held x ≠ ⟨0, 0, 0⟩) : x < w.pool.mgr.made := by
  rcases Nat.lt_or_ge x w.pool.mgr.made with h1 | h1
  · exact h1
  · exact absurd (h.unmade x h1).2 hx

/-- One more pointer or end. -/
theorem CellOk.grow {n : Nat} {c c' : SubCell} {h h' : Holding} (ok : CellOk n c h) (hp : c'.strong = c.strong + (h'.pointers - h.pointers))
    (hs : c'.senders = c.senders + (h'.senders - h.senders)) (hr : c'.receivers = c.receivers + (h'.receivers - h.receivers))
    (hc : c'.closed = c.closed) (h1 : h.pointers ≤ h'.pointers) (h2 : h.senders ≤ h'.senders) (h3 : h.receivers ≤ h'.receivers)
    (h0 : c.strong ≠ 0 ∨ h'.pointers = h.pointers) :
    CellOk n c' h' ∧ (c'.closed = true ↔ c.closed = true ∨ c'.bare) := by
  obtain ⟨a, b, d, e⟩ := ok
  refine ⟨⟨by omega, by omega, by omega, ?_⟩, ?_⟩
  · intro hb; rw [hc]; exact e (by omega)
  · rw [hc]
    constructor
    · exact .inl
    · rintro (f | f)
      · exact f
      · unfold SubCell.bare at f; exact e (by omega)

theorem Fine.step {w : SubWorld} (h : Sound w) (shard : UInt32 → Nat) (st : SubStep) : Fine w (w.step shard st) st := by
  have grow : ∀ {x c' h'}, x < w.pool.mgr.made → (∀ y, ¬ Closes w y st) →
      c'.strong = (w.cells x).strong + (h'.pointers - (w.held x).pointers) →
      c'.senders = (w.cells x).senders + (h'.senders - (w.held x).senders) →
      c'.receivers = (w.cells x).receivers + (h'.receivers - (w.held x).receivers) → c'.closed = (w.cells x).closed →
      (w.held x).pointers ≤ h'.pointers → (w.held x).senders ≤ h'.senders → (w.held x).receivers ≤ h'.receivers →
      ((w.cells x).strong ≠ 0 ∨ h'.pointers = (w.held x).pointers) → Fine w (w.put x c' h') st := by
    intro x c' h' hx hno h1 h2 h3 h4 h5 h6 h7 h8
    obtain ⟨g1, g2⟩ := (h.cells x hx).grow h1 h2 h3 h4 h5 h6 h7 h8
    exact Fine.put h hx g1 (fun y hy => (hno y hy).elim) (by rw [g2]; simp [hno])
  have pos : ∀ {x}, (w.held x).pointers ≠ 0 → x < w.pool.mgr.made ∧ (w.cells x).strong ≠ 0 := by
    intro x hp
    have hx := h.known (x := x) (fun e => hp (by rw [e]))
    have := (h.cells x hx).strong
    exact ⟨hx, by omega⟩
  cases st with
  | call i => exact Fine.call h shard i
  | upgrade x =>
    have hno : ∀ y, ¬ Closes w y (.upgrade x) := fun _ => id
    unfold SubWorld.step SubCell.upgrade
    dsimp only
    by_cases e : (w.cells x).strong = 0
    · rw [if_pos e]; exact Fine.still h hno
    · rw [if_neg e]
      have hx : x < w.pool.mgr.made := by
        rcases Nat.lt_or_ge x w.pool.mgr.made with h1 | h1
        · exact h1
        · rw [(h.unmade x h1).1] at e; exact absurd rfl e
      exact grow hx hno (by dsimp only; omega) (by dsimp only; omega) (by dsimp only; omega) rfl (by simp) (by simp) (by simp) (.inl e)
  | clonePointer x =>
    have hno : ∀ y, ¬ Closes w y (.clonePointer x) := fun _ => id
    unfold SubWorld.step
    dsimp only
    by_cases e : (w.held x).pointers = 0
    · rw [if_pos e]; exact Fine.still h hno
    · rw [if_neg e]
      exact grow (pos e).1 hno (by dsimp only; omega) (by dsimp only; omega) (by dsimp only; omega) rfl (by simp) (by simp) (by simp) (.inl (pos e).2)
  | dropPointer x =>
    have hno : ∀ y, ¬ Closes w y (.dropPointer x) := fun _ => id
    unfold SubWorld.step
    dsimp only
    by_cases e : (w.held x).pointers = 0
    · rw [if_pos e]; exact Fine.still h hno
    · rw [if_neg e]
      obtain ⟨c1, c2⟩ := (h.cells x (pos e).1).dropPointer (n' := keptCount w.pool x)
        (h' := { w.held x with pointers := (w.held x).pointers - 1 }) (by dsimp only; omega) rfl rfl
      exact Fine.put h (pos e).1 c1 (fun y hy => hy.elim) (by rw [c2]; simp [hno])
  | sender x =>
    have hno : ∀ y, ¬ Closes w y (.sender x) := fun _ => id
    unfold SubWorld.step
    dsimp only
    by_cases e : (w.held x).pointers = 0
    · rw [if_pos e]; exact Fine.still h hno
    · rw [if_neg e]
      exact grow (pos e).1 hno (by dsimp only; omega) (by dsimp only; omega) (by dsimp only; omega) rfl (by simp) (by simp) (by simp) (.inl (pos e).2)
  | receiver x =>
    have hno : ∀ y, ¬ Closes w y (.receiver x) := fun _ => id
    unfold SubWorld.step
    dsimp only
    by_cases e : (w.held x).pointers = 0
    · rw [if_pos e]; exact Fine.still h hno
    · rw [if_neg e]
      exact grow (pos e).1 hno (by dsimp only; omega) (by dsimp only; omega) (by dsimp only; omega) rfl (by simp) (by simp) (by simp) (.inl (pos e).2)
  | cloneSender x =>
    have hno : ∀ y, ¬ Closes w y (.cloneSender x) := fun _ => id
    unfold SubWorld.step
    dsimp only
    by_cases e : (w.held x).senders = 0
    · rw [if_pos e]; exact Fine.still h hno
    · rw [if_neg e]
      exact grow (h.known fun e' => e (by rw [e'])) hno (by dsimp only; omega) (by dsimp only; omega) (by dsimp only; omega) rfl (by simp) (by simp) (by simp) (.inr rfl)
  | cloneReceiver x =>
    have hno : ∀ y, ¬ Closes w y (.cloneReceiver x) := fun _ => id
    unfold SubWorld.step
    dsimp only
    by_cases e : (w.held x).receivers = 0
    · rw [if_pos e]; exact Fine.still h hno
    · rw [if_neg e]
      exact grow (h.known fun e' => e (by rw [e'])) hno (by dsimp only; omega) (by dsimp only; omega) (by dsimp only; omega) rfl (by simp) (by simp) (by simp) (.inr rfl)
  | dropSender x =>
    have hno : ∀ y, ¬ Closes w y (.dropSender x) := fun _ => id
    unfold SubWorld.step
    dsimp only
    by_cases e : (w.held x).senders = 0
    · rw [if_pos e]; exact Fine.still h hno
    · rw [if_neg e]
      have hx := h.known (x := x) fun e' => e (by rw [e'])
      obtain ⟨c1, c2⟩ := (h.cells x hx).dropSender e
      exact Fine.put h hx c1 (fun y hy => hy.elim) (by rw [c2]; simp [hno])
  | dropReceiver x =>
    have hno : ∀ y, ¬ Closes w y (.dropReceiver x) := fun _ => id
    unfold SubWorld.step
    dsimp only
    by_cases e : (w.held x).receivers = 0
    · rw [if_pos e]; exact Fine.still h hno
    · rw [if_neg e]
      have hx := h.known (x := x) fun e' => e (by rw [e'])
      obtain ⟨c1, c2⟩ := (h.cells x hx).dropReceiver e
      exact Fine.put h hx c1 (fun y hy => hy.elim) (by rw [c2]; simp [hno])
  | close x =>
    unfold SubWorld.step
    dsimp only
    by_cases e : w.held x = ⟨0, 0, 0⟩
    · rw [if_pos e]
      refine Fine.still h ?_
      rintro y ⟨rfl, hy⟩
      exact hy e
    · rw [if_neg e]
      have hx := h.known e
      refine Fine.put h hx ?_ (fun y hy => hy.1.symm) ?_
      · obtain ⟨a, b, c, d⟩ := h.cells x hx
        exact ⟨a, b, c, fun _ => rfl⟩
      · have : Closes w x (.close x) := ⟨rfl, e⟩
        simp [this, SubCell.close]

theorem subworld_snoc (shard : UInt32 → Nat) (w : SubWorld) (run : List SubStep) (st : SubStep) :
    w.exec shard (run ++ [st]) = (w.exec shard run).step shard st := by
  simp [SubWorld.exec]

theorem subworld_append (shard : UInt32 → Nat) (w : SubWorld) (a b : List SubStep) :
    w.exec shard (a ++ b) = (w.exec shard a).exec shard b := by
  simp [SubWorld.exec]

theorem Sound.exec {w : SubWorld} (h : Sound w) (shard : UInt32 → Nat) (run : List SubStep) : Sound (w.exec shard run) := by
  induction run using snoc_ind with
  | h0 => exact h
  | h1 run st ih => rw [subworld_snoc]; exact (Fine.step ih shard st).1

theorem Sound.begin (calls : List SubCall) : Sound (subWorld calls) := by
  have hc : SubChannels (subPool calls) := subChannels_ok calls (fun _ => 0) []
  refine ⟨⟨hc, ?_, ?_⟩, ?_, ?_⟩
  · intro s m hm; cases hm
  · have : takens (subWorld calls).pool.threads = [] := by
      apply List.eq_nil_iff_forall_not_mem.mpr
      intro x hx
      obtain ⟨l, h1, h2⟩ := mem_takens.mp hx
      simp only [subWorld, subPool, List.mem_map] at h1
      obtain ⟨c, -, h1⟩ := h1
      unfold SubCall.thread at h1
      split at h1 <;> cases h1
    rw [this]; simp
  · intro x hx; exact absurd hx (Nat.not_lt_zero _)
  · intro x _; exact ⟨rfl, rfl⟩

theorem upgrades_iff {w : SubWorld} (h : Sound w) (x : Nat) :
    w.upgrades x = true ↔ Listed w x ∨ ToClose w x ∨ (w.held x).pointers ≠ 0 := by
  have hu : w.upgrades x = true ↔ (w.cells x).strong ≠ 0 := by
    unfold SubWorld.upgrades SubCell.upgrade
    by_cases e : (w.cells x).strong = 0 <;> simp [e]
  rw [hu, ← or_assoc, ← kept_iff h]
  rcases Nat.lt_or_ge x w.pool.mgr.made with hx | hx
  · rw [(h.cells x hx).strong]
    unfold keptCount
    by_cases e : Kept w.pool x
    · rw [if_pos e]; simp [e]
    · rw [if_neg e]; simp [e]
  · obtain ⟨h1, h2⟩ := h.unmade x hx
    have : ¬ Kept w.pool x := fun a => by have := Kept.known h.maps.chan a; omega
    simp [h1, h2, this, SubCell.unmade]

theorem gone_step {w : SubWorld} (h : Sound w) (shard : UInt32 → Nat) (st : SubStep) {x : Nat} (hx : Known w x)
    (hg : (w.cells x).strong = 0) : Known (w.step shard st) x ∧ ((w.step shard st).cells x).strong = 0 := by
  have hp : (w.held x).pointers = 0 := by have := (h.cells x hx).strong; omega
  have keep : ∀ {w' : SubWorld} {y c hd}, Known w' x → (w'.cells x).strong = 0 → (y = x → c.strong = 0) →
      Known (w'.put y c hd) x ∧ ((w'.put y c hd).cells x).strong = 0 := by
    intro w' y c hd h1 h2 h3
    refine ⟨h1, ?_⟩
    unfold SubWorld.put
    dsimp only
    by_cases e : x = y
    · rw [if_pos e]; exact h3 e.symm
    · rw [if_neg e]; exact h2
  have still : Known w x ∧ (w.cells x).strong = 0 := ⟨hx, hg⟩
  have fewer : ∀ c : SubCell, c.strong = 0 → c.dropPointer.strong = 0 := by
    intro c hc
    unfold SubCell.dropPointer
    simp [hc]
  cases st with
  | call i =>
    unfold SubWorld.step
    dsimp only
    cases hi : w.pool.threads[i]? with
    | none =>
      have he : w.pool.stepAt shard i = w.pool := by unfold SubPool.stepAt; rw [hi]
      dsimp only
      rw [he]
      exact still
    | some t =>
      obtain ⟨-, hmv⟩ := h.maps.step shard hi
      have hx' : x < w.pool.mgr.made := hx
      dsimp only
      split
      · rename_i he
        rw [he] at hmv
        exact ⟨by show x < (w.pool.stepAt shard i).mgr.made; have := hmv.1; omega, hg⟩
      · rename_i y he
        rw [he] at hmv
        refine keep (by show x < (w.pool.stepAt shard i).mgr.made; have := hmv.2.1; omega) hg ?_
        intro e
        have := hmv.1
        omega
      · rename_i y he
        rw [he] at hmv
        refine keep (by show x < (w.pool.stepAt shard i).mgr.made; have := hmv.1; omega) hg ?_
        intro e
        rw [e]
        exact fewer _ hg
      · rename_i y he
        rw [he] at hmv
        refine keep (by show x < (w.pool.stepAt shard i).mgr.made; have := hmv.1; omega) hg ?_
        intro e
        rw [e]
        exact fewer _ hg
  | upgrade y =>
    unfold SubWorld.step SubCell.upgrade
    dsimp only
    by_cases e : (w.cells y).strong = 0
    · rw [if_pos e]; exact still
    · rw [if_neg e]
      exact keep hx hg (fun e' => absurd (e' ▸ hg) e)
  | clonePointer y =>
    unfold SubWorld.step
    dsimp only
    by_cases e : (w.held y).pointers = 0
    · rw [if_pos e]; exact still
    · rw [if_neg e]
      exact keep hx hg (fun e' => absurd (e' ▸ hp) e)
  | dropPointer y =>
    unfold SubWorld.step
    dsimp only
    by_cases e : (w.held y).pointers = 0
    · rw [if_pos e]; exact still
    · rw [if_neg e]
      exact keep hx hg (fun e' => absurd (e' ▸ hp) e)
  | sender y =>
    unfold SubWorld.step
    dsimp only
    by_cases e : (w.held y).pointers = 0
    · rw [if_pos e]; exact still
    · rw [if_neg e]
      exact keep hx hg (fun e' => absurd (e' ▸ hp) e)
  | receiver y =>
    unfold SubWorld.step
    dsimp only
    by_cases e : (w.held y).pointers = 0
    · rw [if_pos e]; exact still
    · rw [if_neg e]
      exact keep hx hg (fun e' => absurd (e' ▸ hp) e)
  | cloneSender y =>
    unfold SubWorld.step
    dsimp only
    split
    · exact still
    · exact keep hx hg (fun e' => e' ▸ hg)
  | cloneReceiver y =>
    unfold SubWorld.step
    dsimp only
    split
    · exact still
    · exact keep hx hg (fun e' => e' ▸ hg)
  | dropSender y =>
    unfold SubWorld.step
    dsimp only
    split
    · exact still
    · exact keep hx hg (fun e' => e' ▸ hg)
  | dropReceiver y =>
    unfold SubWorld.step
    dsimp only
    split
    · exact still
    · exact keep hx hg (fun e' => e' ▸ hg)
  | close y =>
    unfold SubWorld.step
    dsimp only
    split
    · exact still
    · exact keep hx hg (fun e' => e' ▸ hg)

theorem not_upgrades {w : SubWorld} {x : Nat} : w.upgrades x = false ↔ (w.cells x).strong = 0 := by
  unfold SubWorld.upgrades SubCell.upgrade
  by_cases e : (w.cells x).strong = 0 <;> simp [e]

/-- **C130.** However calls of the manager from several threads and the doings of users with what they hold are
interleaved, at every moment a handle of a subscription leads to it exactly if `get` finds the subscription under
some key of some session, or a `remove_session` that is going on has yet to close it, or some user still has a
pointer to it. Once the handles of a subscription that was made lead nowhere, they do so for ever. -/
theorem C130_handles (calls : List SubCall) (shard : UInt32 → Nat) (run : List SubStep) (x : Nat) :
    (((subWorld calls).exec shard run).upgrades x = true ↔
      Listed ((subWorld calls).exec shard run) x ∨ ToClose ((subWorld calls).exec shard run) x ∨
      (((subWorld calls).exec shard run).held x).pointers ≠ 0) ∧
    (Known ((subWorld calls).exec shard run) x → ((subWorld calls).exec shard run).upgrades x = false →
      ∀ more, ((subWorld calls).exec shard (run ++ more)).upgrades x = false) := by
  have hs := (Sound.begin calls).exec shard run
  refine ⟨upgrades_iff hs x, ?_⟩
  intro hx hu more
  rw [subworld_append]
  generalize (subWorld calls).exec shard run = w at hs hx hu
  rw [not_upgrades] at hu ⊢
  have : Known (w.exec shard more) x ∧ ((w.exec shard more).cells x).strong = 0 := by
    induction more using snoc_ind with
    | h0 => exact ⟨hx, hu⟩
    | h1 more st ih =>
      rw [subworld_snoc]
      exact gone_step (hs.exec shard more) shard st ih.1 ih.2
  exact this.2

/-- **C132.** Under every interleaving, the channel of a subscription is closed exactly if, at some time so far, a user
who held something of it closed it, or a `remove_session` did, or it was abandoned: `get` did not find the
subscription any more, no user had a pointer to it, and users held no sender or no receiver of it. -/
theorem C132_closed_exactly (calls : List SubCall) (shard : UInt32 → Nat) (run : List SubStep) (x : Nat) :
    ((subWorld calls).exec shard run).closed x = true ↔
      ∃ pre st post, run = pre ++ st :: post ∧
        (Closes ((subWorld calls).exec shard pre) x st ∨
          (Known ((subWorld calls).exec shard (pre ++ [st])) x ∧ Abandoned ((subWorld calls).exec shard (pre ++ [st])) x)) := by
  induction run using snoc_ind with
  | h0 =>
    constructor
    · intro h; cases h
    · rintro ⟨pre, st, post, h, -⟩
      simp at h
  | h1 run st ih =>
    have hs := (Sound.begin calls).exec shard run
    obtain ⟨hs', hc⟩ := Fine.step hs shard st
    rw [subworld_snoc, hc, ih]
    constructor
    · rintro (⟨pre, st', post, rfl, h⟩ | h | ⟨h1, h2⟩)
      · exact ⟨pre, st', post ++ [st], by simp, h⟩
      · exact ⟨run, st, [], rfl, .inl h⟩
      · refine ⟨run, st, [], rfl, .inr ?_⟩
        rw [subworld_snoc]
        exact ⟨h1, (abandoned_iff hs' h1).mpr h2⟩
    · rintro ⟨pre, st', post, he, h⟩
      rcases split_snoc.mp he with ⟨rfl, rfl, rfl⟩ | ⟨q, rfl, rfl⟩
      · rcases h with h | ⟨h1, h2⟩
        · exact .inr (.inl h)
        · rw [subworld_snoc] at h1 h2
          exact .inr (.inr ⟨h1, (abandoned_iff hs' h1).mp h2⟩)
      · exact .inl ⟨pre, st', q, rfl, h⟩

theorem closed_mono {w : SubWorld} (h : Sound w) (shard : UInt32 → Nat) {x : Nat} (hc : w.closed x = true) (more : List SubStep) :
    (w.exec shard more).closed x = true := by
  induction more using snoc_ind with
  | h0 => exact hc
  | h1 more st ih =>
    rw [subworld_snoc]
    exact ((Fine.step (h.exec shard more) shard st).2 x).mpr (.inl ih)

theorem pool_step (w : SubWorld) (shard : UInt32 → Nat) (st : SubStep) :
    (w.step shard st).pool = match st with
      | .call i => w.pool.stepAt shard i
      | _ => w.pool := by
  cases st with
  | call i =>
    unfold SubWorld.step
    dsimp only
    split
    · rfl
    · split <;> rfl
  | upgrade y => unfold SubWorld.step; dsimp only; split <;> rfl
  | _ => unfold SubWorld.step; dsimp only; split <;> rfl

/-- **C133.** When a `remove_session` takes effect, the session's subscriptions are not found any more, and when it
returns, their channels are closed and stay closed, whoever holds what of them and whatever else happens. -/
theorem C133_removed_closed (calls : List SubCall) (shard : UInt32 → Nat) (run more : List SubStep) (i : Nat) (s : UInt32)
    (k : Bytes) (x : Nat) (b : Bool)
    (hi : ((subWorld calls).exec shard run).pool.threads[i]? = some (.removeSession s))
    (hf : ((subWorld calls).exec shard run).pool.free shard s = true)
    (hx : ((subWorld calls).exec shard run).pool.mgr.get k s = some x)
    (hd : ((subWorld calls).exec shard (run ++ .call i :: more)).pool.threads[i]? = some (.sessionRemoved b)) :
    b = true ∧ ((subWorld calls).exec shard (run ++ [.call i])).pool.mgr.get k s = none ∧
    ((subWorld calls).exec shard (run ++ .call i :: more)).closed x = true ∧
    ∀ later, ((subWorld calls).exec shard (run ++ .call i :: more ++ later)).closed x = true := by
  have hs := (Sound.begin calls).exec shard run
  have e1 : run ++ .call i :: more = (run ++ [.call i]) ++ more := by simp
  rw [e1] at hd ⊢
  rw [subworld_append] at hd
  have hs1 := (Sound.begin calls).exec shard (run ++ [.call i])
  have hs2 := hs1.exec shard more
  have hpool : ((subWorld calls).exec shard (run ++ [.call i])).pool = ((subWorld calls).exec shard run).pool.stepAt shard i := by
    rw [subworld_snoc, pool_step]
  obtain ⟨m, hm, hmem⟩ := get_mem hx
  have hstep : ((subWorld calls).exec shard run).pool.stepAt shard i =
      { threads := ((subWorld calls).exec shard run).pool.threads.set i (.closing (m.map (·.2))),
        mgr := { ((subWorld calls).exec shard run).pool.mgr with
          sessions := fun j => if j = s then none else ((subWorld calls).exec shard run).pool.mgr.sessions j } } := by
    unfold SubPool.stepAt
    rw [hi]
    simp only [SubThread.step, hf, if_true, hm]
  have hget : ((subWorld calls).exec shard (run ++ [.call i])).pool.mgr.get k s = none := by
    rw [hpool, hstep]; simp [PubSub.get]
  have hth : ((subWorld calls).exec shard (run ++ [.call i])).pool.threads[i]? = some (.closing (m.map (·.2))) := by
    rw [hpool, hstep]; exact set_get_self hi
  have main : ∀ more, let w := ((subWorld calls).exec shard (run ++ [.call i])).exec shard more
      (∃ l, w.pool.threads[i]? = some (.closing l) ∧ (x ∈ l ∨ w.closed x = true)) ∨
      (w.pool.threads[i]? = some (.sessionRemoved true) ∧ w.closed x = true) := by
    intro more
    induction more using snoc_ind with
    | h0 => exact .inl ⟨_, hth, .inl (List.mem_map.mpr ⟨_, hmem, rfl⟩)⟩
    | h1 more st ih =>
      dsimp only at ih ⊢
      rw [subworld_snoc]
      have hsw := hs1.exec shard more
      generalize ((subWorld calls).exec shard (run ++ [.call i])).exec shard more = w at ih hsw
      have hfine := (Fine.step hsw shard st).2 x
      have mono : w.closed x = true → (w.step shard st).closed x = true := fun h => hfine.mpr (.inl h)
      have keep : (∀ t, w.pool.threads[i]? = some t → (w.step shard st).pool.threads[i]? = some t) →
          (∃ l, (w.step shard st).pool.threads[i]? = some (.closing l) ∧ (x ∈ l ∨ (w.step shard st).closed x = true)) ∨
          ((w.step shard st).pool.threads[i]? = some (.sessionRemoved true) ∧ (w.step shard st).closed x = true) := by
        intro hk
        rcases ih with ⟨l, h1, h2⟩ | ⟨h1, h2⟩
        · exact .inl ⟨l, hk _ h1, h2.imp id mono⟩
        · exact .inr ⟨hk _ h1, mono h2⟩
      have hps := pool_step w shard st
      by_cases e : st = .call i
      · subst e
        dsimp only at hps
        have hat : ∀ t, w.pool.threads[i]? = some t → (w.step shard (.call i)).pool.threads[i]? =
            some (t.step (w.pool.free shard) w.pool.mgr).1 := by
          intro t ht
          rw [hps]
          unfold SubPool.stepAt
          rw [ht]
          exact set_get_self ht
        rcases ih with ⟨l, h1, h2⟩ | ⟨h1, h2⟩
        · cases l with
          | nil =>
            rcases h2 with h2 | h2
            · cases h2
            · exact .inr ⟨hat _ h1, mono h2⟩
          | cons y l =>
            refine .inl ⟨l, hat _ h1, ?_⟩
            rcases h2 with h2 | h2
            · rcases List.mem_cons.mp h2 with rfl | h2
              · exact .inr (hfine.mpr (.inr (.inl ⟨l, h1⟩)))
              · exact .inl h2
            · exact .inr (mono h2)
        · exact .inr ⟨hat _ h1, mono h2⟩
      · refine keep ?_
        intro t ht
        rw [hps]
        split
        · rename_i j
          have hj : i ≠ j := fun e' => e (by rw [e'])
          unfold SubPool.stepAt
          split
          · exact ht
          · exact (set_get_ne hj).trans ht
        · exact ht
  have hfin := main more
  dsimp only at hfin
  rw [← subworld_append] at hfin
  rw [← subworld_append] at hd
  have hcl : b = true ∧ ((subWorld calls).exec shard (run ++ [.call i] ++ more)).closed x = true := by
    rcases hfin with ⟨l, h1, -⟩ | ⟨h1, h2⟩
    · rw [hd] at h1; cases h1
    · rw [hd] at h1; cases h1; exact ⟨rfl, h2⟩
  refine ⟨hcl.1, hget, hcl.2, ?_⟩
  intro later
  rw [subworld_append]
  exact closed_mono ((Sound.begin calls).exec shard _) shard hcl.2 later

/-- **C131 as one would want it:** when an `unsubscribe` that finds the session subscribed returns, the channel of that
subscription is closed. -/
def C131_Statement : Prop :=
  ∀ calls shard run i k s b x, ((subWorld calls).exec shard run).pool.threads[i]? = some (.unsubscribing k s b) →
    ((subWorld calls).exec shard run).pool.free shard s = true →
    ((subWorld calls).exec shard run).pool.mgr.get k s = some x →
    ((subWorld calls).exec shard (run ++ [.call i])).closed x = true

/-- **C131, what holds.** When an `unsubscribe` that finds the session subscribed returns, `get` does not find the
subscription any more; its handles still lead to it exactly if a user has a pointer to it; and its channel is closed
exactly if it was already, or no user has a pointer to it and users hold no sender or no receiver of it. Missing
from the statement above: that the channel is closed if users hold a pointer, or both a sender and a receiver
(false). -/
theorem C131_unsubscribed_partial (calls : List SubCall) (shard : UInt32 → Nat) (run : List SubStep) (i : Nat) (k : Bytes)
    (s : UInt32) (b : Bool) (x : Nat)
    (hi : ((subWorld calls).exec shard run).pool.threads[i]? = some (.unsubscribing k s b))
    (hf : ((subWorld calls).exec shard run).pool.free shard s = true)
    (hx : ((subWorld calls).exec shard run).pool.mgr.get k s = some x) :
    let w := (subWorld calls).exec shard run
    let w' := (subWorld calls).exec shard (run ++ [.call i])
    w'.pool.threads[i]? = some (.unsubscribed true) ∧ w'.pool.mgr.get k s = none ∧
    (w'.upgrades x = true ↔ (w.held x).pointers ≠ 0) ∧
    (w'.closed x = true ↔ w.closed x = true ∨
      ((w.held x).pointers = 0 ∧ ((w.held x).senders = 0 ∨ (w.held x).receivers = 0))) := by
  dsimp only
  have hs := (Sound.begin calls).exec shard run
  rw [subworld_snoc]
  generalize (subWorld calls).exec shard run = w at hs hi hf hx
  have hfine := Fine.step hs shard (.call i)
  have hps := pool_step w shard (.call i)
  dsimp only at hps
  obtain ⟨hm, hmv⟩ := hs.maps.step shard hi
  have hef : SubThread.effect (w.pool.free shard) w.pool.mgr (.unsubscribing k s b) = .drops x := by
    simp only [SubThread.effect, hf, if_true, hx]
  rw [hef] at hmv
  obtain ⟨h1, h0, h2⟩ := hmv
  have hkn : Known w x := Kept.known hs.maps.chan h0
  have hkn' : Known (w.step shard (.call i)) x := by
    show x < _
    rw [hps, h1]; exact hkn
  have hnk : ¬ Kept (w.step shard (.call i)).pool x := by
    rw [hps, h2]; simp
  have hheld : (w.step shard (.call i)).held x = w.held x := by
    unfold SubWorld.step
    dsimp only
    rw [hi]
    dsimp only
    rw [hef]
    simp [SubWorld.put]
  refine ⟨?_, ?_, ?_, ?_⟩
  · rw [hps]
    unfold SubPool.stepAt
    rw [hi]
    refine (set_get_self hi).trans ?_
    simp only [SubThread.step, hf, if_true]
    rw [unsubscribeSession_answer, hx]
    simp
  · rw [hps]
    unfold SubPool.stepAt
    rw [hi]
    simp only [SubThread.step, hf, if_true]
    have := get_unsubscribeSession w.pool.mgr k k s s
    simpa using this
  · rw [upgrades_iff hfine.1, ← or_assoc, ← kept_iff hfine.1, hheld]
    simp [hnk]
  · have hno : ¬ Closes w x (.call i) := by
      rintro ⟨l, hl⟩
      rw [hi] at hl; cases hl
    rw [hfine.2 x]
    have ha := abandoned_iff hfine.1 hkn'
    rw [← ha]
    have hl := kept_iff hfine.1 x
    unfold Abandoned
    rw [hheld]
    have h3 : ¬ Listed (w.step shard (.call i)) x := fun a => hnk (hl.mpr (.inl a))
    have h4 : ¬ ToClose (w.step shard (.call i)) x := fun a => hnk (hl.mpr (.inr a))
    simp [hno, hkn', h3, h4]

/-- A subscription is made, a user keeps a sender and a receiver of its channel and drops the pointer; then the session
unsubscribes. -/
def keptEnds : List SubStep :=
  [.call 0, .call 0, .upgrade 0, .sender 0, .receiver 0, .dropPointer 0, .call 1]

/-- The channel stays open. -/
theorem C131_false : ¬ C131_Statement := by
  intro h
  have := h [.op (.subscribe [7] 1), .op (.unsubscribe [7] 1)] (fun s => s.toNat) keptEnds 1 [7] 1 true 0 (by decide) (by decide) (by decide)
  revert this
  decide

/-- Beside C130 and C131: after the unsubscribing the handle leads nowhere and the channel is open. -/
example :
    let w := (subWorld [.op (.subscribe [7] 1), .op (.unsubscribe [7] 1)]).exec (fun s => s.toNat) (keptEnds ++ [.call 1])
    w.pool.threads = [.subscribed (some 0), .unsubscribed true] ∧ w.upgrades 0 = false ∧ w.closed 0 = false := by
  decide

/-- Beside C131 and C132: if the user drops the receiver, the channel is closed. -/
example :
    let w := (subWorld [.op (.subscribe [7] 1), .op (.unsubscribe [7] 1)]).exec (fun s => s.toNat)
      (keptEnds ++ [.call 1, .dropReceiver 0])
    w.upgrades 0 = false ∧ w.closed 0 = true := by
  decide

/-- Beside C130 and C133: a user keeps a pointer and a sender while the session is removed; the handle leads to the
subscription, whose channel is closed. -/
example :
    let run := [.call 0, .call 0, .upgrade 0, .sender 0]
    let w := subWorld [.op (.subscribe [7] 1), .op (.removeSession 1)]
    ((w.exec (fun s => s.toNat) run).pool.threads[1]? = some (.removeSession 1) ∧
      (w.exec (fun s => s.toNat) run).pool.free (fun s => s.toNat) 1 = true ∧
      (w.exec (fun s => s.toNat) run).pool.mgr.get [7] 1 = some 0) ∧
    let w' := w.exec (fun s => s.toNat) (run ++ .call 1 :: [.call 1, .call 1])
    w'.pool.threads[1]? = some (.sessionRemoved true) ∧ w'.upgrades 0 = true ∧ w'.closed 0 = true := by
  decide

end Hop
